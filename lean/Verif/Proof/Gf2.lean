import Mathlib.Algebra.Ring.Basic
import Mathlib.Algebra.Group.Nat.Even
import Mathlib.Dynamics.PeriodicPts.Defs
import Mathlib.Data.Nat.Prime.Basic
import Mathlib.Data.Nat.Bitwise
import Mathlib.Tactic.Ring
import Mathlib.Tactic.NoncommRing
/-!
Arithmetic of polynomials over GF(2) modulo a fixed polynomial, coded as natural numbers (bit `i` is
the coefficient of `x^i`), and its evaluation in a ring of characteristic 2.
-/
namespace CE.Gf2

/-- multiply by `x` modulo the degree `n` polynomial `p` -/
def xt (n p f : Nat) : Nat :=
  bif Nat.testBit (2 * f) n then Nat.xor (2 * f) p else 2 * f

/-- product of `a` and the low `k` bits of `b` modulo `p` -/
def mul (n p : Nat) : Nat → Nat → Nat → Nat
  | 0, _, _ => 0
  | k + 1, a, b => Nat.xor (bif Nat.beq (b % 2) 1 then a else 0) (mul n p k (xt n p a) (b / 2))

/-- `a ^ e` by squaring, `e < 2 ^ fuel` -/
def pow (n p : Nat) : Nat → Nat → Nat → Nat
  | 0, _, _ => 1
  | f + 1, a, e =>
    bif Nat.beq (e % 2) 1 then mul n p n a (pow n p f (mul n p n a a) (e / 2))
    else pow n p f (mul n p n a a) (e / 2)

variable {R : Type} [Ring R] (t : R)

/-- value of the low `k` bits of `f` at `t` -/
def ev : Nat → Nat → R
  | 0, _ => 0
  | k + 1, f => (if f % 2 = 1 then 1 else 0) + t * ev k (f / 2)

theorem ev_xor (h2 : ∀ x : R, x + x = 0) (k f g : Nat) :
    ev t k (f ^^^ g) = ev t k f + ev t k g := by
  induction k generalizing f g with
  | zero => simp [ev]
  | succ k ih =>
    simp only [ev, Nat.xor_div_two, ih]
    have : (f ^^^ g) % 2 = (f % 2 + g % 2) % 2 := by
      have := Nat.xor_mod_two_eq (m := f) (n := g)
      omega
    rw [this]
    have h11 : (1 : R) + 1 = 0 := h2 1
    rcases Nat.mod_two_eq_zero_or_one f with hf | hf <;>
      rcases Nat.mod_two_eq_zero_or_one g with hg | hg <;> simp [hf, hg, mul_add]
    · abel
    · abel
    · rw [show (1 : R) + t * ev t k (f / 2) + (1 + t * ev t k (g / 2)) =
        (1 + 1) + (t * ev t k (f / 2) + t * ev t k (g / 2)) by abel, h11, zero_add]

theorem ev_zero (k : Nat) : ev t k 0 = 0 := by
  induction k with
  | zero => rfl
  | succ k ih => simp [ev, ih]

theorem ev_one (k : Nat) (hk : 0 < k) : ev t k 1 = 1 := by
  cases k with
  | zero => omega
  | succ k => simp [ev, ev_zero]

theorem ev_double (k f : Nat) : ev t (k + 1) (2 * f) = t * ev t k f := by
  simp [ev]

theorem ev_succ (k f : Nat) (hf : f < 2 ^ k) : ev t (k + 1) f = ev t k f := by
  induction k generalizing f with
  | zero => simp at hf; subst hf; simp [ev]
  | succ k ih =>
    rw [ev, ih (f / 2) (by omega)]; rfl

theorem ev_two (k : Nat) (hk : 1 < k) : ev t k 2 = t := by
  obtain ⟨j, rfl⟩ : ∃ j, k = j + 2 := ⟨k - 2, by omega⟩
  rw [show (2 : Nat) = 2 * 1 from rfl, ev_double, ev_one t _ (by omega), mul_one]

theorem ev_comm (k f : Nat) : t * ev t k f = ev t k f * t := by
  induction k generalizing f with
  | zero => simp [ev]
  | succ k ih =>
    simp only [ev, mul_add, add_mul]
    rw [ih (f / 2), ← mul_assoc t (ev t k (f / 2)) t, ih (f / 2)]
    congr 1
    split <;> simp

section
variable (n p : Nat) (hp : ev t (n + 1) p = 0) (hpn : p < 2 ^ (n + 1)) (hpb : p.testBit n = true)
  (h2 : ∀ x : R, x + x = 0)
include hpn hpb
omit [Ring R]

theorem xt_lt (f : Nat) (hf : f < 2 ^ n) : xt n p f < 2 ^ n := by
  unfold xt
  by_cases h : (2 * f).testBit n = true
  · rw [h]
    apply Nat.lt_pow_two_of_testBit
    intro i hi
    change Nat.testBit ((2 * f) ^^^ p) i = false
    rw [Nat.testBit_xor]
    rcases Nat.eq_or_lt_of_le hi with rfl | hi
    · rw [h, hpb]; rfl
    · have e : 2 ^ (n + 1) ≤ 2 ^ i := Nat.pow_le_pow_right (by omega) hi
      rw [Nat.testBit_lt_two_pow (show 2 * f < 2 ^ i by omega),
        Nat.testBit_lt_two_pow (show p < 2 ^ i by omega)]; rfl
  · have h : (2 * f).testBit n = false := by simpa using h
    rw [h]
    apply Nat.lt_pow_two_of_testBit
    intro i hi
    change Nat.testBit (2 * f) i = false
    rcases Nat.eq_or_lt_of_le hi with rfl | hi
    · exact h
    · have e : 2 ^ (n + 1) ≤ 2 ^ i := Nat.pow_le_pow_right (by omega) hi
      rw [Nat.testBit_lt_two_pow (show 2 * f < 2 ^ i by omega)]

theorem mul_lt (k a b : Nat) (ha : a < 2 ^ n) : mul n p k a b < 2 ^ n := by
  induction k generalizing a b with
  | zero => simp [mul]
  | succ k ih =>
    unfold mul
    apply Nat.xor_lt_two_pow
    · cases Nat.beq (b % 2) 1 <;> simp [ha]
    · exact ih _ _ (xt_lt n p hpn hpb a ha)

theorem pow_lt (hn : 0 < n) (fuel a e : Nat) (ha : a < 2 ^ n) : pow n p fuel a e < 2 ^ n := by
  induction fuel generalizing a e with
  | zero => simp [pow]; omega
  | succ f ih =>
    unfold pow
    cases Nat.beq (e % 2) 1
    · exact ih _ _ (mul_lt n p hpn hpb n a a ha)
    · exact mul_lt n p hpn hpb n a _ ha
end

section
variable (n p : Nat) (hp : ev t (n + 1) p = 0) (hpn : p < 2 ^ (n + 1)) (hpb : p.testBit n = true)
  (h2 : ∀ x : R, x + x = 0)
include hp hpn hpb h2

theorem ev_xt (f : Nat) (hf : f < 2 ^ n) : ev t n (xt n p f) = t * ev t n f := by
  rw [← ev_succ t n _ (xt_lt n p hpn hpb f hf), ← ev_double]
  unfold xt
  cases (2 * f).testBit n
  · rfl
  · change ev t (n + 1) ((2 * f) ^^^ p) = _
    rw [ev_xor t h2, hp, add_zero]

theorem ev_mul (k a b : Nat) (ha : a < 2 ^ n) :
    ev t n (mul n p k a b) = ev t n a * ev t k b := by
  induction k generalizing a b with
  | zero => simp [mul, ev, ev_zero]
  | succ k ih =>
    unfold mul
    change ev t n (_ ^^^ _) = _
    rw [ev_xor t h2, ih _ _ (xt_lt n p hpn hpb a ha), ev_xt t n p hp hpn hpb h2 a ha, ev_comm,
      mul_assoc, ev, mul_add]
    congr 1
    rcases Nat.mod_two_eq_zero_or_one b with h | h <;> simp [h, ev_zero, Nat.beq]

theorem ev_pow (hn : 0 < n) (fuel a e : Nat) (ha : a < 2 ^ n) (he : e < 2 ^ fuel) :
    ev t n (pow n p fuel a e) = ev t n a ^ e := by
  induction fuel generalizing a e with
  | zero =>
    simp at he; subst he
    simp [pow, ev_one t n hn]
  | succ f ih =>
    unfold pow
    have hs := mul_lt n p hpn hpb n a a ha
    have e1 := ih _ (e / 2) hs (by omega)
    rw [ev_mul t n p hp hpn hpb h2 n a a ha, ← sq, ← pow_mul] at e1
    rcases Nat.mod_two_eq_zero_or_one e with h | h
    · simp only [h, Nat.beq, cond_false]
      rw [e1]; congr 1; omega
    · simp only [h, Nat.beq, cond_true]
      rw [ev_mul t n p hp hpn hpb h2 n a _ ha, e1, ← pow_succ']
      congr 1; omega
end

end CE.Gf2
