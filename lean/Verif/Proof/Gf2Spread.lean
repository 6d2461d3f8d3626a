import Verif.Proof.Gf2
import Mathlib.Data.Nat.Cast.Basic
import Mathlib.Tactic.Linarith
/-!
Polynomials over GF(2) as natural numbers with six bits for each coefficient: the product of two such numbers is the product of
the polynomials with coefficients counted, and a mask takes them modulo 2.  So the kernel multiplies with a few operations on
large numbers.
-/
namespace CE.Gf2

/-- every digit to base 64 is at most `m` -/
def Sl (m s : Nat) : Prop := ∀ i, s / 64 ^ i % 64 ≤ m

theorem Sl.head {m s : Nat} (h : Sl m s) : s % 64 ≤ m := by
  have := h 0
  simpa using this

theorem Sl.tail {m s : Nat} (h : Sl m s) : Sl m (s / 64) := by
  intro i
  have := h (i + 1)
  rwa [Nat.pow_succ', ← Nat.div_div_eq_div_mul] at this

theorem Sl.cons {m s : Nat} (h0 : s % 64 ≤ m) (h : Sl m (s / 64)) : Sl m s := by
  intro i
  cases i with
  | zero => simpa using h0
  | succ i => rw [Nat.pow_succ', ← Nat.div_div_eq_div_mul]; exact h i

theorem Sl.shift {m s : Nat} (h : Sl m s) (k : Nat) : Sl m (s / 64 ^ k) := by
  intro i
  have := h (k + i)
  rwa [Nat.pow_add, ← Nat.div_div_eq_div_mul] at this

theorem Sl.mono {m n s : Nat} (h : Sl m s) (hn : m ≤ n) : Sl n s := fun i => (h i).trans hn

theorem Sl.zero (m : Nat) : Sl m 0 := by intro i; simp

theorem add_digits {m n a b : Nat} (ha : Sl m a) (hb : Sl n b) (h : m + n ≤ 63) :
    (a + b) % 64 = a % 64 + b % 64 ∧ (a + b) / 64 = a / 64 + b / 64 := by
  have := ha.head
  have := hb.head
  omega

theorem Sl.add {m n a b : Nat} (ha : Sl m a) (hb : Sl n b) (h : m + n ≤ 63) : Sl (m + n) (a + b) := by
  intro i
  induction i generalizing a b with
  | zero =>
    have := ha.head
    have := hb.head
    rw [Nat.pow_zero, Nat.div_one, (add_digits ha hb h).1]; omega
  | succ i ih =>
    rw [Nat.pow_succ', ← Nat.div_div_eq_div_mul, (add_digits ha hb h).2]
    exact ih ha.tail hb.tail

theorem Sl.up {m s : Nat} (h : Sl m s) : Sl m (64 * s) :=
  Sl.cons (by rw [Nat.mul_mod_right]; omega) (by rw [Nat.mul_div_cancel_left _ (by omega)]; exact h)

variable {R : Type} [CommRing R] (t : R)

/-- value at `t` of the low `k` digits -/
def val : Nat → Nat → R
  | 0, _ => 0
  | k + 1, s => ((s % 64 : Nat) : R) + t * val k (s / 64)

theorem val_zero (k : Nat) : val t k 0 = 0 := by
  induction k with
  | zero => rfl
  | succ k ih => simp [val, ih]

theorem val_long {k s : Nat} (n : Nat) (h : s < 64 ^ k) : val t (k + n) s = val t k s := by
  induction k generalizing s with
  | zero =>
    have : s = 0 := by simpa using h
    subst this
    rw [val_zero, val_zero]
  | succ k ih =>
    rw [Nat.add_right_comm, val, val, ih (by rw [Nat.pow_succ] at h; omega)]

theorem val_up (k s : Nat) : val t (k + 1) (64 * s) = t * val t k s := by
  rw [val, Nat.mul_mod_right, Nat.mul_div_cancel_left _ (by omega)]; simp

theorem val_add {m n a b : Nat} (ha : Sl m a) (hb : Sl n b) (h : m + n ≤ 63) (k : Nat) :
    val t k (a + b) = val t k a + val t k b := by
  induction k generalizing a b with
  | zero => simp [val]
  | succ k ih =>
    obtain ⟨h1, h2⟩ := add_digits ha hb h
    rw [val, val, val, h1, h2, ih ha.tail hb.tail]
    push_cast
    ring

theorem val_mul {a b : Nat} (j : Nat) (hb : Sl 1 b) (hj : b < 64 ^ j) (k : Nat) (ha : Sl 1 a) (hk : a < 64 ^ k) (h : k ≤ 63) :
    Sl k (a * b) ∧ val t (k + j) (a * b) = val t k a * val t j b := by
  induction k generalizing a with
  | zero =>
    have : a = 0 := by simpa using hk
    subst this
    rw [Nat.zero_mul]
    exact ⟨Sl.zero _, by rw [val_zero, val_zero, zero_mul]⟩
  | succ k ih =>
    obtain ⟨i1, i2⟩ := ih ha.tail (by rw [Nat.pow_succ] at hk; omega) (by omega)
    have e : a * b = 64 * (a / 64 * b) + a % 64 * b := by
      rw [← Nat.mul_assoc, ← Nat.add_mul, Nat.div_add_mod]
    have d : Sl 1 (a % 64 * b) := by
      have := ha.head
      rcases (by omega : a % 64 = 0 ∨ a % 64 = 1) with h | h <;> rw [h]
      · rw [Nat.zero_mul]; exact Sl.zero _
      · rw [Nat.one_mul]; exact hb
    constructor
    · rw [e]; exact i1.up.add d h
    · have hd : val t (k + 1 + j) (a % 64 * b) = ((a % 64 : Nat) : R) * val t j b := by
        have := ha.head
        rcases (by omega : a % 64 = 0 ∨ a % 64 = 1) with h | h <;> rw [h]
        · rw [Nat.zero_mul, val_zero]; simp
        · rw [Nat.one_mul, Nat.add_comm, val_long t _ hj]; simp
      rw [e, val_add t i1.up d h, hd, Nat.add_right_comm, val_up, i2, val]
      ring

/-- one in every digit -/
def mask : Nat → Nat
  | 0 => 0
  | L + 1 => 1 + 64 * mask L

theorem land_mask (s L : Nat) : (s &&& mask (L + 1)) % 64 = s % 64 % 2 ∧ (s &&& mask (L + 1)) / 64 = s / 64 &&& mask L := by
  have e1 : mask (L + 1) % 64 = 1 := by rw [mask]; omega
  have e2 : mask (L + 1) / 64 = mask L := by rw [mask]; omega
  constructor
  · rw [show (64 : Nat) = 2 ^ 6 by rfl, Nat.and_mod_two_pow]
    rw [show (2 ^ 6 : Nat) = 64 by rfl, e1, Nat.and_one_is_mod]
  · have := Nat.shiftRight_and_distrib (a := s) (b := mask (L + 1)) (i := 6)
    rw [Nat.shiftRight_eq_div_pow, Nat.shiftRight_eq_div_pow, Nat.shiftRight_eq_div_pow,
      show (2 ^ 6 : Nat) = 64 by rfl, e2] at this
    exact this

theorem mask_sl (s L : Nat) : Sl 1 (s &&& mask L) := by
  induction L generalizing s with
  | zero => rw [mask, Nat.and_zero]; exact Sl.zero _
  | succ L ih =>
    obtain ⟨h1, h2⟩ := land_mask s L
    exact Sl.cons (by rw [h1]; omega) (by rw [h2]; exact ih _)

theorem mask_lt (L : Nat) : mask L < 64 ^ L := by
  induction L with
  | zero => simp [mask]
  | succ L ih => rw [mask, Nat.pow_succ]; omega

theorem land_lt (s L : Nat) : s &&& mask L < 64 ^ L := lt_of_le_of_lt Nat.and_le_right (mask_lt L)

theorem val_mask (h2 : ∀ x : R, x + x = 0) (s L : Nat) : val t L (s &&& mask L) = val t L s := by
  induction L generalizing s with
  | zero => rfl
  | succ L ih =>
    obtain ⟨e1, e2⟩ := land_mask s L
    rw [val, val, e1, e2, ih]
    have two : ((2 : Nat) : R) = 0 := by rw [show (2 : Nat) = 1 + 1 by rfl, Nat.cast_add]; exact h2 _
    have : ((s % 64 : Nat) : R) = ((s % 64 % 2 : Nat) : R) := by
      conv_lhs => rw [← Nat.div_add_mod (s % 64) 2]
      rw [Nat.cast_add, Nat.cast_mul, two, zero_mul, zero_add]
    rw [this]

/-! ### multiplication modulo a polynomial of degree 32 -/

/-- reduce modulo the polynomial `P`, with the help of `mu`; the masks have 68 and 70 digits -/
def red (P mu m68 m70 c : Nat) : Nat :=
  Nat.land (Nat.add c (Nat.mul (Nat.shiftRight (Nat.land (Nat.mul (Nat.shiftRight c 192) mu) m68) 192) P)) m70

def mulS (P mu m66 m68 m70 a b : Nat) : Nat := red P mu m68 m70 (Nat.land (Nat.mul a b) m66)

theorem shr192 (s : Nat) : Nat.shiftRight s 192 = s / 64 ^ 32 := by
  change s >>> 192 = _
  rw [Nat.shiftRight_eq_div_pow]
  rfl

/-- whatever `mu` is, the result stands for the product -/
theorem val_mulS (h2 : ∀ x : R, x + x = 0) (P mu a b : Nat) (hP : Sl 1 P) (hP33 : P < 64 ^ 33) (hv : val t 33 P = 0)
    (ha : Sl 1 a) (hb : Sl 1 b) (ha3 : a < 64 ^ 33) (hb3 : b < 64 ^ 33) :
    Sl 1 (mulS P mu (mask 66) (mask 68) (mask 70) a b) ∧
    val t 70 (mulS P mu (mask 66) (mask 68) (mask 70) a b) = val t 33 a * val t 33 b := by
  unfold mulS
  have hc : Nat.land (Nat.mul a b) (mask 66) = (a * b) &&& mask 66 := rfl
  have c1 := mask_sl (a * b) 66
  have c2 := land_lt (a * b) 66
  have c3 : val t 66 (a * b &&& mask 66) = val t 33 a * val t 33 b := by
    rw [val_mask t h2, (val_mul t 33 hb hb3 33 ha ha3 (by omega)).2]
  rw [hc]
  generalize (a * b) &&& mask 66 = c at c1 c2 c3
  unfold red
  rw [shr192, shr192]
  have hq : Nat.land (Nat.mul (c / 64 ^ 32) mu) (mask 68) = (c / 64 ^ 32 * mu) &&& mask 68 := rfl
  have q1 := mask_sl (c / 64 ^ 32 * mu) 68
  have q2 := land_lt (c / 64 ^ 32 * mu) 68
  rw [hq]
  generalize (c / 64 ^ 32 * mu) &&& mask 68 = q at q1 q2
  have q3 := q1.shift 32
  have q4 : q / 64 ^ 32 < 64 ^ 36 := by
    rw [Nat.div_lt_iff_lt_mul (by positivity), ← Nat.pow_add]; exact q2
  generalize q / 64 ^ 32 = d at q3 q4
  obtain ⟨d1, d2⟩ := val_mul t 33 hP hP33 36 q3 q4 (by omega)
  rw [hv, mul_zero] at d2
  have hd : d * P < 64 ^ 69 := by
    calc d * P < 64 ^ 36 * 64 ^ 33 := Nat.mul_lt_mul'' q4 hP33
      _ = 64 ^ 69 := by rw [← Nat.pow_add]
  have hs : Nat.land (Nat.add c (Nat.mul d P)) (mask 70) = (c + d * P) &&& mask 70 := rfl
  rw [hs]
  refine ⟨mask_sl _ _, ?_⟩
  rw [val_mask t h2, val_add t c1 d1 (by omega), show (70 : Nat) = 66 + 4 by rfl, val_long t 4 c2, c3,
    show (66 + 4 : Nat) = 36 + 33 + 1 by rfl, val_long t 1 hd, d2, add_zero]

end CE.Gf2
