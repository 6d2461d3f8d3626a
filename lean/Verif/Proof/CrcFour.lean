import Verif.Proof.CrcErrors
import Verif.Proof.Gf2Spread
import Verif.Proof.CrcTables
/-!
No polynomial of four terms and degree at most 5274 is a multiple of the Castagnoli polynomial.

In the ring of remainders `1 + x^a = x^(Z a) * g` for every `a` from 1 to 5274, with a common `g`.  Four terms that vanish are
`1 + x^a = x^b * (1 + x^d)`, so `Z a = b + Z d`: the logarithms of `a` and `d` are close to each other.  Among the logarithms, in
increasing order, this is only possible for neighbours, and is excluded for each of these.
-/
namespace CE.Crc.Four
open Polynomial CE.Gf2

/-! ### the check, to be evaluated by the kernel -/

/-- `f k` for all `k < n` -/
def allb (f : Nat → Bool) (n : Nat) : Bool := Nat.rec true (fun k ih => bif f k then ih else false) n

theorem allb_spec {f : Nat → Bool} {n : Nat} (h : allb f n = true) : ∀ k, k < n → f k = true := by
  induction n with
  | zero => intro k hk; omega
  | succ n ih =>
    have e : allb f (n + 1) = bif f n then allb f n else false := rfl
    rw [e] at h
    cases hf : f n with
    | false => rw [hf] at h; cases h
    | true =>
      rw [hf] at h
      intro k hk
      rcases Nat.lt_or_eq_of_le (Nat.le_of_lt_succ hk) with hk | rfl
      · exact ih h k hk
      · exact hf

theorem bif_true {c x : Bool} (h : (bif c then x else false) = true) : c = true ∧ x = true := by
  cases c <;> simp_all

/-- continue with the value evaluated -/
def force (n : Nat) (k : Nat → Bool) : Bool := Nat.rec (k 0) (fun m _ => k (Nat.succ m)) n

theorem force_eq (n : Nat) (k : Nat → Bool) : force n k = k n := by cases n <;> rfl

def mulP (a b : Nat) : Nat := mulS gen mu m66 m68 m70 a b

/-- continue with the product, if it has degree below 32 -/
def mulK (a b : Nat) (k : Nat → Bool) : Bool := force (mulP a b) fun r => bif Nat.ble r m32 then k r else false

def get (T i : Nat) : Nat := Nat.land (Nat.shiftRight T (Nat.mul 192 i)) m32

/-- add 1 -/
def inc (u : Nat) : Nat := Nat.land (Nat.succ u) m33

def Z (i : Nat) : Nat := Nat.mod (Nat.shiftRight CZ (Nat.mul 31 i)) 2147483648
def A (i : Nat) : Nat := Nat.mod (Nat.shiftRight CA (Nat.mul 13 i)) 8192
def pos (a : Nat) : Nat := Nat.mod (Nat.shiftRight CP (Nat.mul 13 a)) 8192

/-- the tables hold powers of `T 1` -/
def tableOk (T : Nat) : Bool :=
  bif Nat.beq (get T 0) 1 then allb (fun i => Nat.beq (mulP (get T i) (get T 1)) (get T (Nat.succ i))) 255 else false

/-- `1 + x^a` of the entry after `i` is that of `i` times a power of `x` -/
def stepOk (i : Nat) : Bool :=
  force (A i) fun a => force (A (Nat.succ i)) fun a' => force (Nat.sub (Z (Nat.succ i)) (Z i)) fun g =>
  bif Nat.ble g 16777215 then
  mulK (get T0 (Nat.mod a 256)) (get T1 (Nat.div a 256)) fun u =>
  mulK (get T0 (Nat.mod a' 256)) (get T1 (Nat.div a' 256)) fun u' =>
  mulK (inc u) (get T0 (Nat.mod g 256)) fun p =>
  mulK p (get T1 (Nat.mod (Nat.div g 256) 256)) fun p =>
  mulK p (get T2 (Nat.div g 65536)) fun p =>
  Nat.beq p (inc u')
  else false

/-- the logarithms increase, those two places apart by more than 5274, and neighbours do not give four terms -/
def apartOk (i : Nat) : Bool :=
  force (Z i) fun z => force (Z (Nat.succ i)) fun z' => force (Z (Nat.succ (Nat.succ i))) fun z'' =>
  bif Nat.ble z' z then false else
  bif Nat.ble (bif Nat.ble 5272 i then 2147483648 else z'') (Nat.add z 5274) then false else
  bif Nat.ble (Nat.sub z' z) (A (Nat.succ i)) then true else Nat.ble 5275 (Nat.add (Nat.sub z' z) (A i))

def posOk (a : Nat) : Bool :=
  force (pos (Nat.succ a)) fun i => bif Nat.ble i 5273 then Nat.beq (A i) (Nat.succ a) else false

set_option maxRecDepth 20000 in
theorem tables0 : tableOk T0 = true := by decide +kernel
set_option maxRecDepth 20000 in
theorem tables1 : tableOk T1 = true := by decide +kernel
set_option maxRecDepth 20000 in
theorem tables2 : tableOk T2 = true := by decide +kernel
theorem table1 : Nat.beq (mulP (get T0 255) (get T0 1)) (get T1 1) = true := by decide +kernel
theorem table2 : Nat.beq (mulP (get T1 255) (get T1 1)) (get T2 1) = true := by decide +kernel
theorem pos_ok : allb posOk 5274 = true := by decide +kernel
theorem apart_ok : allb apartOk 5273 = true := by decide +kernel
theorem step_ok : allb stepOk 5273 = true := by decide +kernel

/-! ### what it says -/

theorem m32_eq : m32 = mask 32 := by decide +kernel
theorem m33_eq : m33 = mask 33 := by decide +kernel
theorem m66_eq : m66 = mask 66 := by decide +kernel
theorem m68_eq : m68 = mask 68 := by decide +kernel
theorem m70_eq : m70 = mask 70 := by decide +kernel
theorem gen_sl : gen = gen &&& mask 33 := by decide +kernel
theorem x_eq : get T0 1 = 64 := by decide +kernel

theorem pos_spec (a : Nat) (h1 : 1 ≤ a) (h : a ≤ 5274) : ∃ i, i ≤ 5273 ∧ A i = a := by
  obtain ⟨b, rfl⟩ : ∃ b, a = b + 1 := ⟨a - 1, by omega⟩
  have h := allb_spec pos_ok b (by omega)
  unfold posOk at h
  rw [force_eq] at h
  obtain ⟨h1, h2⟩ := bif_true h
  exact ⟨_, Nat.le_of_ble_eq_true h1, Nat.eq_of_beq_eq_true h2⟩

theorem apart_spec (i : Nat) (hi : i < 5273) : Z i < Z (i + 1) ∧ (i < 5272 → Z i + 5274 < Z (i + 2)) ∧
    (Z (i + 1) - Z i ≤ A (i + 1) ∨ 5275 ≤ Z (i + 1) - Z i + A i) := by
  have h := allb_spec apart_ok i hi
  unfold apartOk at h
  rw [force_eq, force_eq, force_eq] at h
  change (bif Nat.ble (Z (i + 1)) (Z i) then false else bif Nat.ble (bif Nat.ble 5272 i then 2147483648 else Z (i + 2)) (Z i + 5274) then false else
    bif Nat.ble (Z (i + 1) - Z i) (A (i + 1)) then true else Nat.ble 5275 (Z (i + 1) - Z i + A i)) = true at h
  cases h1 : Nat.ble (Z (i + 1)) (Z i) with
  | true => rw [h1] at h; cases h
  | false =>
    rw [h1, cond_false] at h
    cases h3 : Nat.ble (bif Nat.ble 5272 i then 2147483648 else Z (i + 2)) (Z i + 5274) with
    | true => rw [h3] at h; cases h
    | false =>
      rw [h3, cond_false] at h
      refine ⟨?_, fun h5 => ?_, ?_⟩
      · by_contra hc
        rw [Nat.ble_eq_true_of_le (by omega)] at h1; cases h1
      · by_contra hc
        have h6 : Nat.ble 5272 i = false := by
          cases h7 : Nat.ble 5272 i with
          | false => rfl
          | true => have := Nat.le_of_ble_eq_true h7; omega
        rw [h6, cond_false, Nat.ble_eq_true_of_le (by omega)] at h3; cases h3
      · cases h4 : Nat.ble (Z (i + 1) - Z i) (A (i + 1)) with
        | true => exact Or.inl (Nat.le_of_ble_eq_true h4)
        | false => rw [h4, cond_false] at h; exact Or.inr (Nat.le_of_ble_eq_true h)

theorem Z_mono {i j : Nat} (h : i ≤ j) (hj : j ≤ 5273) : Z i ≤ Z j := by
  induction j with
  | zero =>
    have : i = 0 := by omega
    subst this; exact Nat.le_refl _
  | succ j ih =>
    rcases Nat.lt_or_eq_of_le h with h | rfl
    · have := ih (by omega) (by omega)
      have := (apart_spec j (by omega)).1
      omega
    · exact Nat.le_refl _

theorem ends : Z 0 = 0 ∧ Z 5273 + 5274 < 2147483647 := by decide +kernel

section
variable {R : Type} [CommRing R] (t : R)

/-- an element of the ring in six bits for each coefficient -/
structure Rep (a : Nat) (v : R) : Prop where
  sl : Sl 1 a
  lt : a < 64 ^ 33
  val : val t 33 a = v

variable {t} (h2 : ∀ x : R, x + x = 0) (hg : CE.Gf2.val t 33 gen = 0)
include h2 hg

theorem rep_mul {a b r : Nat} {v w : R} (ha : Rep t a v) (hb : Rep t b w) (hr : mulP a b = r) (hlt : r < 64 ^ 33) : Rep t r (v * w) := by
  have g1 : Sl 1 gen := by rw [gen_sl]; exact mask_sl _ _
  have g2 : gen < 64 ^ 33 := by rw [gen_sl]; exact land_lt _ _
  have := val_mulS t h2 gen mu a b g1 g2 hg ha.sl hb.sl ha.lt hb.lt
  unfold mulP at hr
  rw [m66_eq, m68_eq, m70_eq] at hr
  rw [hr] at this
  refine ⟨this.1, hlt, ?_⟩
  rw [← ha.val, ← hb.val, ← this.2, show (70 : Nat) = 33 + 37 by rfl, val_long t 37 hlt]

omit h2 hg in
theorem lt33 {r : Nat} (h : r ≤ m32) : r < 64 ^ 33 := by
  rw [m32_eq] at h
  have := mask_lt 32
  have : (64 : Nat) ^ 32 ≤ 64 ^ 33 := Nat.pow_le_pow_right (by omega) (by omega)
  omega

theorem mulK_spec {a b : Nat} {v w : R} {k : Nat → Bool} (ha : Rep t a v) (hb : Rep t b w) (h : mulK a b k = true) :
    ∃ r, Rep t r (v * w) ∧ k r = true := by
  unfold mulK at h
  rw [force_eq] at h
  obtain ⟨hr, h⟩ := bif_true h
  exact ⟨_, rep_mul h2 hg ha hb rfl (lt33 (Nat.le_of_ble_eq_true hr)), h⟩

omit h2 hg in
theorem get_sl (T i : Nat) : Sl 1 (get T i) ∧ get T i ≤ m32 := by
  have : get T i = (T >>> (192 * i)) &&& m32 := rfl
  rw [this]
  exact ⟨by rw [m32_eq]; exact mask_sl _ _, Nat.and_le_right⟩

omit hg in
theorem rep_inc {u : Nat} {v : R} (h : Rep t u v) : Rep t (inc u) (1 + v) := by
  have e : inc u = (1 + u) &&& mask 33 := by rw [Nat.add_comm, ← m33_eq]; rfl
  have o : Sl 1 1 := by
    intro i
    cases i with
    | zero => decide
    | succ i => rw [Nat.div_eq_of_lt (Nat.one_lt_pow (by omega) (by omega))]; omega
  refine ⟨by rw [e]; exact mask_sl _ _, by rw [e]; exact land_lt _ _, ?_⟩
  rw [e, val_mask t h2, val_add t o h.sl (by omega), h.val]
  congr 1
  simp [CE.Gf2.val]

theorem table_spec {T : Nat} (h : tableOk T = true) {v : R} (h1 : Rep t (get T 1) v) : ∀ i, i < 256 → Rep t (get T i) (v ^ i) := by
  unfold tableOk at h
  cases h0 : Nat.beq (get T 0) 1 with
  | false => rw [h0] at h; cases h
  | true =>
    rw [h0] at h
    have hs := allb_spec (bif_true h).2
    intro i
    induction i with
    | zero =>
      intro _
      have e := Nat.eq_of_beq_eq_true h0
      refine ⟨(get_sl T 0).1, lt33 (get_sl T 0).2, ?_⟩
      rw [e, pow_zero]
      simp [CE.Gf2.val]
    | succ i ih =>
      intro hi
      rw [pow_succ]
      exact rep_mul h2 hg (ih (by omega)) h1 (Nat.eq_of_beq_eq_true (hs i (by omega))) (lt33 (get_sl T _).2)

theorem rep_t0 (i : Nat) (hi : i < 256) : Rep t (get T0 i) (t ^ i) := by
  refine table_spec h2 hg tables0 ⟨(get_sl _ _).1, lt33 (get_sl _ _).2, ?_⟩ i hi
  rw [x_eq]
  simp [CE.Gf2.val]

theorem rep_t1 (i : Nat) (hi : i < 256) : Rep t (get T1 i) (t ^ (256 * i)) := by
  rw [pow_mul]
  refine table_spec h2 hg tables1 ?_ i hi
  have := rep_mul h2 hg (rep_t0 h2 hg 255 (by omega)) (rep_t0 h2 hg 1 (by omega)) (Nat.eq_of_beq_eq_true table1) (lt33 (get_sl _ _).2)
  rwa [← pow_add] at this

theorem rep_t2 (i : Nat) (hi : i < 256) : Rep t (get T2 i) (t ^ (65536 * i)) := by
  rw [pow_mul]
  refine table_spec h2 hg tables2 ?_ i hi
  have := rep_mul h2 hg (rep_t1 h2 hg 255 (by omega)) (rep_t1 h2 hg 1 (by omega)) (Nat.eq_of_beq_eq_true table2) (lt33 (get_sl _ _).2)
  rwa [← pow_add] at this

omit h2 hg in
theorem A_lt (i : Nat) : A i < 8192 := Nat.mod_lt _ (by omega)

theorem step_spec (i : Nat) (hi : i < 5273) : (1 + t ^ A i) * t ^ (Z (i + 1) - Z i) = 1 + t ^ A (i + 1) := by
  have h := allb_spec step_ok i hi
  unfold stepOk at h
  rw [force_eq, force_eq, force_eq] at h
  have a1 := A_lt i
  have a2 := A_lt (i + 1)
  obtain ⟨hb, h⟩ := bif_true h
  have hb : Z (i + 1) - Z i ≤ 16777215 := Nat.le_of_ble_eq_true hb
  change mulK (get T0 (A i % 256)) (get T1 (A i / 256)) _ = true at h
  obtain ⟨u, u2, h⟩ := mulK_spec h2 hg (rep_t0 h2 hg (A i % 256) (by omega)) (rep_t1 h2 hg (A i / 256) (by omega)) h
  change mulK (get T0 (A (i + 1) % 256)) (get T1 (A (i + 1) / 256)) _ = true at h
  obtain ⟨u', u2', h⟩ := mulK_spec h2 hg (rep_t0 h2 hg (A (i + 1) % 256) (by omega)) (rep_t1 h2 hg (A (i + 1) / 256) (by omega)) h
  rw [← pow_add, Nat.mod_add_div] at u2 u2'
  change mulK (inc u) (get T0 ((Z (i + 1) - Z i) % 256)) (fun p => mulK p (get T1 ((Z (i + 1) - Z i) / 256 % 256))
    fun p => mulK p (get T2 ((Z (i + 1) - Z i) / 65536)) _) = true at h
  generalize Z (i + 1) - Z i = g at h hb ⊢
  obtain ⟨p, p2, h⟩ := mulK_spec h2 hg (rep_inc h2 u2) (rep_t0 h2 hg (g % 256) (by omega)) h
  obtain ⟨q, q2, h⟩ := mulK_spec h2 hg p2 (rep_t1 h2 hg (g / 256 % 256) (by omega)) h
  obtain ⟨r, r2, h⟩ := mulK_spec h2 hg q2 (rep_t2 h2 hg (g / 65536) (by omega)) h
  have e := Nat.eq_of_beq_eq_true h
  have := r2.val
  rw [e, (rep_inc h2 u2').val, mul_assoc, mul_assoc, ← pow_add, ← pow_add] at this
  rw [this]
  congr 2
  omega

/-- every `1 + t^a` is a power of `t` times that of the first entry -/
theorem log_spec (i : Nat) (hi : i ≤ 5273) : 1 + t ^ A i = (1 + t ^ A 0) * t ^ (Z i - Z 0) ∧ Z 0 ≤ Z i := by
  induction i with
  | zero => exact ⟨by rw [Nat.sub_self, pow_zero, mul_one], Nat.le_refl _⟩
  | succ i ih =>
    obtain ⟨e, hle⟩ := ih (by omega)
    have hlt := (apart_spec i (by omega)).1
    refine ⟨?_, by omega⟩
    rw [← step_spec h2 hg i (by omega), e, mul_assoc, ← pow_add]
    congr 2
    omega

end

theorem A_zero : A 0 = 1949 := by decide +kernel

/-- a power of `t` that fixes `1 + t^1949` is 1 -/
theorem fix_one {R : Type} [CommRing R] {t : R} (ho : orderOf t = 2147483647) {n : Nat} (h : (1 + t ^ 1949) * t ^ n = 1 + t ^ 1949) :
    2147483647 ∣ n := by
  have hM : t ^ 2147483647 = 1 := by rw [← ho]; exact pow_orderOf_eq_one t
  by_contra hn
  have co : Nat.Coprime n 2147483647 := ((Nat.Prime.coprime_iff_not_dvd prime31).2 hn).symm
  obtain ⟨k, -, hk⟩ := Nat.exists_mul_mod_eq_one_of_coprime co (by norm_num)
  have many : ∀ k : Nat, (1 + t ^ 1949) * t ^ (n * k) = 1 + t ^ 1949 := by
    intro k
    induction k with
    | zero => simp
    | succ k ih => rw [Nat.mul_succ, pow_add, ← mul_assoc, ih, h]
  have h1 : (1 + t ^ 1949) * t = 1 + t ^ 1949 := by
    have e := many k
    rw [← Nat.div_add_mod (n * k) 2147483647, hk, pow_add, pow_mul, hM, one_pow, one_mul, pow_one] at e
    exact e
  have h2 : ∀ k : Nat, (1 + t ^ 1949) * t ^ k = 1 + t ^ 1949 := by
    intro k
    induction k with
    | zero => simp
    | succ k ih => rw [pow_succ t k, ← mul_assoc, ih, h1]
  have h3 := h2 1949
  have h4 : t ^ (1949 + 1949) = 1 := by
    rw [pow_add]
    generalize t ^ 1949 = s at h3
    linear_combination h3
  have := orderOf_dvd_of_pow_eq_one h4
  rw [ho] at this
  exact absurd (Nat.le_of_dvd (by norm_num) this) (by norm_num)

/-- powers of `t` times `1 + t^1949` are different below the order -/
theorem log_unique {R : Type} [CommRing R] {t : R}
    (ho : orderOf t = 2147483647) {y z : Nat} (h : (1 + t ^ A 0) * t ^ y = (1 + t ^ A 0) * t ^ z) (hy : y < 2147483647)
    (hz : z < 2147483647) : y = z := by
  have hM : t ^ 2147483647 = 1 := by rw [← ho]; exact pow_orderOf_eq_one t
  rw [A_zero] at h
  have key : ∀ y z : Nat, y ≤ z → z < 2147483647 → (1 + t ^ 1949) * t ^ y = (1 + t ^ 1949) * t ^ z → y = z := by
    intro y z hyz hz h
    have e : (1 + t ^ 1949) * t ^ (z - y) = 1 + t ^ 1949 := by
      have := congrArg (· * t ^ (2147483647 - y)) h
      simp only [mul_assoc, ← pow_add] at this
      rw [show y + (2147483647 - y) = 2147483647 by omega, show z + (2147483647 - y) = z - y + 2147483647 by omega,
        pow_add, hM, mul_one, mul_one] at this
      exact this.symm
    have := Nat.eq_zero_of_dvd_of_lt (fix_one ho e) (by omega)
    omega
  rcases Nat.le_total y z with hyz | hyz
  · exact key y z hyz hz h
  · exact (key z y hyz hy h.symm).symm

/-- no four terms of degree at most 5274 vanish -/
theorem four_ne {R : Type} [CommRing R] {t : R} (h2 : ∀ x : R, x + x = 0) (hg : CE.Gf2.val t 33 gen = 0)
    (ho : orderOf t = 2147483647) {a b c : Nat} (h0 : 0 < a) (hab : a < b) (hbc : b < c) (hc : c ≤ 5274) :
    1 + t ^ a + t ^ b + t ^ c ≠ 0 := by
  intro h
  obtain ⟨z0, zl⟩ := ends
  obtain ⟨i, hi, rfl⟩ := pos_spec a h0 (by omega)
  obtain ⟨j, hj, hd⟩ := pos_spec (c - b) (by omega) (by omega)
  obtain ⟨e1, -⟩ := log_spec h2 hg i hi
  obtain ⟨e2, -⟩ := log_spec h2 hg j hj
  have yi := Z_mono hi (Nat.le_refl _)
  have yj := Z_mono hj (Nat.le_refl _)
  rw [z0, Nat.sub_zero] at e1 e2
  -- the two sides as powers
  have e : (1 + t ^ A 0) * t ^ Z i = (1 + t ^ A 0) * t ^ (b + Z j) := by
    have hcb : t ^ c = t ^ b * t ^ A j := by rw [hd, ← pow_add]; congr 1; omega
    have : 1 + t ^ A i = t ^ b * (1 + t ^ A j) := by
      rw [hcb] at h
      have k := h2 (t ^ b * (1 + t ^ A j))
      linear_combination h - k
    rw [← e1, this, e2, pow_add]
    ring
  have eq := log_unique ho e (by omega) (by omega)
  -- so the places are neighbours
  have hji : j < i := by
    by_contra hn
    have := Z_mono (Nat.le_of_not_lt hn) hj
    omega
  obtain ⟨_, k2, k3⟩ := apart_spec j (by omega)
  by_cases hn : i = j + 1
  · subst hn; omega
  · have := k2 (by omega)
    have := Z_mono (show j + 2 ≤ i by omega) hi
    omega

theorem gen_val {R : Type} [CommRing R] (t : R) : CE.Gf2.val t 33 gen = CE.Gf2.ev t 33 0x11EDC6F41 := by
  rw [root_ev]
  simp only [CE.Gf2.val, gen]
  norm_num
  ring

/-- four terms of degree at most 5274, shifted by any amount, are no multiple of the generator -/
theorem four_not_dvd {p q r s : Nat} (hpq : p < q) (hqr : q < r) (hrs : r < s) (h : s - p ≤ 5274) :
    ¬ genPoly crc32cPoly ∣ (X ^ p + X ^ q + X ^ r + X ^ s : (ZMod 2)[X]) := by
  intro hd
  rw [← AdjoinRoot.mk_eq_zero] at hd
  simp only [map_add, map_pow, AdjoinRoot.mk_X] at hd
  have ho := root_order _ rfl
  have h2 := root_two (genPoly crc32cPoly)
  have hg : CE.Gf2.val (AdjoinRoot.root (genPoly crc32cPoly)) 33 gen = 0 := by rw [gen_val]; exact root_gen _ rfl
  generalize AdjoinRoot.root (genPoly crc32cPoly) = t at hd ho hg
  apply four_ne h2 hg ho (a := q - p) (b := r - p) (c := s - p) (by omega) (by omega) (by omega) h
  have hM : t ^ 2147483647 = 1 := by rw [← ho]; exact pow_orderOf_eq_one t
  have hu : t ^ p * t ^ (2147483646 * p) = 1 := by
    rw [← pow_add, show p + 2147483646 * p = 2147483647 * p by omega, pow_mul, hM, one_pow]
  have e : t ^ p * (1 + t ^ (q - p) + t ^ (r - p) + t ^ (s - p)) = 0 := by
    rw [mul_add, mul_add, mul_add, mul_one, ← pow_add, ← pow_add, ← pow_add, show p + (q - p) = q by omega,
      show p + (r - p) = r by omega, show p + (s - p) = s by omega, hd]
  have := congrArg (t ^ (2147483646 * p) * ·) e
  simp only [mul_zero] at this
  rw [← mul_assoc, mul_comm (t ^ (2147483646 * p)), hu, one_mul] at this
  exact this

/-- the next longer ones are: degree 5275 -/
theorem four_dvd {p q r : Nat} (e1 : p = 2751) (e2 : q = 4508) (e3 : r = 5275) :
    genPoly crc32cPoly ∣ (1 + X ^ p + X ^ q + X ^ r : (ZMod 2)[X]) := by
  rw [← AdjoinRoot.mk_eq_zero]
  simp only [map_add, map_pow, AdjoinRoot.mk_X, map_one]
  have hp : ∀ n, n < 2 ^ 31 → CE.Gf2.ev (AdjoinRoot.root (genPoly crc32cPoly)) 32 (CE.Gf2.pow 32 0x11EDC6F41 31 2 n) =
      AdjoinRoot.root (genPoly crc32cPoly) ^ n := by
    intro n hn
    have h := CE.Gf2.ev_pow (AdjoinRoot.root (genPoly crc32cPoly)) 32 0x11EDC6F41 (root_gen _ rfl) (by norm_num) (by decide +kernel) (root_two _)
      (by norm_num) 31 2 n (by norm_num) hn
    rw [h, CE.Gf2.ev_two _ _ (by norm_num)]
  have x := CE.Gf2.ev_xor (AdjoinRoot.root (genPoly crc32cPoly)) (root_two _) 32
  rw [← hp p (by omega), ← hp q (by omega), ← hp r (by omega), ← CE.Gf2.ev_one (AdjoinRoot.root (genPoly crc32cPoly)) 32 (by norm_num),
    ← x, ← x, ← x]
  have : 1 ^^^ CE.Gf2.pow 32 0x11EDC6F41 31 2 p ^^^ CE.Gf2.pow 32 0x11EDC6F41 31 2 q ^^^ CE.Gf2.pow 32 0x11EDC6F41 31 2 r = 0 := by
    subst e1 e2 e3
    decide +kernel
  rw [this, CE.Gf2.ev_zero]

end CE.Crc.Four
