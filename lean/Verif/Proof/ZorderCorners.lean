import Mathlib.Data.Nat.Size
import Mathlib.Data.List.Sort
import Verif.Proof.ZorderQuery
/-!
# `z_query` between any two corners, and how deep its stack gets
-/
namespace CE.Zorder

/-! ### how often a range of one axis can be halved -/

/-- `k` bounds how often `[a, b]` can be cut with the lower part kept; ranges that end at the end of a block allow a
sharper bound -/
def Pot (a b k : Nat) : Prop :=
  a ≤ b ∧ (b - a < 2 ^ k ∨ (∃ n, a / 2 ^ n = b / 2 ^ n ∧ b % 2 ^ n = 2 ^ n - 1) ∧ b - a + 1 < 2 ^ (k + 1))

theorem div_block {c r n : Nat} (h : r < n) : (n * c + r) / n = c := by
  rw [Nat.mul_add_div (by omega), Nat.div_eq_of_lt h, Nat.add_zero]

theorem div_succ_ne {j q : Nat} (h : j / 2 ^ q ≠ (j + 1) / 2 ^ q) : (j + 1) % 2 ^ q = 0 := by
  by_contra hc
  apply h
  have hp := Nat.two_pow_pos q
  have h1 := Nat.div_add_mod (j + 1) (2 ^ q)
  have h2 := Nat.mod_lt (j + 1) hp
  generalize (j + 1) / 2 ^ q = c at *
  have : j = 2 ^ q * c + ((j + 1) % 2 ^ q - 1) := by omega
  rw [this]
  exact div_block (by omega)

theorem Pot.mono {a b k k' : Nat} (h : Pot a b k) (hk : k ≤ k') : Pot a b k' := by
  have h1 : 2 ^ k ≤ 2 ^ k' := Nat.pow_le_pow_right (by omega) hk
  have h2 : 2 ^ (k + 1) ≤ 2 ^ (k' + 1) := Nat.pow_le_pow_right (by omega) (by omega)
  exact ⟨h.1, h.2.imp (fun h => by omega) (fun h => ⟨h.1, by omega⟩)⟩

/-- one cut -/
theorem axis_pot {l h j i q k : Nat} (hlj : l / 2 ^ q = j / 2 ^ q) (hih : i / 2 ^ q = h / 2 ^ q) (hji : j + 1 = i)
    (hne : j / 2 ^ q ≠ i / 2 ^ q) (h1 : l ≤ j) (h2 : i ≤ h) (hp : Pot l h k) :
    1 ≤ k ∧ Pot l j (k - 1) ∧ Pot i h k := by
  subst hji
  have hm := div_succ_ne hne
  have hpos := Nat.two_pow_pos q
  have hj : j % 2 ^ q = 2 ^ q - 1 := by
    have d := Nat.div_add_mod (j + 1) (2 ^ q)
    have d' := Nat.div_add_mod j (2 ^ q)
    have lt := Nat.mod_lt j hpos
    by_contra hc
    have : (j + 1) / 2 ^ q = j / 2 ^ q := by
      generalize j / 2 ^ q = c at *
      have e : j + 1 = 2 ^ q * c + (j % 2 ^ q + 1) := by omega
      rw [e]
      exact div_block (by clear hp hne hih d; omega)
    exact hne this.symm
  have hk : 1 ≤ k := by
    by_contra hc
    have : k = 0 := by omega
    subst this
    rcases hp.2 with hp | hp
    · simp at hp; omega
    · have := hp.2; simp at this; omega
  have hk2 : 2 ^ (k - 1 + 1) = 2 ^ k := by rw [Nat.sub_add_cancel hk]
  refine ⟨hk, ?_⟩
  rcases hp.2 with hp' | ⟨⟨n, hn1, hn2⟩, hp'⟩
  · refine ⟨⟨h1, Or.inr ⟨⟨q, hlj, hj⟩, by omega⟩⟩, h2, Or.inl (by omega)⟩
  · have hnq : q < n := by
      by_contra hc
      have e : 2 ^ q = 2 ^ n * 2 ^ (q - n) := by rw [← Nat.pow_add]; congr 1; omega
      apply hne
      rw [← hlj, hih, e, ← Nat.div_div_eq_div_mul, ← Nat.div_div_eq_div_mul, hn1]
    have hhq : h % 2 ^ q = 2 ^ q - 1 := by
      have e : 2 ^ n = 2 ^ q * 2 ^ (n - q) := by rw [← Nat.pow_add]; congr 1; omega
      have d := Nat.div_add_mod h (2 ^ n)
      have hp2 := Nat.two_pow_pos (n - q)
      rw [hn2, e] at d
      obtain ⟨w, hw⟩ : ∃ w, 2 ^ (n - q) = w + 1 := ⟨2 ^ (n - q) - 1, by omega⟩
      rw [hw] at d
      have : h = 2 ^ q * ((w + 1) * (h / (2 ^ q * (w + 1))) + w) + (2 ^ q - 1) := by
        have e2 : 2 ^ q * (w + 1) = 2 ^ q * w + 2 ^ q := by ring
        have e3 : 2 ^ q * ((w + 1) * (h / (2 ^ q * (w + 1))) + w) =
            2 ^ q * (w + 1) * (h / (2 ^ q * (w + 1))) + 2 ^ q * w := by ring
        omega
      rw [this, Nat.mul_add_mod, Nat.mod_eq_of_lt (by omega)]
    have dh := Nat.div_add_mod h (2 ^ q)
    have di := Nat.div_add_mod (j + 1) (2 ^ q)
    have dj := Nat.div_add_mod j (2 ^ q)
    have dl := Nat.div_add_mod l (2 ^ q)
    rw [hih, hm] at di
    rw [hhq] at dh
    rw [hlj] at dl
    have hpk : 2 ^ (k + 1) = 2 * 2 ^ k := by rw [Nat.pow_succ, Nat.mul_comm]
    refine ⟨⟨h1, Or.inr ⟨⟨q, hlj, hj⟩, by omega⟩⟩, h2, Or.inr ⟨⟨q, hih, hhq⟩, by omega⟩⟩

/-- `n` bounds how often the rectangle can be cut with the first part kept -/
def Pot2 (L H n : Nat) : Prop := ∃ kx ky, kx + ky ≤ n ∧ Pot (cx L) (cx H) kx ∧ Pot (cy L) (cy H) ky

theorem cx_div_pow (c P : Nat) : cx (c / 2 ^ P) = if P % 2 = 0 then cx c / 2 ^ (P / 2) else cy c / 2 ^ (P / 2) := by
  split
  · next h => rw [cx_div]; congr 2; rw [show (4 : Nat) = 2 ^ 2 by rfl, ← Nat.pow_mul]; congr 1; omega
  · next h =>
    unfold cy
    rw [cx_div, Nat.div_div_eq_div_mul]; congr 2
    rw [show (4 : Nat) = 2 ^ 2 by rfl, ← Nat.pow_mul, ← Nat.pow_succ']; congr 1; omega

theorem cy_div_pow (c P : Nat) : cy (c / 2 ^ P) = if P % 2 = 0 then cy c / 2 ^ (P / 2) else cx c / 2 ^ (P / 2 + 1) := by
  have e : cy (c / 2 ^ P) = cx (c / 2 ^ (P + 1)) := by
    unfold cy; rw [Nat.div_div_eq_div_mul, Nat.pow_succ]
  rw [e, cx_div_pow]
  by_cases h : P % 2 = 0
  · rw [if_neg (by omega), if_pos h]; congr 2; omega
  · rw [if_pos (by omega), if_neg h]; congr 2; omega

theorem div_of_xor {a b P : Nat} (h : a ^^^ b < 2 ^ P) : a / 2 ^ P = b / 2 ^ P := by
  apply Nat.xor_eq_zero_iff.1
  rw [← Nat.xor_div_two_pow]
  exact Nat.div_eq_of_lt h

theorem div_ne_of_bit {a b P : Nat} (h : (a ^^^ b).testBit P = true) : a / 2 ^ P ≠ b / 2 ^ P := by
  intro e
  have : (a ^^^ b) / 2 ^ P = 0 := by rw [Nat.xor_div_two_pow, e, Nat.xor_self]
  rw [show P = 0 + P by omega, ← Nat.testBit_div_two_pow, this] at h
  simp at h

theorem halves_pot {L H J I P n : Nat} (hh : Halves L H J I P) (hP : (L ^^^ H).testBit P = true) (h : Pot2 L H n) :
    1 ≤ n ∧ Pot2 L J (n - 1) ∧ Pot2 I H n := by
  obtain ⟨kx, ky, hk, hx, hy⟩ := h
  have e1 := div_of_xor hh.x1
  have e2 := div_of_xor hh.x2
  have e3 : J / 2 ^ P ≠ I / 2 ^ P := by rw [← e1, e2]; exact div_ne_of_bit hP
  have c1 : cx (L / 2 ^ P) = cx (J / 2 ^ P) := by rw [e1]
  have c2 : cx (I / 2 ^ P) = cx (H / 2 ^ P) := by rw [e2]
  have d2 : cy (I / 2 ^ P) = cy (H / 2 ^ P) := by rw [e2]
  have e4 : ¬ (cx (J / 2 ^ P) = cx (I / 2 ^ P) ∧ cy (J / 2 ^ P) = cy (I / 2 ^ P)) := fun h => e3 (coord_inj h.1 h.2)
  rw [d2] at e4
  rw [cx_div_pow, cx_div_pow] at c1 c2
  rw [cx_div_pow, cx_div_pow, cy_div_pow, cy_div_pow] at e4
  -- the first part agrees with the corner `L` in bit `P`, the corner `H` does not
  have hb : J.testBit P ≠ H.testBit P := by
    have h1 : (L ^^^ J).testBit P = false := Nat.testBit_lt_two_pow hh.x1
    rw [Nat.testBit_xor] at h1 hP
    intro h2
    rw [h2] at h1
    rw [h1] at hP
    cases hP
  have v1 := hh.v1
  have v2 := hh.v2
  rcases hh.strips with ⟨s1, s2, s3⟩ | ⟨s1, s2, s3⟩
  · by_cases hp : P % 2 = 0
    · simp only [if_pos hp] at c1 c2 e4
      rw [s2] at e4
      obtain ⟨a1, a2, a3⟩ := axis_pot c1 c2 s1 (fun h => e4 ⟨h, rfl⟩) v1.2.2.1 v2.2.2.1 hx
      exact ⟨by omega, ⟨kx - 1, ky, by omega, a2, by rw [s2]; exact hy⟩, ⟨kx, ky, hk, a3, by rw [s3]; exact hy⟩⟩
    · exfalso
      apply hb
      have hP2 : P = 2 * (P / 2) + 1 := by omega
      rw [hP2, ← cy_testBit, ← cy_testBit, s2]
  · by_cases hp : P % 2 = 0
    · exfalso
      apply hb
      have hP2 : P = 2 * (P / 2) := by omega
      rw [hP2, ← cx_testBit, ← cx_testBit, s2]
    · simp only [if_neg hp] at c1 c2 e4
      rw [s2] at e4
      obtain ⟨a1, a2, a3⟩ := axis_pot c1 c2 s1 (fun h => e4 ⟨h, rfl⟩) v1.2.2.2 v2.2.2.2 hy
      exact ⟨by omega, ⟨kx, ky - 1, by omega, by rw [s2]; exact hx, a2⟩, ⟨kx, ky, hk, by rw [s3]; exact hx, a3⟩⟩

/-! ### splitting between any codes -/

theorem cell_lt {z : Nat} (h : z < 2 ^ 64) : cell z < 2 ^ 48 := by
  unfold cell
  rw [Nat.div_lt_iff_lt_mul (by norm_num)]
  calc z < 2 ^ 64 := h
    _ = 2 ^ 48 * 2 ^ 16 := by norm_num

theorem cell_bit (z k : Nat) : (cell z * 2 ^ 16).testBit k = (decide (16 ≤ k) && z.testBit k) := by
  rw [Nat.testBit_mul_two_pow]
  by_cases h : 16 ≤ k
  · unfold cell
    rw [Nat.testBit_div_two_pow, Nat.sub_add_cancel h]
  · simp [h]

theorem and_high {z : Nat} (h : z < 2 ^ 64) : z &&& not64 0xffff = cell z * 2 ^ 16 := by
  apply Nat.eq_of_testBit_eq; intro k
  rw [cell_bit, Nat.testBit_and]
  by_cases hk : k < 64
  · rw [not64_testBit k hk, low_testBit]
    by_cases h16 : 16 ≤ k
    · simp [h16, show ¬ k < 16 by omega]
    · simp [h16, show k < 16 by omega]
  · rw [testBit_big h (by omega)]; simp

/-- the low 16 bits of the corners do not matter if the corners are in different cells -/
theorem split_any {lo hi : Nat} (hlo : lo < 2 ^ 64) (hhi : hi < 2 ^ 64) (hne : cell lo ≠ cell hi) :
    split lo hi = split (cell lo * 2 ^ 16) (cell hi * 2 ^ 16) := by
  have hx : cell lo ^^^ cell hi ≠ 0 := fun h => hne (Nat.xor_eq_zero_iff.1 h)
  obtain ⟨P, hP, hab⟩ := Nat.exists_most_significant_bit hx
  have hbit : ∀ z k, (cell z).testBit k = z.testBit (k + 16) := fun z k => Nat.testBit_div_two_pow _ _
  rw [Nat.testBit_xor, hbit, hbit] at hP
  have hm1 := splitMask_testBit (lo := lo) (hi := hi) (p := P + 16) hlo hhi (by rw [Nat.testBit_xor]; exact hP)
    (fun j hj => by
      have := hab (j - 16) (by omega)
      rw [Nat.testBit_xor, hbit, hbit, Nat.sub_add_cancel (by omega)] at this
      rw [Nat.testBit_xor]; exact this)
  have hm2 := splitMask_testBit (lo := cell lo * 2 ^ 16) (hi := cell hi * 2 ^ 16) (p := P + 16)
    (up_lt (cell_lt hlo)) (up_lt (cell_lt hhi))
    (by rw [Nat.testBit_xor, cell_bit, cell_bit]; simpa using hP)
    (fun j hj => by
      have := hab (j - 16) (by omega)
      rw [Nat.testBit_xor, hbit, hbit, Nat.sub_add_cancel (by omega)] at this
      rw [Nat.testBit_xor, cell_bit, cell_bit]
      simp only [show 16 ≤ j by omega, decide_true, Bool.true_and]
      exact this)
  have hm : splitMask lo hi = splitMask (cell lo * 2 ^ 16) (cell hi * 2 ^ 16) :=
    Nat.eq_of_testBit_eq fun k => by rw [hm1, hm2]
  have e1 : ((hi &&& not64 (splitMask lo hi)) ||| splitMask lo hi >>> 2) &&& not64 0xffff =
      ((cell hi * 2 ^ 16 &&& not64 (splitMask lo hi)) ||| splitMask lo hi >>> 2) &&& not64 0xffff := by
    apply Nat.eq_of_testBit_eq; intro k
    simp only [Nat.testBit_and, Nat.testBit_or, cell_bit]
    by_cases hk : k < 64
    · rw [not64_testBit k hk, not64_testBit k hk, low_testBit]
      by_cases h16 : 16 ≤ k
      · simp [h16]
      · simp [show k < 16 by omega]
    · rw [show (not64 0xffff).testBit k = false from testBit_big (by decide) (by omega)]; simp
  have e2 : ((lo ||| splitMask lo hi) &&& not64 (splitMask lo hi >>> 2)) &&& not64 0xffff =
      ((cell lo * 2 ^ 16 ||| splitMask lo hi) &&& not64 (splitMask lo hi >>> 2)) &&& not64 0xffff := by
    apply Nat.eq_of_testBit_eq; intro k
    simp only [Nat.testBit_and, Nat.testBit_or, cell_bit]
    by_cases hk : k < 64
    · rw [not64_testBit k hk, not64_testBit k hk, low_testBit]
      by_cases h16 : 16 ≤ k
      · simp [h16]
      · simp [show k < 16 by omega]
    · rw [show (not64 0xffff).testBit k = false from testBit_big (by decide) (by omega)]; simp
  unfold split
  dsimp only
  rw [e1, e2, hm]

/-- corners in the same cell are not split -/
theorem split_any_same {lo hi : Nat} (hlo : lo < 2 ^ 64) (hhi : hi < 2 ^ 64) (he : cell lo = cell hi) :
    (split lo hi).go = false := by
  by_cases hne : lo ^^^ hi = 0
  · have : lo = hi := Nat.xor_eq_zero_iff.1 hne
    subst this
    have hm : splitMask lo lo = 0 := by unfold splitMask; rw [Nat.xor_self]; decide
    have h64 : lo &&& not64 0 = lo := by
      apply Nat.eq_of_testBit_eq; intro k
      rw [Nat.testBit_and]
      by_cases hk : k < 64
      · rw [not64_testBit k hk]; simp
      · rw [testBit_big hlo (by omega)]; rfl
    unfold split
    dsimp only
    rw [hm]
    simp only [Nat.zero_shiftRight, Nat.or_zero]
    rw [h64]
    generalize lo &&& not64 0xffff = w
    rw [show w + 2 ^ 64 - w = 2 ^ 64 by omega]
    decide
  · obtain ⟨p, hp, hab⟩ := Nat.exists_most_significant_bit hne
    have hm := splitMask_testBit hlo hhi hp (fun j hj => hab j hj)
    have hp16 : p < 16 := by
      by_contra hc
      have h1 : (cell lo).testBit (p - 16) = (cell hi).testBit (p - 16) := by rw [he]
      unfold cell at h1
      rw [Nat.testBit_div_two_pow, Nat.testBit_div_two_pow, Nat.sub_add_cancel (by omega)] at h1
      rw [Nat.testBit_xor, h1, Bool.xor_self] at hp
      cases hp
    have key : ∀ w v : Nat, w < 2 ^ 64 → v < 2 ^ 64 → (∀ k, 16 ≤ k → w.testBit k = v.testBit k) → w &&& not64 0xffff = v &&& not64 0xffff := by
      intro w v hw hv h
      rw [and_high hw, and_high hv]
      apply Nat.eq_of_testBit_eq; intro k
      rw [cell_bit, cell_bit]
      by_cases h16 : 16 ≤ k
      · rw [h k h16]
      · simp [h16]
    have hmlt : splitMask lo hi < 2 ^ 64 := by
      apply Nat.lt_pow_two_of_testBit
      intro k hk
      rw [hm]; simp; omega
    have hhigh : ∀ k, 16 ≤ k → lo.testBit k = hi.testBit k := by
      intro k hk
      have := hab k (by omega)
      rw [Nat.testBit_xor] at this
      simpa using this
    have n64 : ∀ a, a < 2 ^ 64 → not64 a < 2 ^ 64 := fun a ha => Nat.xor_lt_two_pow (by norm_num) ha
    unfold split
    dsimp only
    generalize splitMask lo hi = m at *
    have hm2 : m >>> 2 < 2 ^ 64 := Nat.lt_of_le_of_lt (Nat.shiftRight_le _ _) hmlt
    have e : ((hi &&& not64 m) ||| m >>> 2) &&& not64 0xffff = ((lo ||| m) &&& not64 (m >>> 2)) &&& not64 0xffff := by
      apply key
      · exact Nat.or_lt_two_pow (Nat.and_lt_two_pow _ (n64 _ hmlt)) hm2
      · exact Nat.and_lt_two_pow _ (n64 _ hm2)
      · intro k hk
        rw [Nat.testBit_or, Nat.testBit_and, Nat.testBit_and, Nat.testBit_or, Nat.testBit_shiftRight, hm, hm]
        by_cases hk64 : k < 64
        · rw [not64_testBit k hk64, not64_testBit k hk64, Nat.testBit_shiftRight, hm, hm, hhigh k hk]
          simp [show ¬ k ≤ p by omega, show ¬ 2 + k ≤ p by omega]
        · rw [testBit_big hhi (by omega), testBit_big hlo (by omega)]
          simp [show ¬ k ≤ p by omega, show ¬ 2 + k ≤ p by omega]
    rw [e]
    generalize ((lo ||| m) &&& not64 (m >>> 2)) &&& not64 0xffff = w
    rw [show w + 2 ^ 64 - w = 2 ^ 64 by omega]
    decide

/-! ### the walk -/

/-- two codes spanning a rectangle of cells -/
def OkBox (lo hi : Nat) : Prop :=
  lo < 2 ^ 64 ∧ hi + 0xffff < 2 ^ 64 ∧ cx (cell lo) ≤ cx (cell hi) ∧ cy (cell lo) ≤ cy (cell hi)

theorem OkBox.valid {lo hi : Nat} (h : OkBox lo hi) : Valid (cell lo) (cell hi) :=
  ⟨cell_lt h.1, cell_lt (Nat.lt_of_le_of_lt (Nat.le_add_right _ _) h.2.1), h.2.2.1, h.2.2.2⟩

/-- the current box and the stacked ones are rectangles, ordered by code -/
def WF2 : Nat → Nat → List (Nat × Nat) → Prop
  | lo, hi, [] => OkBox lo hi
  | lo, hi, (l, h) :: S => OkBox lo hi ∧ cell hi < cell l ∧ WF2 l h S

/-- a code wanted from one box -/
def In2 (z lo hi : Nat) : Prop := lo ≤ z ∧ z ≤ hi + 0xffff ∧ InBox (cell lo) (cell hi) (cell z)

/-- a code wanted from one of the boxes -/
def Cov2 (z : Nat) : Nat → Nat → List (Nat × Nat) → Prop
  | lo, hi, [] => In2 z lo hi
  | lo, hi, (l, h) :: S => In2 z lo hi ∨ Cov2 z l h S

/-- the number of further cuts and the stack fit together -/
def Lvl2 : Nat → Nat → List (Nat × Nat) → Prop
  | lo, hi, [] => Pot2 (cell lo) (cell hi) 32
  | lo, hi, (l, h) :: S => S.length + 1 ≤ 32 ∧ Pot2 (cell lo) (cell hi) (32 - (S.length + 1)) ∧ Lvl2 l h S

theorem WF2.ok {lo hi S} (h : WF2 lo hi S) : OkBox lo hi := by
  cases S with
  | nil => exact h
  | cons p S => exact h.1

theorem WF2.lo {lo hi lo' : Nat} {S} (h : WF2 lo hi S) (hl : OkBox lo' hi) : WF2 lo' hi S := by
  cases S with
  | nil => exact hl
  | cons p S => exact ⟨hl, h.2⟩

theorem Lvl2.lo {lo hi lo' : Nat} {S} (h : Lvl2 lo hi S) (hl : ∀ n, Pot2 (cell lo) (cell hi) n → Pot2 (cell lo') (cell hi) n) :
    Lvl2 lo' hi S := by
  cases S with
  | nil => exact hl _ h
  | cons p S => exact ⟨h.1, hl _ h.2.1, h.2.2⟩

theorem Lvl2.bound {lo hi : Nat} {S} (h : Lvl2 lo hi S) : S.length ≤ 32 ∧ Pot2 (cell lo) (cell hi) (32 - S.length) := by
  cases S with
  | nil => exact ⟨by simp, h⟩
  | cons p S => exact ⟨by simpa using h.1, by simpa using h.2.1⟩

theorem Cov2.ge {z : Nat} : ∀ {S lo hi}, WF2 lo hi S → Cov2 z lo hi S → lo ≤ z := by
  intro S
  induction S with
  | nil => intro lo hi _ h; exact h.1
  | cons p S ih =>
    intro lo hi hw h
    rcases h with h | h
    · exact h.1
    · have h1 := ih hw.2.2 h
      have h2 := hw.1.valid.le
      have h3 := hw.2.1
      unfold cell at h2 h3
      omega

theorem popTo_any {z : Nat} : ∀ {S lo hi}, WF2 lo hi S →
    (popTo z lo hi S = none → ∀ d, z ≤ d → ¬ Cov2 d lo hi S) ∧
    (∀ b, popTo z lo hi S = some b → WF2 b.lo b.hi b.stack ∧ z ≤ b.hi + 0xffff ∧
      (Lvl2 lo hi S → Lvl2 b.lo b.hi b.stack) ∧ ∀ d, z ≤ d → (Cov2 d lo hi S ↔ Cov2 d b.lo b.hi b.stack)) := by
  intro S
  induction S with
  | nil =>
    intro lo hi hw
    have e : add64 hi 0xffff = hi + 0xffff := Nat.mod_eq_of_lt hw.ok.2.1
    rw [popTo, e]
    by_cases hc : z > hi + 0xffff
    · rw [if_pos hc]
      refine ⟨fun _ d hd hcov => ?_, fun b hb => (by cases hb)⟩
      have : d ≤ hi + 0xffff := hcov.2.1
      omega
    · rw [if_neg hc]
      refine ⟨fun h => (by cases h), fun b hb => ?_⟩
      cases hb
      exact ⟨hw, by dsimp only; omega, id, fun d _ => Iff.rfl⟩
  | cons p S ih =>
    obtain ⟨l, h⟩ := p
    intro lo hi hw
    have e : add64 hi 0xffff = hi + 0xffff := Nat.mod_eq_of_lt hw.ok.2.1
    rw [popTo, e]
    by_cases hc : z > hi + 0xffff
    · rw [if_pos hc]
      have hi' := ih hw.2.2
      have hcov : ∀ d, z ≤ d → (Cov2 d lo hi ((l, h) :: S) ↔ Cov2 d l h S) := by
        intro d hd
        constructor
        · rintro (h1 | h1)
          · have := h1.2.1; omega
          · exact h1
        · exact Or.inr
      refine ⟨fun hn d hd hcv => hi'.1 hn d hd ((hcov d hd).1 hcv), fun b hb => ?_⟩
      obtain ⟨e1, e2, e3, e4⟩ := hi'.2 b hb
      exact ⟨e1, e2, fun hl => e3 hl.2.2, fun d hd => (hcov d hd).trans (e4 d hd)⟩
    · rw [if_neg hc]
      refine ⟨fun h => (by cases h), fun b hb => ?_⟩
      cases hb
      exact ⟨hw, by dsimp only; omega, id, fun d _ => Iff.rfl⟩

theorem cell_mul (a : Nat) : cell (a * 2 ^ 16) = a := by unfold cell; omega

/-- one split seen from the codes -/
theorem in2_split {lo hi J I P : Nat} (hh : Halves (cell lo) (cell hi) J I P) (d : Nat) :
    In2 d lo hi ↔ In2 d lo (J * 2 ^ 16) ∨ In2 d (I * 2 ^ 16) hi := by
  unfold In2
  rw [cell_mul, cell_mul, hh.cover]
  have hlt := hh.lt
  constructor
  · rintro ⟨h1, h2, h3 | h3⟩
    · left
      have := InBox.le h3
      refine ⟨h1, ?_, h3⟩
      unfold cell at this
      omega
    · right
      have := InBox.ge h3
      refine ⟨?_, h2, h3⟩
      unfold cell at this
      omega
  · rintro (⟨h1, h2, h3⟩ | ⟨h1, h2, h3⟩)
    · refine ⟨h1, ?_, Or.inl h3⟩
      have a := InBox.le h3
      have b := InBox.le hh.j_in
      have c := InBox.le hh.i_in
      unfold cell at a b c
      omega
    · refine ⟨?_, h2, Or.inr h3⟩
      have a := InBox.ge hh.j_in
      unfold cell at a
      omega

theorem look_any {z : Nat} : ∀ {fuel S lo hi}, WF2 lo hi S → z ≤ hi + 0xffff →
    (look z fuel ⟨lo, hi, S⟩ = .overflow → ¬ (Lvl2 lo hi S ∧ cell lo ^^^ cell hi < 2 ^ fuel ∧ 0 < fuel)) ∧
    (∀ b, look z fuel ⟨lo, hi, S⟩ = .jump b → WF2 b.lo b.hi b.stack ∧ z < b.lo ∧
      (Lvl2 lo hi S → Lvl2 b.lo b.hi b.stack) ∧ ∀ d, z ≤ d → (Cov2 d lo hi S ↔ Cov2 d b.lo b.hi b.stack)) ∧
    (∀ b, look z fuel ⟨lo, hi, S⟩ = .emit b → WF2 b.lo b.hi b.stack ∧
      (Lvl2 lo hi S → Lvl2 b.lo b.hi b.stack) ∧ ∀ d, z ≤ d → (Cov2 d lo hi S ↔ Cov2 d b.lo b.hi b.stack)) := by
  intro fuel
  induction fuel with
  | zero =>
    intro S lo hi _ _
    refine ⟨fun _ h => by omega, fun b hb => (by cases hb), fun b hb => (by cases hb)⟩
  | succ fuel ih =>
    intro S lo hi hw hc
    rw [look]
    dsimp only
    have hlo64 := hw.ok.1
    have hhi64 : hi < 2 ^ 64 := Nat.lt_of_le_of_lt (Nat.le_add_right _ _) hw.ok.2.1
    by_cases hlo : z < lo
    · rw [if_pos hlo]
      refine ⟨fun h => (by cases h), fun b hb => ?_, fun b hb => (by cases hb)⟩
      cases hb
      exact ⟨hw, hlo, id, fun d _ => Iff.rfl⟩
    · rw [if_neg hlo]
      by_cases hLH : cell lo = cell hi
      · rw [split_any_same hlo64 hhi64 hLH]
        simp only [Bool.false_eq_true, if_false]
        refine ⟨fun h => (by cases h), fun b hb => (by cases hb), fun b hb => ?_⟩
        cases hb
        exact ⟨hw, id, fun d _ => Iff.rfl⟩
      · obtain ⟨J, I, P, hs, hh, hP, hab⟩ := split_cells hw.ok.valid hLH
        rw [split_any hlo64 hhi64 hLH, hs]
        dsimp only
        have hlt := hh.lt
        have hJ : OkBox lo (J * 2 ^ 16) := by
          refine ⟨hlo64, ?_, by rw [cell_mul]; exact hh.v1.2.2.1, by rw [cell_mul]; exact hh.v1.2.2.2⟩
          rw [← add_low hh.v1.2.1]
          exact Nat.mod_lt _ (by norm_num)
        have hI : OkBox (I * 2 ^ 16) hi :=
          ⟨up_lt hh.v2.1, hw.ok.2.1, by rw [cell_mul]; exact hh.v2.2.2.1, by rw [cell_mul]; exact hh.v2.2.2.2⟩
        have small : ∀ a b, (a = cell lo ∧ b = J ∨ a = I ∧ b = cell hi) →
            cell lo ^^^ cell hi < 2 ^ (fuel + 1) → fuel ≠ 0 → a ^^^ b < 2 ^ fuel := by
          intro a b h hx _
          have hp := bit_lt hx hP
          have h2 : 2 ^ P ≤ 2 ^ fuel := Nat.pow_le_pow_right (by omega) (by omega)
          rcases h with ⟨rfl, rfl⟩ | ⟨rfl, rfl⟩
          · exact Nat.lt_of_lt_of_le hh.x1 h2
          · exact Nat.lt_of_lt_of_le hh.x2 h2
        have last : cell lo ^^^ cell hi < 2 ^ (fuel + 1) → fuel = 0 → J + 1 < I → False := by
          intro hx hf hgo
          subst hf
          have hdiv : cell lo / 2 = cell hi / 2 := by
            have := div_of_xor (P := 1) (by simpa using hx)
            simpa using this
          have a1 := InBox.ge hh.j_in
          have a2 := InBox.le hh.i_in
          omega
        by_cases hgo : J + 1 < I
        · rw [if_pos (by simpa using hgo)]
          by_cases hz : z > add64 (J * 2 ^ 16) 0xffff
          · rw [if_pos hz]
            rw [gt_hi hh.v1.2.1] at hz
            have hi' := ih (S := S) (hw.lo hI) hc
            have hcov : ∀ d, z ≤ d → (Cov2 d lo hi S ↔ Cov2 d (I * 2 ^ 16) hi S) := by
              intro d hd
              have hnot : ¬ In2 d lo (J * 2 ^ 16) := fun h => by
                have h1 := InBox.le h.2.2
                rw [cell_mul] at h1
                have := cell_mono hd
                omega
              cases S with
              | nil =>
                show In2 d lo hi ↔ In2 d (I * 2 ^ 16) hi
                rw [in2_split hh]; tauto
              | cons p S =>
                show (In2 d lo hi ∨ _) ↔ (In2 d (I * 2 ^ 16) hi ∨ _)
                rw [in2_split hh]; tauto
            have hlvl : Lvl2 lo hi S → Lvl2 (I * 2 ^ 16) hi S := fun h => h.lo (fun n hn => by
              rw [cell_mul]; exact (halves_pot hh hP hn).2.2)
            refine ⟨fun ho h => ?_, fun b hb => ?_, fun b hb => ?_⟩
            · by_cases hf : fuel = 0
              · exact last h.2.1 hf hgo
              · exact hi'.1 ho ⟨hlvl h.1, by rw [cell_mul]; exact small _ _ (Or.inr ⟨rfl, rfl⟩) h.2.1 hf, by omega⟩
            · obtain ⟨e1, e2, e3, e4⟩ := hi'.2.1 b hb
              exact ⟨e1, e2, e3 ∘ hlvl, fun d hd => (hcov d hd).trans (e4 d hd)⟩
            · obtain ⟨e1, e3, e4⟩ := hi'.2.2 b hb
              exact ⟨e1, e3 ∘ hlvl, fun d hd => (hcov d hd).trans (e4 d hd)⟩
          · rw [if_neg hz]
            have hz' : z ≤ J * 2 ^ 16 + 0xffff := by
              rw [add_low hh.v1.2.1] at hz
              omega
            have hwf : WF2 lo (J * 2 ^ 16) ((I * 2 ^ 16, hi) :: S) :=
              ⟨hJ, by rw [cell_mul, cell_mul]; exact hlt, hw.lo hI⟩
            have hi' := ih hwf hz'
            have hcov : ∀ d, (Cov2 d lo hi S ↔ Cov2 d lo (J * 2 ^ 16) ((I * 2 ^ 16, hi) :: S)) := by
              intro d
              cases S with
              | nil =>
                show In2 d lo hi ↔ (In2 d lo (J * 2 ^ 16) ∨ In2 d (I * 2 ^ 16) hi)
                exact in2_split hh d
              | cons p S =>
                show (In2 d lo hi ∨ _) ↔ (In2 d lo (J * 2 ^ 16) ∨ (In2 d (I * 2 ^ 16) hi ∨ _))
                rw [in2_split hh, or_assoc]
            have hlvl : Lvl2 lo hi S → S.length < 32 ∧ Lvl2 lo (J * 2 ^ 16) ((I * 2 ^ 16, hi) :: S) := by
              intro h
              have hb := h.bound
              have hp := halves_pot hh hP hb.2
              refine ⟨by omega, by omega, ?_, ?_⟩
              · rw [cell_mul, show 32 - (S.length + 1) = 32 - S.length - 1 by omega]; exact hp.2.1
              · exact h.lo (fun n hn => by rw [cell_mul]; exact (halves_pot hh hP hn).2.2)
            by_cases hcap : S.length < 32
            · rw [if_pos hcap]
              refine ⟨fun ho h => ?_, fun b hb => ?_, fun b hb => ?_⟩
              · by_cases hf : fuel = 0
                · exact last h.2.1 hf hgo
                · exact hi'.1 ho ⟨(hlvl h.1).2, by rw [cell_mul]; exact small _ _ (Or.inl ⟨rfl, rfl⟩) h.2.1 hf, by omega⟩
              · obtain ⟨e1, e2, e3, e4⟩ := hi'.2.1 b hb
                exact ⟨e1, e2, fun h => e3 (hlvl h).2, fun d hd => (hcov d).trans (e4 d hd)⟩
              · obtain ⟨e1, e3, e4⟩ := hi'.2.2 b hb
                exact ⟨e1, fun h => e3 (hlvl h).2, fun d hd => (hcov d).trans (e4 d hd)⟩
            · rw [if_neg hcap]
              refine ⟨fun _ h => ?_, fun b hb => (by cases hb), fun b hb => (by cases hb)⟩
              exact hcap (hlvl h.1).1
        · rw [if_neg (by simpa using hgo)]
          refine ⟨fun h => (by cases h), fun b hb => (by cases hb), fun b hb => ?_⟩
          cases hb
          exact ⟨hw, id, fun d _ => Iff.rfl⟩

theorem queryLoop_any {data : Nat → Nat} {last : Nat} (hsort : Sorted data last) :
    ∀ n i, last - i ≤ n → ∀ b : Boxes, WF2 b.lo b.hi b.stack →
      (Lvl2 b.lo b.hi b.stack → queryLoop data last i b ≠ none) ∧
      ∀ out, queryLoop data last i b = some out →
        ∃ idx : List Nat, out = idx.map data ∧ idx.Pairwise (· < ·) ∧ (∀ k ∈ idx, i ≤ k ∧ k < last) ∧
          ∀ k, i ≤ k → k < last → Cov2 (data k) b.lo b.hi b.stack → k ∈ idx := by
  intro n
  induction n with
  | zero =>
    intro i hi b _
    rw [queryLoop, dif_neg (by omega)]
    refine ⟨fun _ h => (by cases h), fun out h => ?_⟩
    cases h
    exact ⟨[], rfl, List.Pairwise.nil, fun k hk => (by cases hk), fun k h1 h2 => by omega⟩
  | succ n ih =>
    intro i hi b hw
    rw [queryLoop]
    by_cases hlt : i < last
    · rw [dif_pos hlt]
      dsimp only
      have hp := popTo_any (z := data i) hw
      cases hpop : popTo (data i) b.lo b.hi b.stack with
      | none =>
        dsimp only
        refine ⟨fun _ h => (by cases h), fun out h => ?_⟩
        cases h
        exact ⟨[], rfl, List.Pairwise.nil, fun k hk => (by cases hk),
          fun k h1 h2 h3 => absurd h3 (hp.1 hpop _ (hsort i k h1 h2))⟩
      | some b1 =>
        obtain ⟨hw1, hc1, hl1, hcov1⟩ := hp.2 b1 hpop
        dsimp only
        have hlook := look_any (z := data i) (fuel := 64) hw1 hc1
        cases hlk : look (data i) 64 b1 with
        | overflow =>
          dsimp only
          refine ⟨fun hl => ?_, fun out h => (by cases h)⟩
          have hv := hw1.ok.valid
          exact absurd ⟨hl1 hl, Nat.lt_of_lt_of_le (Nat.xor_lt_two_pow hv.1 hv.2.1)
            (Nat.pow_le_pow_right (by omega) (by omega)), by omega⟩ (hlook.1 hlk)
        | jump b2 =>
          obtain ⟨hw2, hc2, hl2, hcov2⟩ := hlook.2.1 b2 hlk
          dsimp only
          unfold lowerBound
          have hlb := lowerLoop_spec (data := data) (z := b2.lo) (last - (i + 1)) (i + 1)
            (fun a b h1 h2 => hsort a b h1 (by omega))
          generalize lowerLoop data b2.lo (i + 1) (last - (i + 1)) = r at *
          have hmax : max (i + 1) r = r := Nat.max_eq_right hlb.1
          rw [hmax]
          have hrec := ih r (by omega) b2 hw2
          refine ⟨fun hl => hrec.1 (hl2 (hl1 hl)), fun out h => ?_⟩
          obtain ⟨idx, h1, h2, h3, h4⟩ := hrec.2 out h
          refine ⟨idx, h1, h2, fun k hk => ⟨by have := h3 k hk; omega, (h3 k hk).2⟩, fun k hk1 hk2 hk3 => ?_⟩
          have hm := hsort i k hk1 hk2
          have hcv := (hcov2 _ hm).1 ((hcov1 _ hm).1 hk3)
          have hge := Cov2.ge hw2 hcv
          by_cases hr : r ≤ k
          · exact h4 k hr hk2 hcv
          · by_cases hik : k = i
            · subst hik; omega
            · have := hlb.2.2.1 k (by omega) (by omega)
              omega
        | emit b2 =>
          obtain ⟨hw2, hl2, hcov2⟩ := hlook.2.2 b2 hlk
          dsimp only
          have hrec := ih (i + 1) (by omega) b2 hw2
          refine ⟨fun hl hn => ?_, fun out h => ?_⟩
          · rw [Option.map_eq_none_iff] at hn
            exact hrec.1 (hl2 (hl1 hl)) hn
          · rw [Option.map_eq_some_iff] at h
            obtain ⟨out', ho, rfl⟩ := h
            obtain ⟨idx, h1, h2, h3, h4⟩ := hrec.2 out' ho
            refine ⟨i :: idx, by rw [h1]; rfl, List.pairwise_cons.2 ⟨fun k hk => ?_, h2⟩, fun k hk => ?_,
              fun k hk1 hk2 hk3 => ?_⟩
            · have := (h3 k hk).1; omega
            · rcases List.mem_cons.1 hk with rfl | hk
              · exact ⟨Nat.le_refl _, hlt⟩
              · have := h3 k hk; omega
            · by_cases hik : k = i
              · subst hik; exact List.mem_cons_self
              · have hm := hsort i k hk1 hk2
                exact List.mem_cons_of_mem _ (h4 k (by omega) hk2 ((hcov2 _ hm).1 ((hcov1 _ hm).1 hk3)))
    · rw [dif_neg hlt]
      refine ⟨fun _ h => (by cases h), fun out h => ?_⟩
      cases h
      exact ⟨[], rfl, List.Pairwise.nil, fun k hk => (by cases hk), fun k h1 h2 => by omega⟩

/-- a point of the rectangle is wanted -/
theorem in2_of_inBox {lo hi z : Nat} (h : InBox lo hi z) : In2 z lo hi := by
  refine ⟨InBox.ge h, (InBox.le h).trans (Nat.le_add_right _ _), ?_⟩
  have e : ∀ c, cx (cell c) = cx c / 2 ^ 8 ∧ cy (cell c) = cy c / 2 ^ 8 := by
    intro c
    unfold cell
    rw [cx_div, cy_div]
    exact ⟨rfl, rfl⟩
  unfold InBox at *
  rw [(e lo).1, (e hi).1, (e z).1, (e lo).2, (e hi).2, (e z).2]
  exact ⟨Nat.div_le_div_right h.1, Nat.div_le_div_right h.2.1, Nat.div_le_div_right h.2.2.1, Nat.div_le_div_right h.2.2.2⟩

theorem cell_coords (c : Nat) : cx (cell c) = cx c / 2 ^ 8 ∧ cy (cell c) = cy c / 2 ^ 8 := by
  unfold cell
  rw [cx_div, cy_div]
  exact ⟨rfl, rfl⟩

/-- the whole query, between any codes -/
theorem query_any {data : Nat → Nat} {size lo hi : Nat} (hsort : ∀ i j, i ≤ j → j < size → data i ≤ data j)
    (ho : OkBox lo hi) :
    (Pot2 (cell lo) (cell hi) 32 → query lo hi size data ≠ none) ∧
    ∀ out, query lo hi size data = some out →
      ∃ idx : List Nat, out = idx.map data ∧ idx.Pairwise (· < ·) ∧ (∀ k ∈ idx, k < size) ∧
        ∀ k, k < size → InBox lo hi (data k) → k ∈ idx := by
  unfold query lowerBound
  have hlb := lowerLoop_spec (data := data) (z := add64 hi 0xffff) (size - 0) 0
    (fun i j h1 h2 => hsort i j h1 (by omega))
  rw [show add64 hi 0xffff = hi + 0xffff from Nat.mod_eq_of_lt ho.2.1] at hlb ⊢
  generalize lowerLoop data (hi + 0xffff) 0 (size - 0) = last at *
  have hq := queryLoop_any (data := data) (last := last) (fun i j a b => hsort i j a (by omega)) _ 0 (le_refl _)
    ⟨lo, hi, []⟩ ho
  refine ⟨hq.1, fun out h => ?_⟩
  obtain ⟨idx, h1, h2, h3, h4⟩ := hq.2 out h
  refine ⟨idx, h1, h2, fun k hk => by have := h3 k hk; omega, fun k hk hb => ?_⟩
  have hin := in2_of_inBox hb
  refine h4 k (by omega) ?_ hin
  by_contra hc
  have hge := hlb.2.2.2 k (by omega) (by omega)
  have hle := InBox.le hb
  omega

/-- picking from a list by ascending indices and filtering is filtering, if every wanted index is picked -/
theorem filter_idx {data : Nat → Nat} {p : Nat → Bool} {size : Nat} {idx : List Nat} (h2 : idx.Pairwise (· < ·))
    (h3 : ∀ k ∈ idx, k < size) (h4 : ∀ k, k < size → p (data k) = true → k ∈ idx) :
    (idx.map data).filter p = ((List.range size).map data).filter p := by
  rw [List.filter_map, List.filter_map]
  congr 1
  refine List.Pairwise.eq_of_mem_iff (h2.filter _) (List.pairwise_lt_range.filter _) fun k => ?_
  rw [List.mem_filter, List.mem_filter, List.mem_range]
  exact ⟨fun h => ⟨h3 k h.1, h.2⟩, fun h => ⟨h4 k h.1 h.2, h.2⟩⟩

/-- a code not in the last column or not in the last row leaves room for the 16 low bits -/
theorem room {z : Nat} (hz : z < 2 ^ 64) (h : cx z < 2 ^ 32 - 256 ∨ cy z < 2 ^ 32 - 256) : z + 0xffff < 2 ^ 64 := by
  have hc := cell_coords z
  have hl := cell_lt hz
  have top : cx (2 ^ 48 - 1) = 2 ^ 24 - 1 ∧ cy (2 ^ 48 - 1) = 2 ^ 24 - 1 := by decide +kernel
  have hne : cell z ≠ 2 ^ 48 - 1 := by
    intro he
    rw [he, top.1, top.2] at hc
    omega
  unfold cell at hne hl
  omega

end CE.Zorder
