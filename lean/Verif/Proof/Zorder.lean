import Verif.Model.Zorder
import Verif.Spec.Zorder
import Mathlib.Tactic.IntervalCases
import Mathlib.Data.Nat.Bitwise
/-!
# Bits of z-order codes
-/
namespace CE.Zorder

theorem cx_zero : cx 0 = 0 := by unfold cx; simp

theorem cx_eq (c : Nat) : cx c = 2 * cx (c / 4) + c % 2 := by
  by_cases h : c = 0
  · subst h; simp [cx_zero]
  · rw [cx]; simp [h]

theorem cy_eq (c : Nat) : cy c = 2 * cy (c / 4) + c / 2 % 2 := by
  unfold cy
  rw [cx_eq (c / 2), show c / 2 / 4 = c / 4 / 2 by omega]

theorem cx_testBit (c i : Nat) : (cx c).testBit i = c.testBit (2 * i) := by
  induction i generalizing c with
  | zero =>
    rw [cx_eq, Nat.testBit_zero, Nat.testBit_zero, show (2 * cx (c / 4) + c % 2) % 2 = c % 2 by omega]
  | succ i ih =>
    rw [cx_eq, Nat.testBit_succ, show (2 * cx (c / 4) + c % 2) / 2 = cx (c / 4) by omega, ih,
      show 2 * (i + 1) = 2 * i + 1 + 1 by omega, Nat.testBit_succ, Nat.testBit_succ,
      Nat.div_div_eq_div_mul]

theorem cy_testBit (c i : Nat) : (cy c).testBit i = c.testBit (2 * i + 1) := by
  unfold cy; rw [cx_testBit, Nat.testBit_succ]

/-- a code is determined by its coordinates -/
theorem coord_inj {a b : Nat} (h1 : cx a = cx b) (h2 : cy a = cy b) : a = b := by
  apply Nat.eq_of_testBit_eq
  intro i
  obtain ⟨j, rfl | rfl⟩ : ∃ j, i = 2 * j ∨ i = 2 * j + 1 := ⟨i / 2, by omega⟩
  · rw [← cx_testBit, ← cx_testBit, h1]
  · rw [← cy_testBit, ← cy_testBit, h2]

/-- codes increase with both coordinates -/
theorem coord_mono {a b : Nat} (h1 : cx a ≤ cx b) (h2 : cy a ≤ cy b) : a ≤ b := by
  induction a using Nat.strongRecOn generalizing b with
  | _ a ih =>
    by_cases ha : a = 0
    · omega
    · rw [cx_eq a, cx_eq b] at h1
      rw [cy_eq a, cy_eq b] at h2
      have := ih (a / 4) (by omega) (b := b / 4) (by omega) (by omega)
      by_cases he : a / 4 = b / 4
      · rw [he] at h1 h2
        omega
      · omega

theorem coord_strict {a b : Nat} (h1 : cx a ≤ cx b) (h2 : cy a ≤ cy b) (h : cx a < cx b ∨ cy a < cy b) :
    a < b := by
  have := coord_mono h1 h2
  rcases Nat.lt_or_ge a b with hl | hl
  · exact hl
  · have : a = b := by omega
    subst this; omega

/-- the coordinates of the upper bits -/
theorem cx_div (c k : Nat) : cx c / 2 ^ k = cx (c / 4 ^ k) := by
  apply Nat.eq_of_testBit_eq
  intro i
  rw [Nat.testBit_div_two_pow, cx_testBit, cx_testBit, show (4 : Nat) ^ k = 2 ^ (2 * k) by
    rw [Nat.pow_mul], Nat.testBit_div_two_pow]
  congr 1; omega

theorem cy_div (c k : Nat) : cy c / 2 ^ k = cy (c / 4 ^ k) := by
  unfold cy
  rw [cx_div, Nat.div_div_eq_div_mul, Nat.div_div_eq_div_mul, Nat.mul_comm]

/-! ## masks -/

theorem even_mask (j : Nat) (h : j < 64) : (0x5555555555555555 : Nat).testBit j = decide (j % 2 = 0) := by
  interval_cases j <;> rfl

theorem odd_mask (j : Nat) (h : j < 64) : (0xaaaaaaaaaaaaaaaa : Nat).testBit j = decide (j % 2 = 1) := by
  interval_cases j <;> rfl

theorem testBit_big {z j : Nat} (h : z < 2 ^ 64) (hj : 64 ≤ j) : z.testBit j = false :=
  Nat.testBit_lt_two_pow (Nat.lt_of_lt_of_le h (Nat.pow_le_pow_right (by omega) hj))

theorem and_even (z j : Nat) : (z &&& 0x5555555555555555).testBit j =
    (z.testBit j && decide (j % 2 = 0) && decide (j < 64)) := by
  rw [Nat.testBit_and]
  by_cases h : j < 64
  · rw [even_mask j h]; simp [h]
  · rw [testBit_big (show (0x5555555555555555 : Nat) < 2 ^ 64 by decide) (by omega)]; simp [h]

theorem and_odd (z j : Nat) : (z &&& 0xaaaaaaaaaaaaaaaa).testBit j =
    (z.testBit j && decide (j % 2 = 1) && decide (j < 64)) := by
  rw [Nat.testBit_and]
  by_cases h : j < 64
  · rw [odd_mask j h]; simp [h]
  · rw [testBit_big (show (0xaaaaaaaaaaaaaaaa : Nat) < 2 ^ 64 by decide) (by omega)]; simp [h]

theorem cx_and_even {z : Nat} (h : z < 2 ^ 64) : cx (z &&& 0x5555555555555555) = cx z ∧
    cy (z &&& 0x5555555555555555) = 0 := by
  constructor
  · apply Nat.eq_of_testBit_eq; intro i
    rw [cx_testBit, cx_testBit, and_even]
    by_cases hi : 2 * i < 64
    · simp [hi]
    · rw [testBit_big h (by omega)]; simp
  · apply Nat.eq_of_testBit_eq; intro i
    rw [cy_testBit, and_even, Nat.zero_testBit]
    have : ¬ (2 * i + 1) % 2 = 0 := by omega
    simp [this]

theorem cx_and_odd {z : Nat} (h : z < 2 ^ 64) : cx (z &&& 0xaaaaaaaaaaaaaaaa) = 0 ∧
    cy (z &&& 0xaaaaaaaaaaaaaaaa) = cy z := by
  constructor
  · apply Nat.eq_of_testBit_eq; intro i
    rw [cx_testBit, and_odd, Nat.zero_testBit]
    have : ¬ (2 * i) % 2 = 1 := by omega
    simp [this]
  · apply Nat.eq_of_testBit_eq; intro i
    rw [cy_testBit, cy_testBit, and_odd]
    by_cases hi : 2 * i + 1 < 64
    · have : (2 * i + 1) % 2 = 1 := by omega
      simp [hi, this]
    · rw [testBit_big h (by omega)]; simp

/-- masked comparison is comparison of coordinates -/
theorem even_le {a b : Nat} (ha : a < 2 ^ 64) (hb : b < 2 ^ 64) :
    (a &&& 0x5555555555555555) ≤ (b &&& 0x5555555555555555) ↔ cx a ≤ cx b := by
  have h1 := cx_and_even ha
  have h2 := cx_and_even hb
  constructor
  · intro h
    by_contra hc
    have := coord_strict (a := b &&& 0x5555555555555555) (b := a &&& 0x5555555555555555)
      (by omega) (by omega) (by omega)
    omega
  · intro h
    exact coord_mono (by omega) (by omega)

theorem odd_le {a b : Nat} (ha : a < 2 ^ 64) (hb : b < 2 ^ 64) :
    (a &&& 0xaaaaaaaaaaaaaaaa) ≤ (b &&& 0xaaaaaaaaaaaaaaaa) ↔ cy a ≤ cy b := by
  have h1 := cx_and_odd ha
  have h2 := cx_and_odd hb
  constructor
  · intro h
    by_contra hc
    have := coord_strict (a := b &&& 0xaaaaaaaaaaaaaaaa) (b := a &&& 0xaaaaaaaaaaaaaaaa)
      (by omega) (by omega) (by omega)
    omega
  · intro h
    exact coord_mono (by omega) (by omega)

/-! ## expand -/

theorem shl_testBit (a s j : Nat) : (shl a s).testBit j = (decide (j < 64) && decide (s ≤ j) && a.testBit (j - s)) := by
  unfold shl
  rw [Nat.testBit_mod_two_pow, Nat.testBit_shiftLeft, Bool.and_assoc]

/-- one stage: groups of `2b` bits are pulled apart into groups of `b` -/
theorem stage (b mask m n : Nat) (hb : b = 16 ∨ b = 8 ∨ b = 4 ∨ b = 2 ∨ b = 1)
    (hmask : ∀ j < 64, mask.testBit j = decide (j % (2 * b) < b))
    (hprev : ∀ j < 64, m.testBit j = (decide (j % (4 * b) < 2 * b) && n.testBit (j / (4 * b) * (2 * b) + j % (2 * b)))) :
    ∀ j < 64, (mask &&& (m ||| shl m b)).testBit j =
      (decide (j % (2 * b) < b) && n.testBit (j / (2 * b) * b + j % b)) := by
  intro j hj
  rw [Nat.testBit_and, hmask j hj, Nat.testBit_or, shl_testBit, hprev j hj]
  by_cases h1 : j % (2 * b) < b
  · have hjb := hprev (j - b) (by omega)
    rw [hjb]
    by_cases h2 : j % (4 * b) < 2 * b
    · have e : j / (4 * b) * (2 * b) + j % (2 * b) = j / (2 * b) * b + j % b := by
        rcases hb with rfl | rfl | rfl | rfl | rfl <;> omega
      have h3 : ¬ (b ≤ j ∧ (j - b) % (4 * b) < 2 * b) := by
        rcases hb with rfl | rfl | rfl | rfl | rfl <;> omega
      rw [e]
      by_cases hbj : b ≤ j
      · have : ¬ (j - b) % (4 * b) < 2 * b := fun h => h3 ⟨hbj, h⟩
        simp [h1, h2, this]
      · simp [h1, h2, hbj]
    · have e : (j - b) / (4 * b) * (2 * b) + (j - b) % (2 * b) = j / (2 * b) * b + j % b := by
        rcases hb with rfl | rfl | rfl | rfl | rfl <;> omega
      have h3 : b ≤ j ∧ (j - b) % (4 * b) < 2 * b := by
        rcases hb with rfl | rfl | rfl | rfl | rfl <;> omega
      rw [e]
      simp [h1, h2, h3.1, h3.2, hj]
  · simp [h1]

theorem mask16 (j : Nat) (h : j < 64) : (0x0000ffff0000ffff : Nat).testBit j = decide (j % (2 * 16) < 16) := by
  interval_cases j <;> rfl
theorem mask8 (j : Nat) (h : j < 64) : (0x00ff00ff00ff00ff : Nat).testBit j = decide (j % (2 * 8) < 8) := by
  interval_cases j <;> rfl
theorem mask4 (j : Nat) (h : j < 64) : (0x0f0f0f0f0f0f0f0f : Nat).testBit j = decide (j % (2 * 4) < 4) := by
  interval_cases j <;> rfl
theorem mask2 (j : Nat) (h : j < 64) : (0x3333333333333333 : Nat).testBit j = decide (j % (2 * 2) < 2) := by
  interval_cases j <;> rfl
theorem mask1 (j : Nat) (h : j < 64) : (0x5555555555555555 : Nat).testBit j = decide (j % (2 * 1) < 1) := by
  interval_cases j <;> rfl

theorem expand_testBit {n : Nat} (h : n < 2 ^ 32) (j : Nat) :
    (expand n).testBit j = (decide (j % 2 = 0) && n.testBit (j / 2)) := by
  have hb : ∀ i, 32 ≤ i → n.testBit i = false := fun i hi =>
    Nat.testBit_lt_two_pow (Nat.lt_of_lt_of_le h (Nat.pow_le_pow_right (by omega) hi))
  by_cases hj : j < 64
  · have h0 : ∀ j < 64, n.testBit j = (decide (j % (4 * 16) < 2 * 16) &&
        n.testBit (j / (4 * 16) * (2 * 16) + j % (2 * 16))) := by
      intro j hj
      by_cases h : j < 32
      · have e1 : j % (4 * 16) < 2 * 16 := by omega
        have e2 : j / (4 * 16) * (2 * 16) + j % (2 * 16) = j := by omega
        rw [e2]; simp [e1]
      · have e1 : ¬ j % (4 * 16) < 2 * 16 := by omega
        rw [hb j (by omega)]; simp [e1]
    have h3 := stage 16 _ _ n (by simp) mask16 h0
    have h2 := stage 8 _ _ n (by simp) mask8 h3
    have h1 := stage 4 _ _ n (by simp) mask4 h2
    have h0 := stage 2 _ _ n (by simp) mask2 h1
    have hn := stage 1 _ _ n (by simp) mask1 h0 j hj
    unfold expand
    dsimp only
    rw [hn]
    have e1 : j / (2 * 1) * 1 + j % 1 = j / 2 := by omega
    have e2 : (j % (2 * 1) < 1) = (j % 2 = 0) := by apply propext; omega
    rw [e1]
    simp only [e2]
  · have : (expand n).testBit j = false := by
      unfold expand
      dsimp only
      rw [Nat.testBit_and, testBit_big (show (0x5555555555555555 : Nat) < 2 ^ 64 by decide) (by omega)]
      rfl
    rw [this, hb _ (by omega)]
    simp

theorem expand_coords {n : Nat} (h : n < 2 ^ 32) : cx (expand n) = n ∧ cy (expand n) = 0 := by
  constructor
  · apply Nat.eq_of_testBit_eq; intro i
    rw [cx_testBit, expand_testBit h]
    have e : 2 * i / 2 = i := by omega
    simp [e]
  · apply Nat.eq_of_testBit_eq; intro i
    rw [cy_testBit, expand_testBit h, Nat.zero_testBit]
    have : ¬ (2 * i + 1) % 2 = 0 := by omega
    simp [this]

/-- codes with given coordinates add up -/
theorem cx_interleave (n : Nat) : ∀ u v : Nat, u + v ≤ n → cy u = 0 → cy v = 0 →
    cx (v + v + u) = cx u ∧ cy (v + v + u) = cx v := by
  induction n with
  | zero =>
    intro u v h _ _
    have h1 : u = 0 := by omega
    have h2 : v = 0 := by omega
    subst h1; subst h2
    exact ⟨rfl, by unfold cy; rfl⟩
  | succ n ih =>
    intro u v h hu hv
    rw [cy_eq] at hu hv
    by_cases h0 : u + v = 0
    · exact ih u v (by omega) (by rw [cy_eq]; omega) (by rw [cy_eq]; omega)
    · have e : (v + v + u) / 4 = v / 4 + v / 4 + u / 4 := by omega
      have := ih (u / 4) (v / 4) (by omega) (by omega) (by omega)
      rw [cx_eq (v + v + u), cy_eq (v + v + u), cx_eq u, cx_eq v, e]
      omega

theorem offset {x : Int} (h1 : -2 ^ 31 ≤ x) (h2 : x < 2 ^ 31) :
    ((u32 x ^^^ 0x80000000 : Nat) : Int) = x + 2 ^ 31 := by
  unfold u32
  have hlt : (x % 2 ^ 32).toNat < 2 ^ 32 := by omega
  have hx : ((x % 2 ^ 32).toNat : Int) = if x < 0 then x + 2 ^ 32 else x := by split <;> omega
  generalize (x % 2 ^ 32).toNat = a at *
  have key : a ^^^ 0x80000000 = (a / 2 ^ 31 ^^^ 1) * 2 ^ 31 + a % 2 ^ 31 := by
    rw [← Nat.div_add_mod (a ^^^ 0x80000000) (2 ^ 31), Nat.xor_div_two_pow, Nat.xor_mod_two_pow]
    norm_num
    omega
  rw [key]
  have : a / 2 ^ 31 = 0 ∨ a / 2 ^ 31 = 1 := by omega
  rcases this with h | h <;> rw [h] <;> norm_num <;> split at hx <;> omega

/-! ## split -/

/-- bits of the smeared mask -/
theorem or_shift {f m T : Nat} (hf : ∀ j, f.testBit j = true ↔ ∃ t < T, m.testBit (j + 2 * t) = true) (j : Nat) :
    (f ||| f >>> (2 * T)).testBit j = true ↔ ∃ t < 2 * T, m.testBit (j + 2 * t) = true := by
  rw [Nat.testBit_or, Bool.or_eq_true, Nat.testBit_shiftRight, hf, hf]
  constructor
  · rintro (⟨t, h1, h2⟩ | ⟨t, h1, h2⟩)
    · exact ⟨t, by omega, h2⟩
    · exact ⟨t + T, by omega, by rw [← h2]; congr 1; omega⟩
  · rintro ⟨t, h1, h2⟩
    by_cases h : t < T
    · exact Or.inl ⟨t, h, h2⟩
    · exact Or.inr ⟨t - T, by omega, by rw [← h2]; congr 1; omega⟩

theorem smear_testBit (m j : Nat) : (smear m).testBit j = true ↔ ∃ t < 32, m.testBit (j + 2 * t) = true := by
  have h1 : ∀ j, m.testBit j = true ↔ ∃ t < 1, m.testBit (j + 2 * t) = true := by
    intro j
    constructor
    · intro h; exact ⟨0, by omega, h⟩
    · rintro ⟨t, ht, h⟩
      have : t = 0 := by omega
      subst this; exact h
  exact or_shift (or_shift (or_shift (or_shift (or_shift h1)))) j

/-- the mask has the bits of the axis of the top difference, from there down -/
theorem splitMask_testBit {lo hi p : Nat} (hlo : lo < 2 ^ 64) (hhi : hi < 2 ^ 64)
    (hp : (lo ^^^ hi).testBit p = true) (hab : ∀ j, p < j → (lo ^^^ hi).testBit j = false) (j : Nat) :
    (splitMask lo hi).testBit j = (decide (j ≤ p) && decide (j % 2 = p % 2)) := by
  have hd : lo ^^^ hi < 2 ^ 64 := Nat.xor_lt_two_pow hlo hhi
  have hp64 : p < 64 := by
    by_contra h
    rw [testBit_big hd (by omega)] at hp; cases hp
  unfold splitMask
  dsimp only
  generalize lo ^^^ hi = d at *
  -- the larger half contains the top bit
  have key : ∃ m, (if d &&& 0x5555555555555555 < d &&& 0xaaaaaaaaaaaaaaaa then d &&& 0xaaaaaaaaaaaaaaaa
      else d &&& 0x5555555555555555) = m ∧ m.testBit p = true ∧
      ∀ j, m.testBit j = true → j ≤ p ∧ j % 2 = p % 2 := by
    by_cases hpar : p % 2 = 0
    · have hlt : d &&& 0xaaaaaaaaaaaaaaaa < d &&& 0x5555555555555555 := by
        apply Nat.lt_of_testBit p
        · rw [and_odd]; simp [hpar]
        · rw [and_even]; simp [hp, hpar, hp64]
        · intro j hj
          rw [and_odd, and_even, hab j hj]; rfl
      refine ⟨_, if_neg (by omega), ?_, ?_⟩
      · rw [and_even]; simp [hp, hpar, hp64]
      · intro j hj
        rw [and_even] at hj
        simp only [Bool.and_eq_true, decide_eq_true_eq] at hj
        refine ⟨?_, by omega⟩
        by_contra hc
        rw [hab j (by omega)] at hj
        simp at hj
    · have hpar : p % 2 = 1 := by omega
      have hlt : d &&& 0x5555555555555555 < d &&& 0xaaaaaaaaaaaaaaaa := by
        apply Nat.lt_of_testBit p
        · rw [and_even]; simp [hpar]
        · rw [and_odd]; simp [hp, hpar, hp64]
        · intro j hj
          rw [and_odd, and_even, hab j hj]; rfl
      refine ⟨_, if_pos hlt, ?_, ?_⟩
      · rw [and_odd]; simp [hp, hpar, hp64]
      · intro j hj
        rw [and_odd] at hj
        simp only [Bool.and_eq_true, decide_eq_true_eq] at hj
        refine ⟨?_, by omega⟩
        by_contra hc
        rw [hab j (by omega)] at hj
        simp at hj
  obtain ⟨m, he, hmp, hm⟩ := key
  rw [he, Bool.eq_iff_iff, smear_testBit]
  simp only [Bool.and_eq_true, decide_eq_true_eq]
  constructor
  · rintro ⟨t, ht, h⟩
    have := hm _ h
    omega
  · rintro ⟨h1, h2⟩
    exact ⟨(p - j) / 2, by omega, by rw [show j + 2 * ((p - j) / 2) = p by omega]; exact hmp⟩

theorem not64_testBit {a : Nat} (j : Nat) (hj : j < 64) : (not64 a).testBit j = !a.testBit j := by
  unfold not64
  rw [Nat.testBit_xor, Nat.testBit_two_pow_sub_one]
  simp [hj]

theorem low_testBit (j : Nat) : (0xffff : Nat).testBit j = decide (j < 16) := by
  rw [show (0xffff : Nat) = 2 ^ 16 - 1 by norm_num, Nat.testBit_two_pow_sub_one]

/-- numbers differing from the middle of an axis -/
theorem axis {l h j i q : Nat} (hle : l ≤ h) (hab : ∀ k, q < k → l.testBit k = h.testBit k)
    (hd : l.testBit q ≠ h.testBit q)
    (hj : ∀ k, j.testBit k = if k ≤ q then decide (k ≠ q) else h.testBit k)
    (hi : ∀ k, i.testBit k = if k ≤ q then decide (k = q) else l.testBit k) :
    l < i ∧ i ≤ h ∧ j + 1 = i := by
  have hl : l.testBit q = false ∧ h.testBit q = true := by
    cases h1 : l.testBit q
    · cases h2 : h.testBit q
      · rw [h1, h2] at hd; exact absurd rfl hd
      · exact ⟨rfl, rfl⟩
    · cases h2 : h.testBit q
      · have := Nat.lt_of_testBit q h2 h1 (fun k hk => (hab k hk).symm)
        omega
      · rw [h1, h2] at hd; exact absurd rfl hd
  refine ⟨?_, ?_, ?_⟩
  · apply Nat.lt_of_testBit q hl.1
    · rw [hi]; simp
    · intro k hk; rw [hi, if_neg (by omega)]
  · have : i &&& h = i := by
      apply Nat.eq_of_testBit_eq
      intro k
      rw [Nat.testBit_and, hi]
      split
      · next hk =>
        by_cases hkq : k = q
        · subst hkq; simp [hl.2]
        · simp [hkq]
      · rw [hab k (by omega)]; simp
    rw [← this]; exact Nat.and_le_right
  · have e1 : i % 2 ^ q = 0 := by
      apply Nat.eq_of_testBit_eq; intro k
      rw [Nat.testBit_mod_two_pow, hi, Nat.zero_testBit]
      by_cases hk : k < q
      · have : ¬ k = q := by omega
        simp [hk.le, this]
      · simp [hk]
    have e2 : j % 2 ^ q = 2 ^ q - 1 := by
      apply Nat.eq_of_testBit_eq; intro k
      rw [Nat.testBit_mod_two_pow, hj, Nat.testBit_two_pow_sub_one]
      by_cases hk : k < q
      · have : ¬ k = q := by omega
        simp [hk, hk.le, this]
      · simp [hk]
    have e3 : i / 2 ^ q / 2 = j / 2 ^ q / 2 := by
      apply Nat.eq_of_testBit_eq; intro k
      rw [← Nat.testBit_succ, ← Nat.testBit_succ, Nat.testBit_div_two_pow, Nat.testBit_div_two_pow, hi, hj,
        if_neg (by omega), if_neg (by omega), hab _ (by omega)]
    have e4 : i / 2 ^ q % 2 = 1 := by
      have : (i / 2 ^ q).testBit 0 = true := by
        rw [Nat.testBit_div_two_pow, Nat.zero_add, hi]; simp
      simpa [Nat.testBit_zero] using this
    have e5 : j / 2 ^ q % 2 = 0 := by
      have : (j / 2 ^ q).testBit 0 = false := by
        rw [Nat.testBit_div_two_pow, Nat.zero_add, hj]; simp
      simpa [Nat.testBit_zero] using this
    have h1 := Nat.div_add_mod i (2 ^ q)
    have h2 := Nat.div_add_mod j (2 ^ q)
    have h3 : i / 2 ^ q = j / 2 ^ q + 1 := by omega
    have hpos : 0 < 2 ^ q := Nat.two_pow_pos q
    rw [h3, Nat.mul_add] at h1
    omega

/-- two cells spanning a rectangle -/
def Valid (L H : Nat) : Prop := L < 2 ^ 48 ∧ H < 2 ^ 48 ∧ cx L ≤ cx H ∧ cy L ≤ cy H

/-- everything about one split, in cells -/
structure Halves (L H J I : Nat) (P : Nat) : Prop where
  /-- the first half is a rectangle -/
  v1 : Valid L J
  /-- the second half is a rectangle -/
  v2 : Valid I H
  /-- the halves cover -/
  cover : ∀ c, InBox L H c ↔ InBox L J c ∨ InBox I H c
  /-- all of the first comes before all of the second -/
  lt : J < I
  /-- the corner belongs to the rectangle -/
  j_in : InBox L H J
  /-- the corner belongs to the rectangle -/
  i_in : InBox L H I
  /-- the remaining differences are smaller -/
  x1 : L ^^^ J < 2 ^ P
  /-- the remaining differences are smaller -/
  x2 : I ^^^ H < 2 ^ P
  /-- cut along one axis -/
  strips : (cx J + 1 = cx I ∧ cy J = cy H ∧ cy I = cy L) ∨ (cy J + 1 = cy I ∧ cx J = cx H ∧ cx I = cx L)

theorem xor_lt_of {a b P : Nat} (h : ∀ k, P ≤ k → a.testBit k = b.testBit k) : a ^^^ b < 2 ^ P := by
  apply Nat.lt_pow_two_of_testBit
  intro k hk
  rw [Nat.testBit_xor, h k hk, Bool.xor_self]

theorem halves_of {L H J I P : Nat} (hv : Valid L H)
    (hP : (L ^^^ H).testBit P = true) (hab : ∀ k, P < k → (L ^^^ H).testBit k = false)
    (hJ : ∀ k, J.testBit k = if k ≤ P ∧ k % 2 = P % 2 then decide (k ≠ P) else H.testBit k)
    (hI : ∀ k, I.testBit k = if k ≤ P ∧ k % 2 = P % 2 then decide (k = P) else L.testBit k) :
    Halves L H J I P := by
  obtain ⟨hL, hH, hx, hy⟩ := hv
  have hab' : ∀ k, P < k → L.testBit k = H.testBit k := by
    intro k hk
    have := hab k hk
    rw [Nat.testBit_xor] at this
    simpa using this
  have hP' : L.testBit P ≠ H.testBit P := by
    rw [Nat.testBit_xor] at hP
    simpa using hP
  have hP48 : P < 48 := by
    by_contra hc
    apply hP'
    rw [Nat.testBit_lt_two_pow (Nat.lt_of_lt_of_le hL (Nat.pow_le_pow_right (by omega) (by omega))),
      Nat.testBit_lt_two_pow (Nat.lt_of_lt_of_le hH (Nat.pow_le_pow_right (by omega) (by omega)))]
  have hJ48 : J < 2 ^ 48 := by
    apply Nat.lt_pow_two_of_testBit
    intro k hk
    rw [hJ, if_neg (by omega)]
    exact Nat.testBit_lt_two_pow (Nat.lt_of_lt_of_le hH (Nat.pow_le_pow_right (by omega) hk))
  have hI48 : I < 2 ^ 48 := by
    apply Nat.lt_pow_two_of_testBit
    intro k hk
    rw [hI, if_neg (by omega)]
    exact Nat.testBit_lt_two_pow (Nat.lt_of_lt_of_le hL (Nat.pow_le_pow_right (by omega) hk))
  have hLP : L.testBit P = false ∧ H.testBit P = true ∧
      ((cx J + 1 = cx I ∧ cx L < cx I ∧ cx I ≤ cx H ∧ cy J = cy H ∧ cy I = cy L) ∨
       (cy J + 1 = cy I ∧ cy L < cy I ∧ cy I ≤ cy H ∧ cx J = cx H ∧ cx I = cx L)) := by
    obtain ⟨q, rfl | rfl⟩ : ∃ q, P = 2 * q ∨ P = 2 * q + 1 := ⟨P / 2, by omega⟩
    · have ha := axis (l := cx L) (h := cx H) (j := cx J) (i := cx I) (q := q) hx
        (fun k hk => by rw [cx_testBit, cx_testBit]; exact hab' _ (by omega))
        (by rw [cx_testBit, cx_testBit]; exact hP')
        (fun k => by
          rw [cx_testBit, cx_testBit, hJ]
          by_cases hk : k ≤ q
          · rw [if_pos hk, if_pos (by omega)]; congr 1; apply propext; omega
          · rw [if_neg hk, if_neg (by omega)])
        (fun k => by
          rw [cx_testBit, cx_testBit, hI]
          by_cases hk : k ≤ q
          · rw [if_pos hk, if_pos (by omega)]; congr 1; apply propext; omega
          · rw [if_neg hk, if_neg (by omega)])
      have hyJ : cy J = cy H := by
        apply Nat.eq_of_testBit_eq; intro k
        rw [cy_testBit, cy_testBit, hJ, if_neg (by omega)]
      have hyI : cy I = cy L := by
        apply Nat.eq_of_testBit_eq; intro k
        rw [cy_testBit, cy_testBit, hI, if_neg (by omega)]
      have hlt : L < I := coord_strict (by omega) (by omega) (by omega)
      refine ⟨?_, ?_, Or.inl ⟨ha.2.2, ha.1, ha.2.1, hyJ, hyI⟩⟩
      · by_contra hc
        have h1 : L.testBit (2 * q) = true := by simpa using hc
        have h2 : H.testBit (2 * q) = false := by
          cases h : H.testBit (2 * q)
          · rfl
          · rw [h1, h] at hP'; exact absurd rfl hP'
        have := Nat.lt_of_testBit (n := cx H) (m := cx L) q (by rw [cx_testBit]; exact h2)
          (by rw [cx_testBit]; exact h1)
          (fun k hk => by rw [cx_testBit, cx_testBit]; exact (hab' _ (by omega)).symm)
        omega
      · by_contra hc
        have h2 : H.testBit (2 * q) = false := by simpa using hc
        have h1 : L.testBit (2 * q) = true := by
          cases h : L.testBit (2 * q)
          · rw [h2, h] at hP'; exact absurd rfl hP'
          · rfl
        have := Nat.lt_of_testBit (n := cx H) (m := cx L) q (by rw [cx_testBit]; exact h2)
          (by rw [cx_testBit]; exact h1)
          (fun k hk => by rw [cx_testBit, cx_testBit]; exact (hab' _ (by omega)).symm)
        omega
    · have ha := axis (l := cy L) (h := cy H) (j := cy J) (i := cy I) (q := q) hy
        (fun k hk => by rw [cy_testBit, cy_testBit]; exact hab' _ (by omega))
        (by rw [cy_testBit, cy_testBit]; exact hP')
        (fun k => by
          rw [cy_testBit, cy_testBit, hJ]
          by_cases hk : k ≤ q
          · rw [if_pos hk, if_pos (by omega)]; congr 1; apply propext; omega
          · rw [if_neg hk, if_neg (by omega)])
        (fun k => by
          rw [cy_testBit, cy_testBit, hI]
          by_cases hk : k ≤ q
          · rw [if_pos hk, if_pos (by omega)]; congr 1; apply propext; omega
          · rw [if_neg hk, if_neg (by omega)])
      have hyJ : cx J = cx H := by
        apply Nat.eq_of_testBit_eq; intro k
        rw [cx_testBit, cx_testBit, hJ, if_neg (by omega)]
      have hyI : cx I = cx L := by
        apply Nat.eq_of_testBit_eq; intro k
        rw [cx_testBit, cx_testBit, hI, if_neg (by omega)]
      refine ⟨?_, ?_, Or.inr ⟨ha.2.2, ha.1, ha.2.1, hyJ, hyI⟩⟩
      · by_contra hc
        have h1 : L.testBit (2 * q + 1) = true := by simpa using hc
        have h2 : H.testBit (2 * q + 1) = false := by
          cases h : H.testBit (2 * q + 1)
          · rfl
          · rw [h1, h] at hP'; exact absurd rfl hP'
        have := Nat.lt_of_testBit (n := cy H) (m := cy L) q (by rw [cy_testBit]; exact h2)
          (by rw [cy_testBit]; exact h1)
          (fun k hk => by rw [cy_testBit, cy_testBit]; exact (hab' _ (by omega)).symm)
        omega
      · by_contra hc
        have h2 : H.testBit (2 * q + 1) = false := by simpa using hc
        have h1 : L.testBit (2 * q + 1) = true := by
          cases h : L.testBit (2 * q + 1)
          · rw [h2, h] at hP'; exact absurd rfl hP'
          · rfl
        have := Nat.lt_of_testBit (n := cy H) (m := cy L) q (by rw [cy_testBit]; exact h2)
          (by rw [cy_testBit]; exact h1)
          (fun k hk => by rw [cy_testBit, cy_testBit]; exact (hab' _ (by omega)).symm)
        omega
  obtain ⟨hl0, hh1, hc⟩ := hLP
  refine ⟨⟨hL, hJ48, ?_, ?_⟩, ⟨hI48, hH, ?_, ?_⟩, ?_, ?_, ?_, ?_, ?_, ?_, by omega⟩
  · omega
  · omega
  · omega
  · omega
  · intro c
    unfold InBox
    constructor
    · intro h; omega
    · intro h; omega
  · apply Nat.lt_of_testBit P
    · rw [hJ]; simp
    · rw [hI]; simp
    · intro k hk
      rw [hJ, hI, if_neg (by omega), if_neg (by omega), hab' k hk]
  · unfold InBox; omega
  · unfold InBox; omega
  · apply xor_lt_of
    intro k hk
    rw [hJ]
    by_cases he : k = P
    · subst he; simp [hl0]
    · rw [if_neg (by omega), hab' k (by omega)]
  · apply xor_lt_of
    intro k hk
    rw [hI]
    by_cases he : k = P
    · subst he; simp [hh1]
    · rw [if_neg (by omega), hab' k (by omega)]

theorem up_lt {a : Nat} (h : a < 2 ^ 48) : a * 2 ^ 16 < 2 ^ 64 := by
  rw [show (2 : Nat) ^ 64 = 2 ^ 48 * 2 ^ 16 by norm_num]
  exact Nat.mul_lt_mul_of_pos_right h (by norm_num)

/-- `z_split` on aligned corners -/
theorem split_cells {L H : Nat} (hv : Valid L H) (hne : L ≠ H) :
    ∃ J I P, split (L * 2 ^ 16) (H * 2 ^ 16) = ⟨decide (J + 1 < I), J * 2 ^ 16, I * 2 ^ 16⟩ ∧
      Halves L H J I P ∧ (L ^^^ H).testBit P = true ∧ ∀ k, P < k → (L ^^^ H).testBit k = false := by
  have hx : L ^^^ H ≠ 0 := fun h => hne (Nat.xor_eq_zero_iff.1 h)
  obtain ⟨P, hP, hab⟩ := Nat.exists_most_significant_bit hx
  have hL : L < 2 ^ 48 := hv.1
  have hH : H < 2 ^ 48 := hv.2.1
  have hlo : L * 2 ^ 16 < 2 ^ 64 := up_lt hv.1
  have hhi : H * 2 ^ 16 < 2 ^ 64 := up_lt hv.2.1
  have hs : ∀ a k, (a * 2 ^ 16).testBit k = (decide (16 ≤ k) && a.testBit (k - 16)) := by
    intro a k; rw [Nat.testBit_mul_two_pow]
  have hm := splitMask_testBit (lo := L * 2 ^ 16) (hi := H * 2 ^ 16) (p := P + 16) hlo hhi
    (by
      rw [Nat.testBit_xor, hs, hs]
      rw [Nat.testBit_xor] at hP
      simpa using hP)
    (fun j hj => by
      rw [Nat.testBit_xor, hs, hs]
      have := hab (j - 16) (by omega)
      rw [Nat.testBit_xor] at this
      simp [show 16 ≤ j by omega, this])
  have hmlt : splitMask (L * 2 ^ 16) (H * 2 ^ 16) < 2 ^ 64 := by
    apply Nat.lt_pow_two_of_testBit
    intro k hk
    rw [hm]
    have : P < 48 := by
      by_contra hc
      have h1 := Nat.xor_lt_two_pow hL hH
      rw [Nat.testBit_lt_two_pow (Nat.lt_of_lt_of_le h1 (Nat.pow_le_pow_right (by omega) (show 48 ≤ P by omega)))] at hP
      cases hP
    simp; omega
  unfold split
  dsimp only
  generalize splitMask (L * 2 ^ 16) (H * 2 ^ 16) = m at *
  generalize hjo : ((H * 2 ^ 16 &&& not64 m) ||| m >>> 2) &&& not64 0xffff = jo
  generalize hji : ((L * 2 ^ 16 ||| m) &&& not64 (m >>> 2)) &&& not64 0xffff = ji
  have n64 : not64 0xffff < 2 ^ 64 := by decide
  have hjolt : jo < 2 ^ 64 := by rw [← hjo]; exact Nat.and_lt_two_pow _ n64
  have hjilt : ji < 2 ^ 64 := by rw [← hji]; exact Nat.and_lt_two_pow _ n64
  have hjob : ∀ k, k < 64 → jo.testBit k = (decide (16 ≤ k) &&
      (if k ≤ P + 16 ∧ k % 2 = P % 2 then decide (k ≠ P + 16) else H.testBit (k - 16))) := by
    intro k hk
    rw [← hjo, Nat.testBit_and, not64_testBit k hk, low_testBit, Nat.testBit_or, Nat.testBit_and,
      not64_testBit k hk, Nat.testBit_shiftRight, hm, hm, hs]
    by_cases h16 : 16 ≤ k
    · have e0 : ¬ k < 16 := by omega
      by_cases hc : k ≤ P + 16 ∧ k % 2 = P % 2
      · have e1 : k % 2 = (P + 16) % 2 := by omega
        have e2 : (2 + k) % 2 = (P + 16) % 2 := by omega
        rw [if_pos hc]
        have e3 : (2 + k ≤ P + 16) ↔ (k ≠ P + 16) := by omega
        simp [h16, e0, hc.1, e1, e2, e3]
      · rw [if_neg hc]
        by_cases hle : k ≤ P + 16
        · have e1 : ¬ k % 2 = (P + 16) % 2 := by omega
          have e2 : ¬ (2 + k) % 2 = (P + 16) % 2 := by omega
          simp [h16, e0, e1, e2]
        · have e2 : ¬ 2 + k ≤ P + 16 := by omega
          simp [h16, e0, hle, e2]
    · have e0 : k < 16 := by omega
      simp [h16, e0]
  have hjib : ∀ k, k < 64 → ji.testBit k = (decide (16 ≤ k) &&
      (if k ≤ P + 16 ∧ k % 2 = P % 2 then decide (k = P + 16) else L.testBit (k - 16))) := by
    intro k hk
    rw [← hji, Nat.testBit_and, not64_testBit k hk, low_testBit, Nat.testBit_and, Nat.testBit_or,
      not64_testBit k hk, Nat.testBit_shiftRight, hm, hm, hs]
    by_cases h16 : 16 ≤ k
    · have e0 : ¬ k < 16 := by omega
      by_cases hc : k ≤ P + 16 ∧ k % 2 = P % 2
      · have e1 : k % 2 = (P + 16) % 2 := by omega
        have e2 : (2 + k) % 2 = (P + 16) % 2 := by omega
        rw [if_pos hc]
        by_cases he : k = P + 16
        · have e3 : ¬ 2 + k ≤ P + 16 := by omega
          simp [h16, e0, hc.1, e1, e3, he]
        · have e3 : 2 + k ≤ P + 16 := by omega
          simp [h16, e0, hc.1, e1, e2, e3, he]
      · rw [if_neg hc]
        by_cases hle : k ≤ P + 16
        · have e1 : ¬ k % 2 = (P + 16) % 2 := by omega
          have e2 : ¬ (2 + k) % 2 = (P + 16) % 2 := by omega
          simp [h16, e0, e1, e2]
        · have e2 : ¬ 2 + k ≤ P + 16 := by omega
          simp [h16, e0, hle, e2]
    · have e0 : k < 16 := by omega
      simp [h16, e0]
  have hjo' : jo = jo / 2 ^ 16 * 2 ^ 16 := by
    apply Nat.eq_of_testBit_eq; intro k
    rw [hs, Nat.testBit_div_two_pow]
    by_cases h16 : 16 ≤ k
    · rw [show k - 16 + 16 = k by omega]; simp [h16]
    · rw [hjob k (by omega)]; simp [h16]
  have hji' : ji = ji / 2 ^ 16 * 2 ^ 16 := by
    apply Nat.eq_of_testBit_eq; intro k
    rw [hs, Nat.testBit_div_two_pow]
    by_cases h16 : 16 ≤ k
    · rw [show k - 16 + 16 = k by omega]; simp [h16]
    · rw [hjib k (by omega)]; simp [h16]
  have hP48 : P < 48 := by
    by_contra hc
    have h1 := Nat.xor_lt_two_pow hL hH
    rw [Nat.testBit_lt_two_pow (Nat.lt_of_lt_of_le h1 (Nat.pow_le_pow_right (by omega) (show 48 ≤ P by omega)))] at hP
    cases hP
  have hh := halves_of (J := jo / 2 ^ 16) (I := ji / 2 ^ 16) hv hP hab
    (fun k => by
      rw [Nat.testBit_div_two_pow]
      by_cases hk : k < 48
      · rw [hjob _ (by omega), show k + 16 - 16 = k by omega]
        have e1 : 16 ≤ k + 16 := by omega
        have e2 : (k + 16 ≤ P + 16 ∧ (k + 16) % 2 = P % 2) ↔ (k ≤ P ∧ k % 2 = P % 2) := by omega
        have e3 : (k + 16 ≠ P + 16) ↔ k ≠ P := by omega
        simp only [e1, decide_true, Bool.true_and, e2, e3]
      · rw [testBit_big hjolt (by omega), if_neg (by omega),
          Nat.testBit_lt_two_pow (Nat.lt_of_lt_of_le hH (Nat.pow_le_pow_right (by omega) (by omega)))])
    (fun k => by
      rw [Nat.testBit_div_two_pow]
      by_cases hk : k < 48
      · rw [hjib _ (by omega), show k + 16 - 16 = k by omega]
        have e1 : 16 ≤ k + 16 := by omega
        have e2 : (k + 16 ≤ P + 16 ∧ (k + 16) % 2 = P % 2) ↔ (k ≤ P ∧ k % 2 = P % 2) := by omega
        have e3 : (k + 16 = P + 16) ↔ k = P := by omega
        simp only [e1, decide_true, Bool.true_and, e2, e3]
      · rw [testBit_big hjilt (by omega), if_neg (by omega),
          Nat.testBit_lt_two_pow (Nat.lt_of_lt_of_le hL (Nat.pow_le_pow_right (by omega) (by omega)))])
  refine ⟨jo / 2 ^ 16, ji / 2 ^ 16, P, ?_, hh, hP, hab⟩
  have hlt := hh.lt
  rw [← hjo', ← hji']
  congr 1
  apply decide_eq_decide.2
  omega

/-- a single cell is not split -/
theorem split_same {L : Nat} (hL : L < 2 ^ 48) :
    split (L * 2 ^ 16) (L * 2 ^ 16) = ⟨false, L * 2 ^ 16, L * 2 ^ 16⟩ := by
  have hm : splitMask (L * 2 ^ 16) (L * 2 ^ 16) = 0 := by
    unfold splitMask
    rw [Nat.xor_self]
    decide
  have key : L * 2 ^ 16 &&& not64 0xffff = L * 2 ^ 16 := by
    apply Nat.eq_of_testBit_eq; intro k
    rw [Nat.testBit_and, Nat.testBit_mul_two_pow]
    by_cases hk : k < 64
    · rw [not64_testBit k hk, low_testBit]
      by_cases h16 : 16 ≤ k
      · have : ¬ k < 16 := by omega
        simp [this]
      · simp [h16]
    · have : (L * 2 ^ 16).testBit k = false := testBit_big (by omega) (by omega)
      rw [Nat.testBit_mul_two_pow] at this
      rw [this]; rfl
  have h64 : L * 2 ^ 16 &&& not64 0 = L * 2 ^ 16 := by
    apply Nat.eq_of_testBit_eq; intro k
    rw [Nat.testBit_and]
    by_cases hk : k < 64
    · rw [not64_testBit k hk]; simp
    · rw [testBit_big (show L * 2 ^ 16 < 2 ^ 64 by omega) (by omega)]; rfl
  unfold split
  dsimp only
  rw [hm]
  simp only [Nat.zero_shiftRight, Nat.or_zero]
  rw [h64, key]
  congr 1
  rw [show L * 2 ^ 16 + 2 ^ 64 - L * 2 ^ 16 = 2 ^ 64 by omega]
  decide

end CE.Zorder
