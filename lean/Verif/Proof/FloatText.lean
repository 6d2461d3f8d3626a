import Mathlib.Algebra.Order.Field.Power
import Mathlib.Data.Int.Log
import Mathlib.Algebra.Order.Round
import Mathlib.Data.Rat.Floor
import Mathlib.Data.Set.Finite.List
import Mathlib.Tactic.Ring
import Mathlib.Tactic.Linarith
import Mathlib.Tactic.FieldSimp
import Mathlib.Tactic.Positivity
import Verif.Model.FloatText
/-! Distances between floating point numbers, decimals near a number, digits. -/
namespace CE.FloatText

/-! ## the grid -/

theorem mag_nonneg (m : Nat) (e : Int) : 0 ≤ mag m e := by unfold mag; positivity

theorem mag_pos {m : Nat} (e : Int) (h : 0 < m) : 0 < mag m e := by
  unfold mag
  have : (0 : ℚ) < m := by exact_mod_cast h
  positivity

/-- a number in terms of a smaller exponent -/
theorem mag_lower (m : Nat) (e e' : Int) (h : e' ≤ e) : mag m e = mag (m * 2 ^ (e - e').toNat) e' := by
  unfold mag
  push_cast
  rw [mul_assoc]
  congr 1
  rw [← zpow_natCast, ← zpow_add₀ (by norm_num)]
  congr 1
  omega

theorem mag_inj {m n : Nat} {e : Int} (h : mag m e = mag n e) : m = n := by
  unfold mag at h
  have h2 : (2 : ℚ) ^ e ≠ 0 := by positivity
  exact_mod_cast mul_right_cancel₀ h2 h

theorem mag_lt_iff {m n : Nat} {e : Int} : mag m e < mag n e ↔ m < n := by
  unfold mag
  rw [mul_lt_mul_iff_left₀ (by positivity)]
  exact_mod_cast Iff.rfl

/-- two numbers of the same exponent that differ are a unit apart -/
theorem sub_same (m n : Nat) (e : Int) : |mag m e - mag n e| = |((m : Int) - n : Int)| * (2 : ℚ) ^ e := by
  unfold mag
  rw [← sub_mul, abs_mul, abs_of_pos (a := (2 : ℚ) ^ e) (by positivity)]
  push_cast
  rfl

theorem unit_le (m n : Nat) (e : Int) (h : m ≠ n) : (2 : ℚ) ^ e ≤ |mag m e - mag n e| := by
  rw [sub_same]
  have h1 : (1 : Int) ≤ |(m : Int) - n| := Int.one_le_abs (by omega)
  have h2 : (1 : ℚ) ≤ ((|(m : Int) - n| : Int) : ℚ) := by exact_mod_cast h1
  calc (2 : ℚ) ^ e = 1 * (2 : ℚ) ^ e := (one_mul _).symm
    _ ≤ _ := by apply mul_le_mul_of_nonneg_right _ (by positivity); simpa using h2

/-- any other number with the precision of the format is far away, relative to the number -/
theorem gap (F : Fmt) (m : Nat) (e : Int) (hm : m < 2 ^ F.p) (hp : 0 < F.p)
    (hc : 2 ^ (F.p - 1) ≤ m ∨ e = F.emin) (m' : Nat) (e' : Int) (hm' : m' < 2 ^ F.p) (he' : F.emin ≤ e')
    (hne : mag m' e' ≠ mag m e) : mag m e ≤ |mag m e - mag m' e'| * 2 ^ F.p := by
  by_cases h : e ≤ e'
  · rw [mag_lower m' e' e h] at hne ⊢
    have h1 := unit_le m (m' * 2 ^ (e' - e).toNat) e (fun h => hne (by rw [h]))
    have h2 : (m : ℚ) ≤ 2 ^ F.p := by exact_mod_cast hm.le
    calc mag m e = m * (2 : ℚ) ^ e := rfl
      _ ≤ 2 ^ F.p * (2 : ℚ) ^ e := mul_le_mul_of_nonneg_right h2 (by positivity)
      _ = (2 : ℚ) ^ e * 2 ^ F.p := mul_comm _ _
      _ ≤ _ := mul_le_mul_of_nonneg_right h1 (by positivity)
  · rcases hc with hc | hc
    · have hd : ∃ d, (e - e').toNat = d + 1 := ⟨(e - e').toNat - 1, by omega⟩
      obtain ⟨d, hd⟩ := hd
      have hP : 2 ^ F.p ≤ m * 2 ^ (d + 1) := by
        calc 2 ^ F.p = 2 ^ (F.p - 1) * 2 := by rw [← pow_succ]; congr 1; omega
          _ ≤ m * 2 := Nat.mul_le_mul_right _ hc
          _ ≤ m * 2 ^ (d + 1) := Nat.mul_le_mul_left _ (by rw [pow_succ]; have := Nat.one_le_two_pow (n := d); omega)
      rw [mag_lower m e e' (by omega), hd]
      have key : (m * 2 ^ (d + 1)) + m' * 2 ^ F.p ≤ (m * 2 ^ (d + 1)) * 2 ^ F.p := by
        have h1 : m' + 1 ≤ 2 ^ F.p := hm'
        have h2 : m' * 2 ^ F.p ≤ m' * (m * 2 ^ (d + 1)) := Nat.mul_le_mul_left _ hP
        calc _ ≤ (m * 2 ^ (d + 1)) + m' * (m * 2 ^ (d + 1)) := by omega
          _ = (m * 2 ^ (d + 1)) * (m' + 1) := by ring
          _ ≤ _ := Nat.mul_le_mul_left _ h1
      generalize m * 2 ^ (d + 1) = M at key hP
      have hlt : m' < M := by omega
      have : mag m' e' < mag M e' := mag_lt_iff.2 hlt
      rw [abs_of_pos (by linarith)]
      have hu : (0 : ℚ) < (2 : ℚ) ^ e' := by positivity
      unfold mag
      have key' : (M : ℚ) + m' * 2 ^ F.p ≤ M * 2 ^ F.p := by exact_mod_cast key
      have : ((M : ℚ) + m' * 2 ^ F.p) * 2 ^ e' ≤ (M * 2 ^ F.p) * 2 ^ e' := mul_le_mul_of_nonneg_right key' hu.le
      linarith [this, (by ring : ((M : ℚ) * 2 ^ e' - m' * 2 ^ e') * 2 ^ F.p = (M * 2 ^ F.p) * 2 ^ e' - m' * 2 ^ F.p * 2 ^ e'),
        (by ring : ((M : ℚ) + m' * 2 ^ F.p) * 2 ^ e' = M * 2 ^ e' + m' * 2 ^ F.p * 2 ^ e')]
    · omega

/-- what is close enough is read as the number -/
theorem roundsTo_of_close (F : Fmt) (q : ℚ) (m : Nat) (e : Int) (hm : m < 2 ^ F.p) (hp : 0 < F.p)
    (hc : 2 ^ (F.p - 1) ≤ m ∨ e = F.emin) (h : |q - mag m e| * 2 ^ (F.p + 1) < mag m e) : RoundsTo F q m e := by
  intro m' e' hm' he' hne
  left
  have hg := gap F m e hm hp hc m' e' hm' he' hne
  have h1 : |q - mag m e| * 2 < |mag m e - mag m' e'| := by
    have : |q - mag m e| * 2 * 2 ^ F.p < |mag m e - mag m' e'| * 2 ^ F.p := by
      calc |q - mag m e| * 2 * 2 ^ F.p = |q - mag m e| * 2 ^ (F.p + 1) := by ring
        _ < _ := h
        _ ≤ _ := hg
    exact lt_of_mul_lt_mul_right this (by positivity)
  have h2 : |mag m e - mag m' e'| ≤ |mag m e - q| + |q - mag m' e'| := abs_sub_le _ _ _
  rw [abs_sub_comm (mag m e) q] at h2
  linarith

theorem roundsTo_zero (F : Fmt) (e : Int) : RoundsTo F 0 0 e := by
  intro m' e' _ _ hne
  left
  have h0 : mag 0 e = 0 := by simp [mag]
  rw [h0] at hne ⊢
  simp only [sub_self, abs_zero, zero_sub, abs_neg]
  exact abs_pos.2 hne

/-- a number is given in one way -/
theorem canonical (F : Fmt) {m n : Nat} {e f : Int} (hp : 0 < F.p) (hm : m < 2 ^ F.p) (hn : n < 2 ^ F.p)
    (he : F.emin ≤ e) (hf : F.emin ≤ f) (hcm : 2 ^ (F.p - 1) ≤ m ∨ e = F.emin) (hcn : 2 ^ (F.p - 1) ≤ n ∨ f = F.emin)
    (h : mag m e = mag n f) : m = n ∧ e = f := by
  have key : ∀ {m n : Nat} {e f : Int}, n < 2 ^ F.p → F.emin ≤ f → (2 ^ (F.p - 1) ≤ m ∨ e = F.emin) →
      mag m e = mag n f → e ≤ f := by
    intro m n e f hn hf hcm h
    by_contra hlt
    rw [mag_lower m e f (by omega)] at h
    have := mag_inj h
    obtain ⟨d, hd⟩ : ∃ d, (e - f).toNat = d + 1 := ⟨(e - f).toNat - 1, by omega⟩
    rw [hd] at this
    rcases hcm with hcm | hcm
    · have hP : 2 ^ F.p ≤ m * 2 ^ (d + 1) := by
        calc 2 ^ F.p = 2 ^ (F.p - 1) * 2 := by rw [← pow_succ]; congr 1; omega
          _ ≤ m * 2 := Nat.mul_le_mul_right _ hcm
          _ ≤ m * 2 ^ (d + 1) := Nat.mul_le_mul_left _ (by rw [pow_succ]; have := Nat.one_le_two_pow (n := d); omega)
      omega
    · omega
  have h1 := key hn hf hcm h
  have h2 := key hm he hcn h.symm
  obtain rfl : e = f := by omega
  exact ⟨mag_inj h, rfl⟩

/-- the next number -/
theorem next_le (F : Fmt) {m n : Nat} {e f : Int} (hp : 0 < F.p)
    (hn : n < 2 ^ F.p) (hf : F.emin ≤ f) (hcm : 2 ^ (F.p - 1) ≤ m ∨ e = F.emin)
    (h : mag m e < mag n f) : mag (m + 1) e ≤ mag n f := by
  by_cases hef : e ≤ f
  · rw [mag_lower n f e hef] at h ⊢
    have := mag_lt_iff.1 h
    by_cases h1 : m + 1 = n * 2 ^ (f - e).toNat
    · rw [h1]
    · exact (mag_lt_iff.2 (by omega)).le
  · exfalso
    rcases hcm with hcm | hcm
    · obtain ⟨d, hd⟩ : ∃ d, (e - f).toNat = d + 1 := ⟨(e - f).toNat - 1, by omega⟩
      rw [mag_lower m e f (by omega), hd] at h
      have := mag_lt_iff.1 h
      have hP : 2 ^ F.p ≤ m * 2 ^ (d + 1) := by
        calc 2 ^ F.p = 2 ^ (F.p - 1) * 2 := by rw [← pow_succ]; congr 1; omega
          _ ≤ m * 2 := Nat.mul_le_mul_right _ hcm
          _ ≤ m * 2 ^ (d + 1) := Nat.mul_le_mul_left _ (by rw [pow_succ]; have := Nat.one_le_two_pow (n := d); omega)
      omega
    · omega

/-- two numbers that something could be read as are the same -/
theorem roundsTo_unique (F : Fmt) {q : ℚ} {m n : Nat} {e f : Int} (hp : 0 < F.p) (hm : m < 2 ^ F.p) (hn : n < 2 ^ F.p)
    (he : F.emin ≤ e) (hf : F.emin ≤ f) (hcm : 2 ^ (F.p - 1) ≤ m ∨ e = F.emin) (hcn : 2 ^ (F.p - 1) ≤ n ∨ f = F.emin)
    (h1 : RoundsTo F q m e) (h2 : RoundsTo F q n f) : m = n ∧ e = f := by
  -- the smaller one is even and so is the greater one, but they are neighbours
  have key : ∀ {m n : Nat} {e f : Int}, m < 2 ^ F.p → n < 2 ^ F.p →
      F.emin ≤ e → F.emin ≤ f → (2 ^ (F.p - 1) ≤ m ∨ e = F.emin) → (2 ^ (F.p - 1) ≤ n ∨ f = F.emin) →
      RoundsTo F q m e → RoundsTo F q n f → ¬ mag m e < mag n f := by
    intro m n e f hm hn he hf hcm hcn h1 h2 hlt
    have a := h1 n f hn hf hlt.ne'
    have b := h2 m e hm he hlt.ne
    have hev : m % 2 = 0 ∧ n % 2 = 0 ∧ |q - mag m e| = |q - mag n f| := by
      rcases a with a | a <;> rcases b with b | b
      · exact absurd a (by linarith)
      · exact absurd a (by linarith [b.1])
      · exact absurd b (by linarith [a.1])
      · exact ⟨a.2, b.2, a.1⟩
    obtain ⟨hm2, hn2, habs⟩ := hev
    have hP : 2 ^ F.p % 2 = 0 := by
      obtain ⟨k, hk⟩ : ∃ k, F.p = k + 1 := ⟨F.p - 1, by omega⟩
      rw [hk, pow_succ]; omega
    have hm1 : m + 1 < 2 ^ F.p := by omega
    have hnext := next_le F hp hn hf hcm hlt
    have hmid : q = (mag m e + mag n f) / 2 := by
      rcases abs_eq_abs.1 habs with h | h <;> linarith
    have hgt : mag m e < mag (m + 1) e := mag_lt_iff.2 (by omega)
    have heq : mag (m + 1) e = mag n f := by
      by_contra hc
      have hlt2 : mag (m + 1) e < mag n f := lt_of_le_of_ne hnext hc
      have := h1 (m + 1) e hm1 he hgt.ne'
      have e1 : |q - mag m e| = (mag n f - mag m e) / 2 := by
        rw [hmid, abs_of_nonneg (by linarith)]; ring
      have e2 : |q - mag (m + 1) e| < (mag n f - mag m e) / 2 := by
        rw [hmid, abs_lt]; constructor <;> linarith
      rcases this with h | h
      · linarith
      · linarith [h.1]
    have hc1 : 2 ^ (F.p - 1) ≤ m + 1 ∨ e = F.emin := by rcases hcm with h | h <;> [left; right] <;> omega
    have := (canonical F hp hm1 hn he hf hc1 hcn heq).1
    omega
  have h3 := key hm hn he hf hcm hcn h1 h2
  have h4 := key hn hm hf he hcn hcm h2 h1
  exact canonical F hp hm hn he hf hcm hcn (le_antisymm (not_lt.1 h4) (not_lt.1 h3))

/-! ## digits -/

theorem digitsVal_append (l : List (Fin 10)) (d : Fin 10) : digitsVal (l ++ [d]) = 10 * digitsVal l + d.val := by
  simp [digitsVal]

/-- `w` digits of `n` -/
def toDig : Nat → Nat → List (Fin 10)
  | 0, _ => []
  | w + 1, n => toDig w (n / 10) ++ [⟨n % 10, Nat.mod_lt _ (by decide)⟩]

theorem toDig_length (w n : Nat) : (toDig w n).length = w := by
  induction w generalizing n with
  | zero => rfl
  | succ w ih => simp [toDig, ih]

theorem digitsVal_toDig (w n : Nat) (h : n < 10 ^ w) : digitsVal (toDig w n) = n := by
  induction w generalizing n with
  | zero => simp at h; subst h; rfl
  | succ w ih =>
    rw [toDig, digitsVal_append, ih _ (by rw [pow_succ] at h; omega)]
    simp only
    omega

theorem digitsVal_lt (l : List (Fin 10)) : digitsVal l < 10 ^ l.length := by
  induction l using List.reverseRecOn with
  | nil => decide
  | append_singleton l d ih =>
    rw [digitsVal_append, List.length_append, List.length_singleton, pow_succ]
    have := d.isLt
    omega

theorem digitsVal_zero_cons (l : List (Fin 10)) : digitsVal (0 :: l) = digitsVal l := by simp [digitsVal]

theorem toDig_head (w n : Nat) (h : n < 10 ^ (w + 1)) (hn : 10 ^ w ≤ n) : (toDig (w + 1) n).head? ≠ some 0 := by
  intro hc
  have hl := toDig_length (w + 1) n
  have hv := digitsVal_toDig (w + 1) n h
  match ht : toDig (w + 1) n with
  | [] => rw [ht] at hl; cases hl
  | a :: l =>
    rw [ht] at hc hl hv
    simp only [List.head?_cons, Option.some.injEq] at hc
    subst hc
    rw [digitsVal_zero_cons] at hv
    have := digitsVal_lt l
    simp only [List.length_cons] at hl
    have e : l.length = w := by omega
    rw [e] at this
    omega

/-! ## a decimal near a number -/

/-- `D` significant digits come within half a unit of the last digit -/
theorem near (q : ℚ) (hq : 0 < q) (D : Nat) :
    ∃ (n : Nat) (K : Int), 10 ^ D ≤ n ∧ n < 10 ^ (D + 1) ∧ |(n : ℚ) * 10 ^ (K - D) - q| * (2 * 10 ^ D) ≤ q ∧
      Int.log 10 q ≤ K ∧ K ≤ Int.log 10 q + 1 := by
  set k := Int.log 10 q with hk
  have hlo : (10 : ℚ) ^ k ≤ q := by have := Int.zpow_log_le_self (b := 10) (by norm_num) hq; exact_mod_cast this
  have hhi : q < (10 : ℚ) ^ (k + 1) := by have := Int.lt_zpow_succ_log_self (b := 10) (by norm_num) q; exact_mod_cast this
  set u : ℚ := (10 : ℚ) ^ (k - D) with hu
  have hu0 : 0 < u := by positivity
  have hu1 : u * 10 ^ D = (10 : ℚ) ^ k := by
    rw [hu, ← zpow_natCast, ← zpow_add₀ (by norm_num)]; congr 1; omega
  have hx0 : (10 : ℚ) ^ D ≤ q / u := by rw [le_div_iff₀ hu0]; linarith
  have hx1 : q / u < 10 ^ (D + 1) := by
    rw [div_lt_iff₀ hu0, pow_succ]
    have : (10 : ℚ) ^ (k + 1) = 10 ^ k * 10 := zpow_add_one₀ (by norm_num) k
    rw [this, ← hu1] at hhi
    linarith
  set r := round (q / u) with hr
  have hrd : |q / u - r| ≤ 1 / 2 := abs_sub_round _
  have hr0 : (10 ^ D : Int) ≤ r := by
    by_contra hc
    have : r + 1 ≤ (10 ^ D : Int) := by omega
    have : (r : ℚ) + 1 ≤ 10 ^ D := by exact_mod_cast this
    rw [abs_le] at hrd
    linarith
  have hr1 : r ≤ (10 ^ (D + 1) : Int) := by
    by_contra hc
    have : (10 ^ (D + 1) : Int) + 1 ≤ r := by omega
    have : (10 : ℚ) ^ (D + 1) + 1 ≤ r := by exact_mod_cast this
    rw [abs_le] at hrd
    linarith
  have hpos : (0 : Int) < 10 ^ D := by positivity
  obtain ⟨n, hn⟩ := Int.eq_ofNat_of_zero_le (a := r) (by omega)
  have herr : |(r : ℚ) * u - q| * (2 * 10 ^ D) ≤ q := by
    have e : (r : ℚ) * u - q = (r - q / u) * u := by field_simp
    rw [e, abs_mul, abs_of_pos hu0, abs_sub_comm]
    calc |q / u - r| * u * (2 * 10 ^ D) ≤ 1 / 2 * u * (2 * 10 ^ D) := by
          apply mul_le_mul_of_nonneg_right _ (by positivity)
          exact mul_le_mul_of_nonneg_right hrd hu0.le
      _ = u * 10 ^ D := by ring
      _ ≤ q := by rw [hu1]; exact hlo
  by_cases hlast : r = 10 ^ (D + 1)
  · refine ⟨10 ^ D, k + 1, le_refl _, Nat.pow_lt_pow_right (by norm_num) (by omega), ?_, by omega, by omega⟩
    have e : ((10 ^ D : Nat) : ℚ) * 10 ^ (k + 1 - D : Int) = r * u := by
      rw [hlast, hu]
      push_cast
      rw [show k + 1 - (D : Int) = (k - D) + 1 by ring, zpow_add_one₀ (by norm_num)]
      ring
    rw [e]; exact herr
  · refine ⟨n, k, ?_, ?_, ?_, le_refl _, by omega⟩
    · have h := hr0; rw [hn] at h; exact_mod_cast h
    · have : r < 10 ^ (D + 1) := lt_of_le_of_ne hr1 hlast
      rw [hn] at this; exact_mod_cast this
    · rw [hn] at herr
      exact_mod_cast herr

end CE.FloatText
