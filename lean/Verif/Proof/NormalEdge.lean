import Verif.Proof.NormalRoot
import Verif.Proof.FloatText
/-! # Overflow, underflow and correct rounding -/
namespace CE.Normal

/-- a square or a sum of squares -/
def NN (a : Fp) : Prop := a = .inf false ∨ ∃ q, 0 ≤ q ∧ a = .num q

theorem rnd_nn {q : ℚ} (h : 0 ≤ q) : NN (rnd single q) := by
  rw [rnd_eq]
  split
  · exact Or.inr ⟨_, raw_nonneg _ h, rfl⟩
  · left; simp [not_lt.2 h]

theorem add_nn {a b : Fp} (ha : NN a) (hb : NN b) : NN (a.add single b) := by
  rcases ha with rfl | ⟨p, hp, rfl⟩ <;> rcases hb with rfl | ⟨q, hq, rfl⟩
  · left; rfl
  · left; rfl
  · left; rfl
  · exact rnd_nn (add_nonneg hp hq)

theorem add_inf_left {a : Fp} (ha : NN a) : (Fp.inf false).add single a = .inf false := by
  rcases ha with rfl | ⟨p, hp, rfl⟩ <;> rfl

theorem add_inf_right {a : Fp} (ha : NN a) : a.add single (.inf false) = .inf false := by
  rcases ha with rfl | ⟨p, hp, rfl⟩ <;> rfl

theorem sq_nn (c : ℚ) : NN ((Fp.num c).mul single (.num c)) := rnd_nn (mul_self_nonneg c)

theorem sq_large {c : ℚ} (h : 2 ^ 64 ≤ |c|) : 2 ^ 128 ≤ c * c := by
  have : (2 : ℚ) ^ 64 * 2 ^ 64 ≤ |c| * |c| := mul_le_mul h h (by positivity) (abs_nonneg _)
  rw [abs_mul_abs_self] at this
  linarith

theorem sq_inf {c : ℚ} (h : 2 ^ 64 ≤ |c|) : (Fp.num c).mul single (.num c) = .inf false := rnd_over (sq_large h)

theorem fma_nn (c : ℚ) {a : Fp} (ha : NN a) : NN ((Fp.num c).fma single (.num c) a) := by
  rcases ha with rfl | ⟨p, hp, rfl⟩
  · left; rfl
  · exact rnd_nn (add_nonneg (mul_self_nonneg c) hp)

theorem fma_large {c : ℚ} (h : 2 ^ 64 ≤ |c|) {a : Fp} (ha : NN a) : (Fp.num c).fma single (.num c) a = .inf false := by
  rcases ha with rfl | ⟨p, hp, rfl⟩
  · rfl
  · exact rnd_over (by linarith [sq_large h])

/-- the sum of squares overflows -/
theorem sum_over (contract : Bool) (q : Q3) (h : q.Any (fun c => 2 ^ 64 ≤ |c|)) :
    (if contract then fused q.fl else plain q.fl) = .inf false := by
  obtain ⟨x, y, z⟩ := q
  cases contract
  · simp only [Bool.false_eq_true, if_false, plain, Q3.fl]
    rcases h with h | h | h <;> simp only at h
    · rw [sq_inf h, add_inf_left (sq_nn _), add_inf_left (sq_nn _)]
    · rw [sq_inf h, add_inf_right (sq_nn _), add_inf_left (sq_nn _)]
    · rw [sq_inf h, add_inf_right (add_nn (sq_nn _) (sq_nn _))]
  · simp only [if_true, fused, Q3.fl]
    rcases h with h | h | h <;> simp only at h
    · rw [sq_inf h]; rfl
    · rw [fma_large h (sq_nn _)]; rfl
    · rw [fma_large h (fma_nn _ (sq_nn _))]

theorem raw_zero : raw single 0 = 0 := by simp [raw, rne]

theorem rnd_zero : rnd single 0 = .num 0 := by
  rw [rnd_fits (by rw [abs_zero]; positivity), raw_zero]

theorem scale_zero (q : Q3) : scale q.fl (.num 0) = (⟨0, 0, 0⟩ : Q3).fl := by
  simp [scale, Q3.fl, Fp.mul, rnd_zero]

/-- far below the least number -/
theorem rnd_tiny {q : ℚ} (h0 : 0 ≤ q) (h : q ≤ 2 ^ (-152 : ℤ)) : rnd single q = .num 0 := by
  by_cases hz : q = 0
  · rw [hz, rnd_zero]
  have hq : 0 < q := lt_of_le_of_ne h0 (Ne.symm hz)
  have hs : |q| ≤ 7 / 4 * 2 ^ 127 := by
    rw [abs_of_pos hq]; refine h.trans ?_; norm_num
  rw [rnd_fits hs]
  congr 1
  have hL : Int.log 2 |q| < -149 := by
    rw [abs_of_pos hq]
    rw [← Int.lt_zpow_iff_log_lt (by norm_num) hq]
    refine lt_of_le_of_lt h ?_
    norm_num
  have he : lastPlace single (Int.log 2 |q|) = -149 := by
    simp only [lastPlace, single]; rw [max_eq_left]; push_cast; omega
  unfold raw
  rw [he]
  have hx : q / 2 ^ (-149 : ℤ) ≤ 1 / 8 := by
    rw [div_le_iff₀ (by positivity)]
    refine h.trans ?_
    norm_num
  have hx0 : 0 ≤ q / 2 ^ (-149 : ℤ) := by positivity
  have hf : ⌊q / 2 ^ (-149 : ℤ)⌋ = 0 := by
    rw [Int.floor_eq_iff]; constructor
    · rw [Int.cast_zero]; exact hx0
    · rw [Int.cast_zero]; linarith
  have : rne (q / 2 ^ (-149 : ℤ)) = 0 := by
    unfold rne
    rw [hf, if_neg]
    simp only [Int.cast_zero, sub_zero]
    rintro (h | h)
    · linarith
    · omega
  rw [this]; simp

/-- what becomes of a component times infinity -/
def Blown (c : ℚ) (n : Fp) : Prop := (c = 0 → n = .nan) ∧ (0 < c → n = .inf false) ∧ (c < 0 → n = .inf true)

theorem blown (c : ℚ) : Blown c ((Fp.num c).mul single (.inf false)) := by
  refine ⟨fun h => ?_, fun h => ?_, fun h => ?_⟩ <;> simp only [Fp.mul]
  · rw [if_pos h]
  · rw [if_neg h.ne']; simp [not_lt.2 h.le]
  · rw [if_neg h.ne]; simp [h]

theorem sum_ok (contract : Bool) : SumOk (fun v => if contract then fused v else plain v) := by
  cases contract
  · exact plain_ok
  · exact fused_ok

theorem sq_small {c b : ℚ} (h : |c| ≤ b) : c * c ≤ b * b := by
  have hb : 0 ≤ b := (abs_nonneg _).trans h
  have : |c| * |c| ≤ b * b := mul_le_mul h h (abs_nonneg _) hb
  rwa [abs_mul_abs_self] at this

theorem sum_under (contract : Bool) (q : Q3) (h : q.All (fun c => |c| ≤ 2 ^ (-64 : ℤ))) :
    ∃ m, (if contract then fused q.fl else plain q.fl) = .num m ∧ 0 ≤ m ∧ m < 2 ^ (-126 : ℤ) := by
  obtain ⟨hx, hy, hz⟩ := h
  have k : ∀ c : ℚ, |c| ≤ 2 ^ (-64 : ℤ) → |c| ≤ 2 ^ 63 := by
    intro c h; refine h.trans ?_; norm_num
  obtain ⟨m, hm, m0, h⟩ := sum_ok contract q ⟨k _ hx, k _ hy, k _ hz⟩
  refine ⟨m, hm, m0, ?_⟩
  have hx := sq_small hx
  have hy := sq_small hy
  have hz := sq_small hz
  have h := (abs_le.1 h).2
  unfold Q3.len2 at h
  simp only [pow_two] at h
  rw [u_eq, η_eq] at h
  norm_num at h hx hy hz ⊢
  linarith

theorem sum_tiny (contract : Bool) (q : Q3) (h : q.All (fun c => |c| ≤ 2 ^ (-76 : ℤ))) :
    (if contract then fused q.fl else plain q.fl) = .num 0 := by
  obtain ⟨x, y, z⟩ := q
  obtain ⟨hx, hy, hz⟩ := h
  have k : ∀ c : ℚ, |c| ≤ 2 ^ (-76 : ℤ) → rnd single (c * c) = .num 0 := by
    intro c h
    apply rnd_tiny (mul_self_nonneg _)
    refine (sq_small h).trans ?_
    norm_num
  have kx := k _ hx
  have ky := k _ hy
  have kz := k _ hz
  cases contract
  · simp only [Bool.false_eq_true, if_false, plain, Q3.fl, Fp.mul, kx, ky, kz, Fp.add, add_zero, rnd_zero]
  · simp only [if_true, fused, Q3.fl, Fp.mul, kx, Fp.fma, add_zero, ky, kz]

/-! ## the rounding is that of the standard -/

open FloatText (mag RoundsTo)

/-- an integer other than the nearest -/
theorem rne_best (x : ℚ) (n : ℤ) (h : n ≠ rne x) : |x - rne x| < |x - n| ∨ |x - rne x| = |x - n| ∧ rne x % 2 = 0 := by
  have h1 := Int.floor_le x
  have h2 := Int.lt_floor_add_one x
  unfold rne at h ⊢
  generalize ⌊x⌋ = f at *
  split at h
  · rename_i hc
    rw [if_pos hc]
    have hc' : 1 / 2 ≤ x - f := by rcases hc with hc | hc; exacts [hc.le, hc.1.ge]
    have e : |x - ((f + 1 : ℤ) : ℚ)| = f + 1 - x := by
      push_cast; rw [abs_of_nonpos (by linarith)]; ring
    rw [e]
    rcases lt_or_gt_of_ne h with hn | hn
    · have hn' : (n : ℚ) ≤ f := by exact_mod_cast (by omega : n ≤ f)
      have : |x - n| = x - n := abs_of_nonneg (by linarith)
      rw [this]
      rcases hc with hc | hc
      · left; linarith
      · by_cases hf : n = f
        · right; subst hf; constructor
          · linarith
          · omega
        · have hn' : (n : ℚ) ≤ f - 1 := by exact_mod_cast (by omega : n ≤ f - 1)
          left; linarith
    · have hn' : (f : ℚ) + 2 ≤ n := by exact_mod_cast (by omega : f + 2 ≤ n)
      have : |x - n| = n - x := by rw [abs_of_nonpos (by linarith)]; ring
      rw [this]
      left; linarith
  · rename_i hc
    rw [if_neg hc]
    have hc' : x - f ≤ 1 / 2 := by
      by_contra hh; exact hc (Or.inl (by linarith))
    have e : |x - f| = x - f := abs_of_nonneg (by linarith)
    rw [e]
    rcases lt_or_gt_of_ne h with hn | hn
    · have hn' : (n : ℚ) ≤ f - 1 := by exact_mod_cast (by omega : n ≤ f - 1)
      have : |x - n| = x - n := abs_of_nonneg (by linarith)
      rw [this]; left; linarith
    · have hn' : (f : ℚ) + 1 ≤ n := by exact_mod_cast (by omega : f + 1 ≤ n)
      have : |x - n| = n - x := by rw [abs_of_nonpos (by linarith)]; ring
      rw [this]
      by_cases hh : x - f = 1 / 2
      · by_cases hf : n = f + 1
        · right; subst hf; push_cast; constructor
          · linarith
          · have : ¬ f % 2 = 1 := fun h => hc (Or.inr ⟨hh, h⟩)
            omega
        · have hn' : (f : ℚ) + 2 ≤ n := by exact_mod_cast (by omega : f + 2 ≤ n)
          left; linarith
      · left
        have : x - f < 1 / 2 := lt_of_le_of_ne hc' hh
        linarith

/-- the format in terms of `Spec/FloatText.lean` -/
def Fmt.std (F : Fmt) : FloatText.Fmt := ⟨F.p, F.emin, F.top - F.p⟩

theorem rnd_rounds (F : Fmt) (hp : 2 ≤ F.p) (ht : F.emin + F.p ≤ F.top) {q y : ℚ} (hq : 0 < q) (h : rnd F q = .num y) :
    ∃ m e, (FloatText.Fl.fin false m e).Valid F.std ∧ y = mag m e ∧ RoundsTo F.std q m e := by
  rw [rnd_eq] at h
  split at h
  swap
  · cases h
  rename_i htop
  injection h with h
  subst h
  rw [abs_of_nonneg (raw_nonneg F hq.le)] at htop
  have hl := Int.zpow_log_le_self (b := 2) (r := q) (by norm_num) hq
  have hu := Int.lt_zpow_succ_log_self (b := 2) (by norm_num) q
  unfold raw at *
  rw [abs_of_pos hq] at *
  set L := Int.log 2 q
  have hge : L - ((F.p : ℤ) - 1) ≤ lastPlace F L := le_max_right _ _
  have hmin : F.emin ≤ lastPlace F L := le_max_left _ _
  have hor : lastPlace F L = F.emin ∨ lastPlace F L = L - ((F.p : ℤ) - 1) := max_choice _ _
  generalize lastPlace F L = e at *
  have hE : (0 : ℚ) < 2 ^ e := by positivity
  have hl : (2 : ℚ) ^ L ≤ q := by exact_mod_cast hl
  have hu : q < (2 : ℚ) ^ (L + 1) := by exact_mod_cast hu
  -- size of the significand
  have hx1 : q / 2 ^ e < 2 ^ F.p := by
    rw [div_lt_iff₀ hE]
    refine hu.trans_le ?_
    rw [← zpow_natCast, ← zpow_add₀ two_ne_zero]
    apply zpow_le_zpow_right₀ (by norm_num)
    omega
  have hx2 : e = L - ((F.p : ℤ) - 1) → (2 : ℚ) ^ (F.p - 1) ≤ q / 2 ^ e := by
    intro he
    rw [le_div_iff₀ hE]
    refine le_trans (le_of_eq ?_) hl
    rw [← zpow_natCast, ← zpow_add₀ two_ne_zero]
    congr 1
    omega
  have hx0 : 0 < q / 2 ^ e := by positivity
  have hqx : q = q / 2 ^ e * 2 ^ e := by field_simp
  have hn1 : rne (q / 2 ^ e) ≤ 2 ^ F.p := by
    have : ⌊q / 2 ^ e⌋ < 2 ^ F.p := by
      rw [Int.floor_lt]; exact_mod_cast hx1
    unfold rne; split <;> omega
  have hn0 := rne_nonneg hx0.le
  have hn2 : e = L - ((F.p : ℤ) - 1) → 2 ^ (F.p - 1) ≤ rne (q / 2 ^ e) := by
    intro he
    have : 2 ^ (F.p - 1) ≤ ⌊q / 2 ^ e⌋ := by
      rw [Int.le_floor]; exact_mod_cast hx2 he
    unfold rne; split <;> omega
  have hbest := rne_best (q / 2 ^ e)
  generalize hx : q / 2 ^ e = x at *
  -- no other number is nearer
  have key : ∀ (m' : ℕ) (e' : ℤ), m' < 2 ^ F.p → F.emin ≤ e' → mag m' e' ≠ rne x * 2 ^ e →
      |q - rne x * 2 ^ e| < |q - mag m' e'| ∨ |q - rne x * 2 ^ e| = |q - mag m' e'| ∧ rne x % 2 = 0 := by
    intro m' e' hm' he' hne
    have scale : ∀ n : ℤ, |q - n * 2 ^ e| = |x - n| * 2 ^ e := by
      intro n
      rw [hqx, ← sub_mul, abs_mul, abs_of_pos hE]
    by_cases hee : e ≤ e'
    · rw [FloatText.mag_lower m' e' e hee] at hne ⊢
      generalize m' * 2 ^ (e' - e).toNat = M at *
      have hM : mag M e = ((M : ℤ) : ℚ) * 2 ^ e := by simp [mag]
      rw [hM] at hne ⊢
      rw [scale, scale]
      rcases hbest M (by rintro hh; exact hne (by rw [hh])) with h | h
      · left; exact mul_lt_mul_of_pos_right h hE
      · right; exact ⟨by rw [h.1], h.2⟩
    · have he2 : e = L - ((F.p : ℤ) - 1) := by omega
      have hb := hx2 he2
      -- the other one is below a number that is below `q`
      have hy : mag m' e' < 2 ^ (F.p - 1) * 2 ^ e := by
        have h1 : (m' : ℚ) < 2 ^ F.p := by exact_mod_cast hm'
        calc mag m' e' = m' * (2 : ℚ) ^ e' := rfl
          _ < 2 ^ F.p * 2 ^ e' := mul_lt_mul_of_pos_right h1 (by positivity)
          _ ≤ _ := by
            rw [← zpow_natCast, ← zpow_natCast, ← zpow_add₀ two_ne_zero, ← zpow_add₀ two_ne_zero]
            apply zpow_le_zpow_right₀ (by norm_num)
            omega
      have hB : (2 : ℚ) ^ (F.p - 1) * 2 ^ e ≤ q := by
        conv_rhs => rw [hqx]
        exact mul_le_mul_of_nonneg_right hb hE.le
      left
      have h3 : |q - rne x * 2 ^ e| ≤ |q - ((2 ^ (F.p - 1) : ℤ) : ℚ) * 2 ^ e| := by
        by_cases hh : (2 ^ (F.p - 1) : ℤ) = rne x
        · rw [hh]
        · rw [scale, scale]
          apply mul_le_mul_of_nonneg_right _ hE.le
          rcases hbest _ hh with h | h
          · exact h.le
          · exact h.1.le
      refine h3.trans_lt ?_
      push_cast
      rw [abs_of_nonneg (by linarith), abs_of_nonneg (by linarith)]
      linarith
  have hnn : ((rne x).toNat : ℤ) = rne x := Int.toNat_of_nonneg hn0
  by_cases hfull : rne x = 2 ^ F.p
  · -- one place up
    have hP : 2 ^ (F.p - 1) * 2 = 2 ^ F.p := by rw [← pow_succ]; congr 1; omega
    have hmag : mag (2 ^ (F.p - 1)) (e + 1) = rne x * (2 : ℚ) ^ e := by
      rw [hfull]; unfold mag; rw [zpow_add₀ two_ne_zero]; push_cast
      have : (2 : ℚ) ^ (F.p - 1) * 2 = 2 ^ F.p := by exact_mod_cast hP
      rw [← this]; ring
    refine ⟨2 ^ (F.p - 1), e + 1, ⟨?_, ?_, ?_, Or.inl (le_refl _)⟩, hmag.symm, ?_⟩
    · show 2 ^ (F.p - 1) < 2 ^ F.p
      have := Nat.one_le_two_pow (n := F.p - 1)
      omega
    · show F.emin ≤ e + 1
      omega
    · show e + 1 ≤ F.top - F.p
      rw [hfull] at htop
      push_cast at htop
      rw [← zpow_natCast, ← zpow_add₀ two_ne_zero] at htop
      have := (zpow_lt_zpow_iff_right₀ (by norm_num : (1 : ℚ) < 2)).1 htop
      omega
    · intro m' e' hm' he' hne
      rw [hmag] at hne ⊢
      rcases key m' e' hm' he' hne with h | h
      · exact Or.inl h
      · right
        refine ⟨h.1, ?_⟩
        have : F.p - 1 = (F.p - 2) + 1 := by omega
        rw [this, pow_succ]; simp
  · have hmag : mag (rne x).toNat e = rne x * (2 : ℚ) ^ e := by
      unfold mag
      have : (((rne x).toNat : ℕ) : ℚ) = ((rne x : ℤ) : ℚ) := by exact_mod_cast hnn
      rw [this]
    refine ⟨(rne x).toNat, e, ⟨?_, hmin, ?_, ?_⟩, hmag.symm, ?_⟩
    · show (rne x).toNat < 2 ^ F.p
      have : (rne x) < 2 ^ F.p := lt_of_le_of_ne hn1 hfull
      zify; rw [hnn]; exact this
    · show e ≤ F.top - F.p
      rcases hor with h | h
      · omega
      · have h1 := hn2 h
        have h2 : (2 : ℚ) ^ (F.p - 1) ≤ rne x := by exact_mod_cast h1
        have h3 : (2 : ℚ) ^ (F.p - 1) * 2 ^ e < 2 ^ F.top := lt_of_le_of_lt (mul_le_mul_of_nonneg_right h2 hE.le) htop
        rw [← zpow_natCast, ← zpow_add₀ two_ne_zero] at h3
        have := (zpow_lt_zpow_iff_right₀ (by norm_num : (1 : ℚ) < 2)).1 h3
        omega
    · rcases hor with h | h
      · exact Or.inr h
      · left
        show 2 ^ (F.p - 1) ≤ (rne x).toNat
        zify; rw [hnn]; exact hn2 h
    · intro m' e' hm' he' hne
      rw [hmag] at hne ⊢
      rcases key m' e' hm' he' hne with h | h
      · exact Or.inl h
      · right; exact ⟨h.1, by omega⟩

end CE.Normal
