import Verif.Proof.Normal
/-! # The reciprocal of the square root in floating point arithmetic -/
namespace CE.Normal

theorem rootNe_near {x : ℚ} (P : ℕ) (hP : 0 < P) (h : (P : ℚ) ^ 2 ≤ x) :
    (P : ℚ) ≤ rootNe x ∧ ((rootNe x : ℚ) - 1 / 2) ^ 2 ≤ x ∧ x ≤ ((rootNe x : ℚ) + 1 / 2) ^ 2 := by
  have hx0 : 0 ≤ x := le_trans (by positivity) h
  have hPf : P ^ 2 ≤ ⌊x⌋₊ := by
    rw [Nat.le_floor_iff hx0]; exact_mod_cast h
  have hk : P ≤ Nat.sqrt ⌊x⌋₊ := Nat.le_sqrt'.2 hPf
  have h1 : Nat.sqrt ⌊x⌋₊ ^ 2 ≤ ⌊x⌋₊ := Nat.sqrt_le' _
  have h2 : ⌊x⌋₊ + 1 ≤ (Nat.sqrt ⌊x⌋₊ + 1) ^ 2 := Nat.succ_le_succ_sqrt' _
  have h1' : ((Nat.sqrt ⌊x⌋₊ : ℕ) : ℚ) ^ 2 ≤ x := le_trans (by exact_mod_cast h1) (Nat.floor_le hx0)
  have h2' : x < ((Nat.sqrt ⌊x⌋₊ : ℕ) + 1 : ℚ) ^ 2 := lt_of_lt_of_le (Nat.lt_floor_add_one x) (by exact_mod_cast h2)
  have hk1 : (1 : ℚ) ≤ (Nat.sqrt ⌊x⌋₊ : ℕ) := by exact_mod_cast (by omega : 1 ≤ Nat.sqrt ⌊x⌋₊)
  have hkP : (P : ℚ) ≤ (Nat.sqrt ⌊x⌋₊ : ℕ) := by exact_mod_cast hk
  unfold rootNe
  generalize Nat.sqrt ⌊x⌋₊ = k at *
  simp only [Int.cast_natCast]
  split
  · rename_i hc
    have : ((k : ℚ) + 1 / 2) ^ 2 ≤ x := by rcases hc with hc | hc; exacts [hc.le, hc.1.le]
    push_cast
    refine ⟨by linarith, by convert this using 2; ring, h2'.le.trans ?_⟩
    apply pow_le_pow_left₀ (by linarith); linarith
  · rename_i hc
    push_cast
    refine ⟨hkP, le_trans ?_ h1', ?_⟩
    · apply pow_le_pow_left₀ <;> linarith
    · by_contra h3
      exact hc (Or.inl (by linarith))

/-- the square root is nearly exact -/
theorem sqrt_near (F : Fmt) (hp : 0 < F.p) (hw : (2 : ℚ) ^ (-(F.p : ℤ)) ≤ u) {q : ℚ} (hq : 0 < q) :
    ∃ s, 0 < s ∧ (Fp.num q).sqrt F = .num s ∧ ((1 - u) * s) ^ 2 ≤ q ∧ q ≤ ((1 + u) * s) ^ 2 := by
  simp only [Fp.sqrt, if_neg (not_lt.2 hq.le), if_neg hq.ne']
  set e := Int.log 2 q / 2 - ((F.p : ℤ) - 1) with he
  have hE : (0 : ℚ) < 2 ^ e := by positivity
  have hE2 : (2 : ℚ) ^ (2 * e) = (2 ^ e) ^ 2 := by rw [← zpow_natCast, ← zpow_mul]; congr 1; push_cast; ring
  have hx : ((2 ^ (F.p - 1) : ℕ) : ℚ) ^ 2 ≤ q / 2 ^ (2 * e) := by
    rw [le_div_iff₀ (by positivity)]
    have hl := Int.zpow_log_le_self (b := 2) (r := q) (by norm_num) hq
    refine le_trans ?_ (by exact_mod_cast hl)
    push_cast
    rw [← pow_mul, ← zpow_natCast, ← zpow_add₀ two_ne_zero]
    apply zpow_le_zpow_right₀ (by norm_num)
    push_cast
    omega
  obtain ⟨h1, h2, h3⟩ := rootNe_near _ (by positivity) hx
  generalize hn : rootNe (q / 2 ^ (2 * e)) = n at *
  have hn0 : (0 : ℚ) < n := lt_of_lt_of_le (by positivity) h1
  have hhalf : (1 / 2 : ℚ) ≤ u * n := by
    calc (1 / 2 : ℚ) = 2 ^ (-(F.p : ℤ)) * ((2 ^ (F.p - 1) : ℕ) : ℚ) := by
          push_cast
          rw [← zpow_natCast, ← zpow_add₀ two_ne_zero]
          have : -(F.p : ℤ) + ((F.p - 1 : ℕ) : ℤ) = -1 := by omega
          rw [this]; norm_num
      _ ≤ 2 ^ (-(F.p : ℤ)) * n := mul_le_mul_of_nonneg_left h1 (by positivity)
      _ ≤ _ := mul_le_mul_of_nonneg_right hw hn0.le
  have hqx : q = q / 2 ^ (2 * e) * (2 ^ e) ^ 2 := by rw [← hE2]; field_simp
  refine ⟨n * 2 ^ e, by positivity, rfl, ?_, ?_⟩
  · rw [hqx]
    have : ((1 - u) * (n * 2 ^ e)) ^ 2 = ((1 - u) * n) ^ 2 * (2 ^ e) ^ 2 := by ring
    rw [this]
    apply mul_le_mul_of_nonneg_right _ (by positivity)
    refine le_trans ?_ h2
    apply pow_le_pow_left₀
    · rw [u_eq]; linarith
    · linarith
  · rw [hqx]
    have : ((1 + u) * (n * 2 ^ e)) ^ 2 = ((1 + u) * n) ^ 2 * (2 ^ e) ^ 2 := by ring
    rw [this]
    apply mul_le_mul_of_nonneg_right _ (by positivity)
    refine le_trans h3 ?_
    apply pow_le_pow_left₀
    · linarith
    · linarith

/-- the types of the root -/
def Type' (F : Fmt) : Prop := F = single ∨ F = double

theorem type_near {F : Fmt} (h : Type' F) (q : ℚ) : |raw F q - q| ≤ u * |q| + η := by
  refine (raw_near F q).trans ?_
  have hq := abs_nonneg q
  rcases h with rfl | rfl
  · exact le_refl _
  · have h1 : (2 : ℚ) ^ (-((double).p : ℤ)) ≤ u := by rw [u_eq]; simp only [double]; norm_num
    have h2 : (2 : ℚ) ^ ((double).emin - 1) ≤ η := by
      unfold η double; apply zpow_le_zpow_right₀ <;> norm_num
    have := mul_le_mul_of_nonneg_right h1 hq
    linarith

theorem type_fits {F : Fmt} (h : Type' F) {q : ℚ} (hq : |q| ≤ 2 ^ 100) : rnd F q = .num (raw F q) := by
  rw [rnd_eq, if_pos]
  have h1 := type_near h q
  have h2 : |raw F q| ≤ |raw F q - q| + |q| := by
    have := abs_add_le (raw F q - q) q
    simpa using this
  have h3 : |raw F q| < 2 ^ 128 := by
    rw [u_eq, η_eq] at h1
    norm_num at h1 hq ⊢
    linarith
  refine h3.trans_le ?_
  rcases h with rfl | rfl
  · exact le_refl _
  · unfold double
    rw [← zpow_natCast]
    apply zpow_le_zpow_right₀ <;> norm_num

theorem recipSqrt_near (wide : Bool) : Near (1 / 2 ^ 22) (recipSqrt wide) := by
  intro q h1 h2
  have hq : 0 < q := lt_of_lt_of_le (by positivity) h1
  unfold recipSqrt
  have hF : Type' (if wide then double else single) := by cases wide; exacts [Or.inl rfl, Or.inr rfl]
  generalize (if wide then double else single) = F at hF
  have hFp : 0 < F.p := by rcases hF with rfl | rfl <;> decide
  have hFw : (2 : ℚ) ^ (-(F.p : ℤ)) ≤ u := by
    rcases hF with rfl | rfl
    · exact le_refl _
    · rw [u_eq]; simp only [double]; norm_num
  obtain ⟨s, s0, hs, hs1, hs2⟩ := sqrt_near F hFp hFw hq
  simp only [hs, Fp.recip, if_neg s0.ne']
  -- size of the root
  have slo : (2 : ℚ) ^ (-64 : ℤ) ≤ s := by
    apply le_of_not_gt
    intro h
    have : ((1 + u) * s) ^ 2 < (2 : ℚ) ^ (-126 : ℤ) := by
      calc ((1 + u) * s) ^ 2 ≤ ((1 + u) * 2 ^ (-64 : ℤ)) ^ 2 := by
            apply pow_le_pow_left₀
            · have := u_pos; positivity
            · apply mul_le_mul_of_nonneg_left h.le; have := u_pos; positivity
        _ < _ := by rw [u_eq]; norm_num
    linarith
  have shi : s ≤ 2 ^ 65 := by
    apply le_of_not_gt
    intro h
    have : 2 ^ 128 < ((1 - u) * s) ^ 2 := by
      calc (2 : ℚ) ^ 128 < ((1 - u) * 2 ^ 65) ^ 2 := by rw [u_eq]; norm_num
        _ ≤ _ := by
          apply pow_le_pow_left₀
          · rw [u_eq]; norm_num
          · apply mul_le_mul_of_nonneg_left h.le; rw [u_eq]; norm_num
    linarith
  have i0 : 0 < 1 / s := by positivity
  have ihi : 1 / s ≤ 2 ^ 64 := by
    rw [div_le_iff₀ s0]
    calc (1 : ℚ) = 2 ^ 64 * 2 ^ (-64 : ℤ) := by norm_num
      _ ≤ _ := mul_le_mul_of_nonneg_left slo (by positivity)
  have ilo : (2 : ℚ) ^ (-65 : ℤ) ≤ 1 / s := by
    rw [le_div_iff₀ s0]
    calc (2 : ℚ) ^ (-65 : ℤ) * s ≤ 2 ^ (-65 : ℤ) * 2 ^ 65 := mul_le_mul_of_nonneg_left shi (by positivity)
      _ = 1 := by norm_num
  rw [type_fits hF (by rw [abs_of_pos i0]; refine ihi.trans ?_; norm_num)]
  have t1 := abs_le.1 (type_near hF (1 / s))
  rw [abs_of_pos i0] at t1
  generalize raw F (1 / s) = t at t1
  generalize hi : 1 / s = i at *
  have tlo : (1 - u - 1 / 2 ^ 80) * i ≤ t := by
    rw [u_eq, η_eq] at *; norm_num at t1 ilo ⊢; linarith [t1.1]
  have thi : t ≤ (1 + u + 1 / 2 ^ 80) * i := by
    rw [u_eq, η_eq] at *; norm_num at t1 ilo ⊢; linarith [t1.2]
  have t0 : 0 < t := by rw [u_eq] at tlo; norm_num at tlo; linarith
  simp only [Fp.toSingle]
  rw [rnd_fits (by rw [abs_of_pos t0]; rw [u_eq] at thi; norm_num at thi ihi ⊢; linarith)]
  have r1 := near_nonneg t0.le
  generalize raw single t = r at r1
  have his : i * s = 1 := by rw [← hi]; field_simp
  have rlo : 1 - 1 / 2 ^ 22 ≤ (1 - u) * (r * s) := by
    have : (1 - 7 / 2 ^ 25) * i ≤ (1 - u) * r := by
      rw [u_eq, η_eq] at *; norm_num at r1 tlo thi ilo ⊢; linarith [r1.2.2]
    have := mul_le_mul_of_nonneg_right this s0.le
    rw [mul_assoc, his] at this
    have e : (1 - u) * r * s = (1 - u) * (r * s) := by ring
    rw [e] at this
    refine le_trans ?_ this
    norm_num
  have rhi : (1 + u) * (r * s) ≤ 1 + 1 / 2 ^ 22 := by
    have : (1 + u) * r ≤ (1 + 7 / 2 ^ 25) * i := by
      rw [u_eq, η_eq] at *; norm_num at r1 tlo thi ilo ⊢; linarith [r1.2.1]
    have := mul_le_mul_of_nonneg_right this s0.le
    rw [mul_assoc (1 + 7 / 2 ^ 25), his] at this
    have e : (1 + u) * r * s = (1 + u) * (r * s) := by ring
    rw [e] at this
    refine this.trans ?_
    norm_num
  have r0 : 0 < r := by
    rw [u_eq, η_eq] at *; norm_num at r1 tlo thi ilo ⊢; linarith [r1.2.2]
  refine ⟨r, r0, rfl, ?_, ?_⟩
  · calc (1 - 1 / 2 ^ 22 : ℚ) ^ 2 ≤ ((1 - u) * (r * s)) ^ 2 := pow_le_pow_left₀ (by norm_num) rlo 2
      _ = r ^ 2 * ((1 - u) * s) ^ 2 := by ring
      _ ≤ _ := mul_le_mul_of_nonneg_left hs1 (by positivity)
  · calc r ^ 2 * q ≤ r ^ 2 * ((1 + u) * s) ^ 2 := mul_le_mul_of_nonneg_left hs2 (by positivity)
      _ = ((1 + u) * (r * s)) ^ 2 := by ring
      _ ≤ _ := pow_le_pow_left₀ (by have := u_pos; positivity) rhi 2

end CE.Normal
