import Verif.Proof.CordicVec
import Verif.Props.Cordic
/-!
# C77: accuracy of `to_polar` (`cordic::vector`)
-/
namespace CE.Cordic
open Complex

/-- the vector after the half turn that makes `x` nonnegative -/
def start (x0 y0 : Int) : St :=
  if x0 < 0 then ⟨-x0 * 2608131496, -y0 * 2608131496, if 0 < y0 then 2 ^ 62 else -2 ^ 62⟩
  else ⟨x0 * 2608131496, y0 * 2608131496, 0⟩

theorem start_x (x0 y0 : Int) : 0 ≤ (start x0 y0).x ∧ |(start x0 y0).z| ≤ 2 ^ 62 := by
  unfold start
  split
  · constructor
    · show 0 ≤ -x0 * 2608131496; omega
    · show |(if 0 < y0 then 2 ^ 62 else -2 ^ 62 : Int)| ≤ _
      split <;> norm_num
  · constructor
    · show 0 ≤ x0 * 2608131496; omega
    · norm_num

theorem start_w (x0 y0 : Int) : ‖(start x0 y0).w‖ = ‖(⟨x0, y0⟩ : ℂ)‖ * 2608131496 := by
  have key : ∀ σ : ℝ, |σ| = 1 → ‖(⟨σ * x0 * 2608131496, σ * y0 * 2608131496⟩ : ℂ)‖ =
      ‖(⟨x0, y0⟩ : ℂ)‖ * 2608131496 := by
    intro σ hσ
    have : (⟨σ * x0 * 2608131496, σ * y0 * 2608131496⟩ : ℂ) =
        ((σ : ℝ) : ℂ) * (⟨x0, y0⟩ : ℂ) * ((2608131496 : ℝ) : ℂ) := by
      apply Complex.ext <;> simp
    rw [this, norm_mul, norm_mul, norm_real, norm_real, Real.norm_eq_abs, hσ, one_mul, Real.norm_eq_abs,
      abs_of_pos (by norm_num)]
  unfold start St.w
  split
  · have := key (-1) (by norm_num)
    push_cast
    rw [← this]
    congr 2 <;> ring
  · have := key 1 (by norm_num)
    push_cast
    rw [← this]
    congr 2 <;> ring

/-- the true angle of the vector: the angle of the start plus the half turn -/
theorem start_arg (x0 y0 : Int) :
    ∃ β : ℝ, β = arg (start x0 y0).w + (start x0 y0).z * c62 ∧ |β| ≤ Real.pi ∧
      (⟨x0, y0⟩ : ℂ) = ‖(⟨x0, y0⟩ : ℂ)‖ * exp (I * β) := by
  refine ⟨_, rfl, ?_, ?_⟩
  · have hc : ((2 ^ 62 : Int) : ℝ) * c62 = Real.pi := by unfold c62; norm_num; ring
    have hre := start_x x0 y0
    have h1 : |arg (start x0 y0).w| ≤ Real.pi / 2 := abs_arg_le_pi_div_two_iff.2 (by
        show (0 : ℝ) ≤ ((start x0 y0).x : ℝ); exact_mod_cast hre.1)
    have hp := Real.pi_pos
    by_cases hx : x0 < 0
    · have him : (start x0 y0).w.im = -(y0 : ℝ) * 2608131496 := by
        unfold start; rw [if_pos hx]; simp [St.w]
      rw [abs_le] at h1
      by_cases hy : 0 < y0
      · have hz : (start x0 y0).z = 2 ^ 62 := by unfold start; rw [if_pos hx, if_pos hy]
        have hneg : arg (start x0 y0).w < 0 := by
          rw [arg_neg_iff, him]
          have : (0 : ℝ) < y0 := by exact_mod_cast hy
          linarith
        rw [hz, hc, abs_le]
        constructor <;> linarith
      · have hz : (start x0 y0).z = -2 ^ 62 := by unfold start; rw [if_pos hx, if_neg hy]
        have hnn : 0 ≤ arg (start x0 y0).w := by
          rw [arg_nonneg_iff, him]
          have : (y0 : ℝ) ≤ 0 := by exact_mod_cast not_lt.1 hy
          linarith
        rw [hz, Int.cast_neg, neg_mul, hc, abs_le]
        constructor <;> linarith
    · have hz : (start x0 y0).z = 0 := by unfold start; rw [if_neg hx]
      rw [hz]
      simp only [Int.cast_zero, zero_mul, add_zero]
      linarith
  · have hn := start_w x0 y0
    have hw := norm_mul_exp_arg_mul_I (start x0 y0).w
    rw [hn] at hw
    push_cast
    rw [mul_add, exp_add, mul_comm I (arg _ : ℂ)]
    have hk : ((2608131496 : ℝ) : ℂ) ≠ 0 := by norm_num
    have hpi : ((2 ^ 62 : ℝ) : ℂ) * (c62 : ℂ) = Real.pi := by
      unfold c62; rw [← ofReal_mul]; congr 1; norm_num; ring
    by_cases hx : x0 < 0
    · have hz : exp (I * (((start x0 y0).z : ℂ) * (c62 : ℂ))) = -1 := by
        unfold start; rw [if_pos hx]
        by_cases hy : 0 < y0
        · rw [if_pos hy]
          have : (((2 ^ 62 : Int) : ℂ)) = ((2 ^ 62 : ℝ) : ℂ) := by norm_num
          rw [this, hpi, mul_comm I, exp_pi_mul_I]
        · rw [if_neg hy]
          have : (((-2 ^ 62 : Int) : ℂ)) = -((2 ^ 62 : ℝ) : ℂ) := by norm_num
          rw [this, neg_mul, hpi, mul_neg, mul_comm I, exp_neg, exp_pi_mul_I]; norm_num
      have hs : (start x0 y0).w = -(⟨x0, y0⟩ : ℂ) * ((2608131496 : ℝ) : ℂ) := by
        unfold start; rw [if_pos hx]
        apply Complex.ext <;> simp [St.w]
      rw [hz]
      rw [hs] at hw ⊢
      push_cast at hw hk
      have : (⟨x0, y0⟩ : ℂ) * 2608131496 = -(-(⟨x0, y0⟩ : ℂ) * 2608131496) := by ring
      apply mul_right_cancel₀ hk
      rw [this]
      conv_lhs => rw [← hw]
      push_cast
      ring
    · have hz : (start x0 y0).z = 0 := by unfold start; rw [if_neg hx]
      have hs : (start x0 y0).w = (⟨x0, y0⟩ : ℂ) * ((2608131496 : ℝ) : ℂ) := by
        unfold start; rw [if_neg hx]
        apply Complex.ext <;> simp [St.w]
      rw [hz]
      rw [hs] at hw ⊢
      push_cast at hw hk ⊢
      apply mul_right_cancel₀ hk
      conv_lhs => rw [← hw]
      simp only [zero_mul, mul_zero, exp_zero, mul_one]
      ring

theorem vector_start (x0 y0 : Int) (h : x0 ^ 2 + y0 ^ 2 ≤ (2 ^ 31 - 1) ^ 2) :
    toPolar x0 y0 = (do
      let s ← vecLoop ks 32 (start x0 y0)
      some (← roundOut s.x, ← roundOut s.z)) := by
  have hx : |x0| ≤ 2 ^ 31 - 1 := abs_le_of_sq_le_sq (by nlinarith [sq_nonneg y0]) (by norm_num)
  have hy : |y0| ≤ 2 ^ 31 - 1 := abs_le_of_sq_le_sq (by nlinarith [sq_nonneg x0]) (by norm_num)
  rw [abs_le] at hx hy
  unfold toPolar vector vectorWith start
  rw [kExpr_eq, i64_some (by omega) (by omega), i64_some (by omega) (by omega),
    i64_some (by omega) (by omega)]
  simp only [Option.bind_eq_bind, Option.bind_some]
  by_cases hneg : x0 < 0
  · rw [if_pos (by omega), if_pos hneg, i64_some (by omega) (by omega), i64_some (by omega) (by omega)]
    simp only [Option.bind_some]
    by_cases hy0 : 0 < y0
    · rw [if_pos (by omega), if_pos hy0, i64_some (by omega) (by omega)]
      simp only [Option.bind_some, Int.neg_mul, zero_mul, zero_add]
    · rw [if_neg (by omega), if_neg hy0, i64_some (by omega) (by omega)]
      simp only [Option.bind_some, Int.neg_mul, zero_mul, zero_sub]
  · rw [if_neg (by omega), if_neg hneg]
    simp only [Option.bind_some, zero_mul]

/-- C77.  For every nonzero vector of length below 2^31, `to_polar` does not overflow; the magnitude is
within 0.51 units plus 1.1e-10 of the length (always less than one unit), and the angle is within
0.66 + 27 / length units (a unit is 2^-31 turns) of a true angle of the vector in [-π, π]. -/
theorem C77_to_polar (x y : Int) (h0 : (x, y) ≠ (0, 0)) (h : x ^ 2 + y ^ 2 ≤ (2 ^ 31 - 1) ^ 2) :
    ∃ m a : Int, toPolar x y = some (m, a) ∧
      |m - √((x : ℝ) ^ 2 + (y : ℝ) ^ 2)| ≤ 51 / 100 + √((x : ℝ) ^ 2 + (y : ℝ) ^ 2) * (11 / 10 ^ 11) ∧
      |m - √((x : ℝ) ^ 2 + (y : ℝ) ^ 2)| < 1 ∧
      ∃ β : ℝ, |β| ≤ Real.pi ∧ (x : ℝ) = √((x : ℝ) ^ 2 + (y : ℝ) ^ 2) * Real.cos β ∧
        (y : ℝ) = √((x : ℝ) ^ 2 + (y : ℝ) ^ 2) * Real.sin β ∧
        |radians a - β| ≤ radians 1 * (66 / 100 + 27 / √((x : ℝ) ^ 2 + (y : ℝ) ^ 2)) := by
  have hv := norm_le_of x y h
  have hnm := norm_mk x y
  set N := ‖(⟨x, y⟩ : ℂ)‖ with hN
  rw [← hnm]
  have hN1 : 1 ≤ N := by
    rw [hnm, Real.one_le_sqrt]
    have : (1 : Int) ≤ x ^ 2 + y ^ 2 := by
      have hx := sq_nonneg x
      have hy := sq_nonneg y
      by_contra hc
      have h1 : x ^ 2 = 0 := by omega
      have h2 : y ^ 2 = 0 := by omega
      exact h0 (by rw [pow_eq_zero_iff (by norm_num)] at h1 h2; rw [h1, h2])
    exact_mod_cast this
  have hsw := start_w x y
  rw [← hN] at hsw
  obtain ⟨hsx, hsz⟩ := start_x x y
  obtain ⟨β, hβ, hβπ, hβv⟩ := start_arg x y
  rw [← hN] at hβv
  have hst := vector_start x y h
  set s := start x y with hs
  obtain ⟨c1, c2, c3, c4⟩ := vloop_checked s (by rw [hsw]; gcongr) hsz 32 le_rfl
  set L : ℝ := N * 2608131496 - 400 with hLd
  have hL : 10 ^ 9 ≤ L := by norm_num; linarith
  have hL0 : 0 < L := by norm_num at hL; linarith
  obtain ⟨γ, g1, g2, g3⟩ := vangle s hsx hL (by rw [hsw]; linarith) 32 le_rfl
  have hpz := psi_z s 32 le_rfl
  have hnorm := vloop_norm s 32 le_rfl
  rw [hsw] at hnorm
  obtain ⟨gb1, gb2⟩ := gain_bounds
  set u := vecP 32 s with hu
  obtain ⟨m, m1, m2, m3⟩ := roundOut_some c2
  have hr32 : restB 32 = 683565276 := by decide +kernel
  have hr0 := (restB_facts 0 (by omega)).2.1
  have hc4 : |u.z| ≤ 2 ^ 63 - 2 ^ 32 + 400 := by
    rw [hr32] at c4; omega
  obtain ⟨a, a1, a2, a3⟩ := roundOut_some hc4
  rw [hr32] at g2
  have p1 := Real.pi_gt_d20
  have p2 := Real.pi_lt_d20
  have hp := Real.pi_pos
  have hcp := c62_pos
  -- bounds
  have hδ : 3.15 / L ≤ 1.2078 / 10 ^ 9 / N * (1 + 1 / 10 ^ 5) := by
    rw [div_mul_eq_mul_div, div_le_div_iff₀ hL0 (by linarith), hLd]
    norm_num
    linarith
  have hδ1 : 3.15 / L ≤ 1.3 / 10 ^ 9 := by
    refine hδ.trans ?_
    rw [div_mul_eq_mul_div, div_le_iff₀ (by linarith)]
    norm_num
    linarith
  have hc62 : c62 ≤ 6.8124 / 10 ^ 19 := by
    unfold c62; rw [div_le_iff₀ (by norm_num)]; norm_num at p2 ⊢; linarith
  have hc62' : 6.8122 / 10 ^ 19 ≤ c62 := by
    unfold c62; rw [le_div_iff₀ (by norm_num)]; norm_num at p1 ⊢; linarith
  have hγ : |γ| ≤ 5 / 10 ^ 8 := by
    refine g2.trans ?_
    norm_num at hδ1 hc62 ⊢
    linarith
  have hmag : |(m : ℝ) - N| ≤ 51 / 100 + N * (11 / 10 ^ 11) := by
    have hx32 : (u.x : ℝ) = ‖u.w‖ * Real.cos γ := by
      have := congrArg re g1
      rw [mul_comm I, exp_mul_I, ← ofReal_cos, ← ofReal_sin] at this
      generalize Real.cos γ = c at *
      generalize Real.sin γ = d at *
      simpa [St.w] using this
    have hcos1 := Real.cos_le_one γ
    have hcos2 : 1 - γ ^ 2 / 2 ≤ Real.cos γ := Real.one_sub_sq_div_two_le_cos
    have hγ2 : γ ^ 2 ≤ (5 / 10 ^ 8) ^ 2 := by
      rw [← sq_abs]; exact pow_le_pow_left₀ (abs_nonneg _) hγ 2
    have hwle : ‖u.w‖ ≤ 2 ^ 63 + 400 := by
      rw [abs_le] at hnorm
      have : N * 2608131496 * gain 32 ≤ N * 2 ^ 32 := by
        rw [mul_assoc]
        apply mul_le_mul_of_nonneg_left _ (by linarith)
        rw [div_mul_eq_mul_div, div_le_one (by norm_num)] at gb2
        exact gb2
      norm_num at *
      linarith
    have hd : |(u.x : ℝ) - ‖u.w‖| ≤ 20000 := by
      rw [hx32]
      have hnn := norm_nonneg u.w
      have h1 : ‖u.w‖ * (1 - Real.cos γ) ≤ (2 ^ 63 + 400) * ((5 / 10 ^ 8) ^ 2 / 2) := by
        apply mul_le_mul hwle (by linarith) (by linarith) (by norm_num)
      have h2 : 0 ≤ ‖u.w‖ * (1 - Real.cos γ) := mul_nonneg hnn (by linarith)
      rw [abs_le]
      norm_num at h1
      constructor <;> linarith
    have hsplit : (m : ℝ) - N = (m - u.x / 2 ^ 32) + (u.x - ‖u.w‖) / 2 ^ 32 +
        (‖u.w‖ - N * 2608131496 * gain 32) / 2 ^ 32 + N * (2608131496 / 2 ^ 32 * gain 32 - 1) := by
      ring
    rw [hsplit]
    have t1 : |((u.x : ℝ) - ‖u.w‖) / 2 ^ 32| ≤ 20000 / 2 ^ 32 := by
      rw [abs_div, abs_of_pos (show (0 : ℝ) < 2 ^ 32 by norm_num)]; gcongr
    have t2 : |(‖u.w‖ - N * 2608131496 * gain 32) / 2 ^ 32| ≤ 400 / 2 ^ 32 := by
      rw [abs_div, abs_of_pos (show (0 : ℝ) < 2 ^ 32 by norm_num)]; gcongr
    have t3 : |N * (2608131496 / 2 ^ 32 * gain 32 - 1)| ≤ N * (11 / 10 ^ 11) := by
      rw [abs_mul, abs_of_nonneg (show 0 ≤ N by linarith)]
      apply mul_le_mul_of_nonneg_left _ (by linarith)
      rw [abs_le]; constructor <;> linarith
    refine ((abs_add_le _ _).trans (add_le_add_left ((abs_add_le _ _).trans (add_le_add_left (abs_add_le _ _) _)) _)).trans ?_
    norm_num at *
    linarith
  refine ⟨m, a, ?_, hmag, ?_, β, hβπ, ?_, ?_, ?_⟩
  · rw [hst, c1]
    show (do some (← roundOut u.x, ← roundOut u.z)) = _
    rw [m1, a1]; rfl
  · refine hmag.trans_lt ?_
    norm_num at hv ⊢
    linarith
  · have := congrArg re hβv
    rw [mul_comm I, exp_mul_I, ← ofReal_cos, ← ofReal_sin] at this
    generalize Real.cos β = c at *
    generalize Real.sin β = d at *
    simpa using this
  · have := congrArg im hβv
    rw [mul_comm I, exp_mul_I, ← ofReal_cos, ← ofReal_sin] at this
    generalize Real.cos β = c at *
    generalize Real.sin β = d at *
    simpa using this
  · have e0 : radians a = a * 2 ^ 32 * c62 := by unfold radians c62; ring
    have e1 : radians 1 = 2 ^ 32 * c62 := by unfold radians c62; push_cast; ring
    rw [e0, e1]
    have t1 : |(a : ℝ) * 2 ^ 32 * c62 - u.z * c62| ≤ 2 ^ 31 * c62 := by
      have : (a : ℝ) * 2 ^ 32 * c62 - u.z * c62 = (a - u.z / 2 ^ 32) * (2 ^ 32 * c62) := by ring
      rw [this, abs_mul, abs_of_pos (show 0 < 2 ^ 32 * c62 by positivity)]
      have := mul_le_mul_of_nonneg_right a3 (show 0 ≤ 2 ^ 32 * c62 by positivity)
      linarith
    have hsplit : (a : ℝ) * 2 ^ 32 * c62 - β = ((a : ℝ) * 2 ^ 32 * c62 - u.z * c62) +
        -(psi s 32 - ((u.z : ℝ) - s.z) * c62) + (γ + psi s 32 - arg s.w) + -γ := by
      rw [hβ]; ring
    rw [hsplit]
    refine ((abs_add_le _ _).trans (add_le_add_left ((abs_add_le _ _).trans (add_le_add_left (abs_add_le _ _) _)) _)).trans ?_
    rw [abs_neg, abs_neg]
    have hfin : 64 * (3.15 / L) ≤ 2 ^ 32 * c62 * (27 / N) := by
      have h1 : (64 : ℝ) * (1.2078 / 10 ^ 9 / N * (1 + 1 / 10 ^ 5)) ≤ 2 ^ 32 * (6.8122 / 10 ^ 19) * (27 / N) := by
        have e1 : (64 : ℝ) * (1.2078 / 10 ^ 9 / N * (1 + 1 / 10 ^ 5)) = (64 * 1.2078 / 10 ^ 9 * (1 + 1 / 10 ^ 5)) * (1 / N) := by ring
        have e2 : (2 : ℝ) ^ 32 * (6.8122 / 10 ^ 19) * (27 / N) = (2 ^ 32 * (6.8122 / 10 ^ 19) * 27) * (1 / N) := by ring
        rw [e1, e2]
        apply mul_le_mul_of_nonneg_right _ (by positivity)
        norm_num
      have h2 : (2 : ℝ) ^ 32 * (6.8122 / 10 ^ 19) * (27 / N) ≤ 2 ^ 32 * c62 * (27 / N) := by
        gcongr
      linarith
    generalize 3.15 / L = δ at *
    rw [mul_add]
    norm_num at *
    linarith

/-- C77.  The zero vector has no angle; the answer is about 99.9 degrees rather than zero. -/
theorem C77_zero : toPolar 0 0 = some (0, 595825099) := by decide +kernel

/-- C77.  Longer vectors overflow: the corner of the coordinate range is undefined behaviour. -/
theorem C77_overflow : toPolar (2 ^ 31 - 1) (2 ^ 31 - 1) = none := by decide +kernel

example : ((3 : Int), (-4 : Int)) ≠ (0, 0) ∧ (3 : Int) ^ 2 + (-4) ^ 2 ≤ (2 ^ 31 - 1) ^ 2 := by decide
example : toPolar 3000 (-4000) = some (5000, -316933406) := by decide +kernel

end CE.Cordic
