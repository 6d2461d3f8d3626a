import Verif.Proof.Cordic
/-!
# C52: accuracy of `cordic::rotate`
-/
namespace CE.Cordic
open Complex

/-- the angle `t`, where `2^31` is a full turn, in radians -/
noncomputable def radians (t : Int) : ℝ := 2 * Real.pi * (t / 2 ^ 31)

/-- the error allowed for a vector of length `r` -/
noncomputable def tolerance (r : ℝ) : ℝ := 1 / 2 + 1 / 10 ^ 7 + r * (58 / 10 ^ 11)

theorem norm_mk (x y : Int) : ‖(⟨x, y⟩ : ℂ)‖ = √((x : ℝ) ^ 2 + (y : ℝ) ^ 2) := by
  rw [Complex.norm_def, normSq_mk]; congr 1; ring

theorem norm_le_of (x y : Int) (h : x ^ 2 + y ^ 2 ≤ (2 ^ 31 - 1) ^ 2) : ‖(⟨x, y⟩ : ℂ)‖ ≤ 2 ^ 31 - 1 := by
  rw [norm_mk]
  apply Real.sqrt_le_iff.2 ⟨by norm_num, ?_⟩
  have h' : ((x ^ 2 + y ^ 2 : Int) : ℝ) ≤ ((2 ^ 31 - 1) ^ 2 : Int) := by exact_mod_cast h
  push_cast at h'
  norm_num at h' ⊢
  linarith

/-- the part before the quadrant is applied -/
theorem core (x0 y0 z0 : Int) (h : x0 ^ 2 + y0 ^ 2 ≤ (2 ^ 31 - 1) ^ 2) :
    ∃ a b : Int, |a| ≤ 2 ^ 31 - 1 ∧ |b| ≤ 2 ^ 31 - 1 ∧
      (∀ z : Int, z % 2 ^ 29 = z0 % 2 ^ 29 → rotate x0 y0 z =
        some (match (z / 2 ^ 29 % 4).toNat with
          | 0 => (a, b) | 1 => (-b, a) | 2 => (-a, -b) | _ => (b, -a))) ∧
      |a - ((⟨x0, y0⟩ : ℂ) * exp (I * ((radians (z0 % 2 ^ 29) : ℝ) : ℂ))).re| ≤
        tolerance (√((x0 : ℝ) ^ 2 + (y0 : ℝ) ^ 2)) ∧
      |b - ((⟨x0, y0⟩ : ℂ) * exp (I * ((radians (z0 % 2 ^ 29) : ℝ) : ℂ))).im| ≤
        tolerance (√((x0 : ℝ) ^ 2 + (y0 : ℝ) ^ 2)) := by
  have hv := norm_le_of x0 y0 h
  set Z : Int := z0 % 2 ^ 29 * 2 ^ 32 with hZ
  have hZb : |Z| ≤ 2 ^ 61 := by rw [abs_le]; omega
  have hl := loop_checked x0 y0 Z hv hZb 32 le_rfl
  have ha := loop_accurate x0 y0 Z hZb
  have hb := comp_bound x0 y0 Z hv 32 le_rfl
  have hr : (Z : ℝ) * (Real.pi / 2 ^ 62) = radians (z0 % 2 ^ 29) := by
    rw [hZ]; unfold radians; push_cast; ring
  rw [hr] at ha
  rw [norm_mk] at ha
  set s := rotP 32 ⟨x0 * 2608131496, y0 * 2608131496, Z⟩ with hs
  set V := (⟨x0, y0⟩ : ℂ) * exp (I * ((radians (z0 % 2 ^ 29) : ℝ) : ℂ)) with hV
  obtain ⟨a, a1, a2, a3⟩ := roundOut_some hb.1
  obtain ⟨b, b1, b2, b3⟩ := roundOut_some hb.2
  have hre : (s.w / 2 ^ 32 - V).re = s.x / 2 ^ 32 - V.re := by
    rw [sub_re]; congr 1
    have : (s.w / 2 ^ 32) = s.w / ((2 ^ 32 : ℝ) : ℂ) := by push_cast; rfl
    rw [this, div_ofReal_re]; rfl
  have him : (s.w / 2 ^ 32 - V).im = s.y / 2 ^ 32 - V.im := by
    rw [sub_im]; congr 1
    have : (s.w / 2 ^ 32) = s.w / ((2 ^ 32 : ℝ) : ℂ) := by push_cast; rfl
    rw [this, div_ofReal_im]; rfl
  have r1 := (abs_re_le_norm _).trans ha
  have r2 := (abs_im_le_norm _).trans ha
  rw [hre] at r1
  rw [him] at r2
  refine ⟨a, b, a2, b2, ?_, ?_, ?_⟩
  · intro z hz
    have hx : |x0| ≤ 2 ^ 31 - 1 := abs_le_of_sq_le_sq (by nlinarith [sq_nonneg y0]) (by norm_num)
    have hy : |y0| ≤ 2 ^ 31 - 1 := abs_le_of_sq_le_sq (by nlinarith [sq_nonneg x0]) (by norm_num)
    rw [abs_le] at hx hy a2 b2
    unfold rotate rotateWith
    rw [kExpr_eq, hz, i64_some (by omega) (by omega), i64_some (by omega) (by omega),
      i64_some (by omega) (by omega)]
    simp only [Option.bind_eq_bind, Option.bind_some]
    rw [← hZ, hl, Option.bind_some, a1, Option.bind_some, b1, Option.bind_some]
    rw [i32_some (show -2 ^ 31 ≤ -b by omega) (by omega), i32_some (show -2 ^ 31 ≤ -a by omega) (by omega)]
    simp only [Option.bind_some]
    have hq : (z / 2 ^ 29 % 4).toNat < 4 := by omega
    generalize (z / 2 ^ 29 % 4).toNat = q at *
    interval_cases q <;> rfl
  · have : (a : ℝ) - V.re = (a - s.x / 2 ^ 32) + (s.x / 2 ^ 32 - V.re) := by ring
    rw [this]
    refine (abs_add_le _ _).trans ?_
    unfold tolerance
    linarith
  · have : (b : ℝ) - V.im = (b - s.y / 2 ^ 32) + (s.y / 2 ^ 32 - V.im) := by ring
    rw [this]
    refine (abs_add_le _ _).trans ?_
    unfold tolerance
    linarith

theorem exp_quarter (t : Int) :
    exp (I * ((radians t : ℝ) : ℂ)) =
      I ^ (t / 2 ^ 29 % 4).toNat * exp (I * ((radians (t % 2 ^ 29) : ℝ) : ℂ)) := by
  have h1 : t = 2 ^ 31 * (t / 2 ^ 29 / 4) + 2 ^ 29 * ((t / 2 ^ 29 % 4).toNat : Int) + t % 2 ^ 29 := by omega
  have e : radians t = (t / 2 ^ 29 / 4 : Int) * (2 * Real.pi) +
      ((t / 2 ^ 29 % 4).toNat : ℝ) * (Real.pi / 2) + radians (t % 2 ^ 29) := by
    unfold radians
    have h2 : (t : ℝ) = 2 ^ 31 * ((t / 2 ^ 29 / 4 : Int) : ℝ) + 2 ^ 29 * ((t / 2 ^ 29 % 4).toNat : ℝ) +
        ((t % 2 ^ 29 : Int) : ℝ) := by exact_mod_cast h1
    generalize ((t / 2 ^ 29 / 4 : Int) : ℝ) = j at *
    generalize (((t / 2 ^ 29 % 4).toNat : ℕ) : ℝ) = q at *
    generalize ((t % 2 ^ 29 : Int) : ℝ) = r at *
    rw [h2]; ring
  rw [e]
  generalize t / 2 ^ 29 / 4 = j
  generalize (t / 2 ^ 29 % 4).toNat = q
  generalize radians (t % 2 ^ 29) = ρ
  push_cast
  have e2 : I * ((j : ℂ) * (2 * (Real.pi : ℂ)) + (q : ℂ) * ((Real.pi : ℂ) / 2) + (ρ : ℂ)) =
      j * (2 * Real.pi * I) + q * (Real.pi / 2 * I) + I * (ρ : ℂ) := by ring
  rw [e2, exp_add, exp_add, exp_int_mul_two_pi_mul_I, one_mul, exp_nat_mul, exp_pi_div_two_mul_I]

/-- C52.  Every vector of length below 2^31 is rotated by every angle without overflow, and each
component of the result is within `tolerance` of the rotated vector: half a unit for the rounding,
and a relative error of 5.8e-10. -/
theorem C52_rotate_accurate (x0 y0 t : Int) (h : x0 ^ 2 + y0 ^ 2 ≤ (2 ^ 31 - 1) ^ 2) :
    ∃ a b : Int, rotate x0 y0 t = some (a, b) ∧
      |a - (x0 * Real.cos (radians t) - y0 * Real.sin (radians t))| ≤
        tolerance (√((x0 : ℝ) ^ 2 + (y0 : ℝ) ^ 2)) ∧
      |b - (x0 * Real.sin (radians t) + y0 * Real.cos (radians t))| ≤
        tolerance (√((x0 : ℝ) ^ 2 + (y0 : ℝ) ^ 2)) := by
  obtain ⟨a, b, a2, b2, hr, ha, hb⟩ := core x0 y0 t h
  have hr := hr t rfl
  have hV : (⟨x0, y0⟩ : ℂ) * exp (I * ((radians t : ℝ) : ℂ)) =
      ⟨x0 * Real.cos (radians t) - y0 * Real.sin (radians t),
       x0 * Real.sin (radians t) + y0 * Real.cos (radians t)⟩ := by
    rw [mul_comm I, exp_mul_I, ← ofReal_cos, ← ofReal_sin]
    generalize Real.cos (radians t) = c
    generalize Real.sin (radians t) = d
    apply Complex.ext
    · simp
    · simp
  rw [exp_quarter] at hV
  set W := exp (I * ((radians (t % 2 ^ 29) : ℝ) : ℂ))
  set v : ℂ := ⟨x0, y0⟩
  have e1 := congrArg re hV
  have e2 := congrArg im hV
  simp only at e1 e2
  rw [← e1, ← e2]
  have hq : (t / 2 ^ 29 % 4).toNat < 4 := by omega
  clear hV e1 e2
  generalize (t / 2 ^ 29 % 4).toNat = q at *
  rw [mul_left_comm]
  generalize v * W = V at *
  interval_cases q
  · exact ⟨a, b, hr, by simpa using ha, by simpa using hb⟩
  · refine ⟨-b, a, hr, ?_, ?_⟩
    · rw [show ((-b : Int) : ℝ) - (I ^ 1 * V).re = -(b - V.im) by simp; ring, abs_neg]; exact hb
    · rw [show ((a : Int) : ℝ) - (I ^ 1 * V).im = a - V.re by simp]; exact ha
  · refine ⟨-a, -b, hr, ?_, ?_⟩
    · rw [show ((-a : Int) : ℝ) - (I ^ 2 * V).re = -(a - V.re) by simp; ring, abs_neg]; exact ha
    · rw [show ((-b : Int) : ℝ) - (I ^ 2 * V).im = -(b - V.im) by simp; ring, abs_neg]; exact hb
  · refine ⟨b, -a, hr, ?_, ?_⟩
    · rw [show ((b : Int) : ℝ) - (I ^ 3 * V).re = b - V.im by simp [pow_succ]]; exact hb
    · rw [show ((-a : Int) : ℝ) - (I ^ 3 * V).im = -(a - V.re) by simp [pow_succ]; ring, abs_neg]; exact ha

/-- C52.  `to_cartesian(r, t)` for every radius other than INT_MIN and every angle: each coordinate is
less than two units from `r cos`, `r sin`, and less than one unit when `|r| ≤ 8·10^8`. -/
theorem C52_to_cartesian (r t : Int) (h1 : -2 ^ 31 < r) (h2 : r < 2 ^ 31) :
    ∃ a b : Int, toCartesian r t = some (a, b) ∧
      |a - r * Real.cos (radians t)| < 2 ∧ |b - r * Real.sin (radians t)| < 2 ∧
      (|r| ≤ 8 * 10 ^ 8 → |a - r * Real.cos (radians t)| < 1 ∧ |b - r * Real.sin (radians t)| < 1) := by
  have hr : |r| ≤ 2 ^ 31 - 1 := by rw [abs_le]; omega
  have hsq : r ^ 2 + 0 ^ 2 ≤ (2 ^ 31 - 1) ^ 2 := by
    have := sq_le_sq' (abs_le.1 hr).1 (abs_le.1 hr).2
    linarith
  obtain ⟨a, b, h, ha, hb⟩ := C52_rotate_accurate r 0 t hsq
  have e : √((r : ℝ) ^ 2 + ((0 : Int) : ℝ) ^ 2) = |(r : ℝ)| := by
    simp [Real.sqrt_sq_eq_abs]
  rw [e] at ha hb
  simp only [Int.cast_zero, zero_mul, sub_zero, add_zero] at ha hb
  have hr' : |(r : ℝ)| ≤ 2 ^ 31 - 1 := by
    have := (Int.cast_le (R := ℝ)).2 hr
    push_cast at this
    norm_num at this ⊢
    exact this
  have ht : tolerance |(r : ℝ)| < 2 := by
    unfold tolerance
    norm_num at hr' ⊢
    linarith
  refine ⟨a, b, h, ha.trans_lt ht, hb.trans_lt ht, fun h8 => ?_⟩
  have h8' : |(r : ℝ)| ≤ 8 * 10 ^ 8 := by
    have := (Int.cast_le (R := ℝ)).2 h8
    push_cast at this
    norm_num at this ⊢
    exact this
  have ht : tolerance |(r : ℝ)| < 1 := by
    unfold tolerance
    norm_num at h8' ⊢
    linarith
  exact ⟨ha.trans_lt ht, hb.trans_lt ht⟩

/-- C52.  A quarter turn more is exactly the quarter turn of the result. -/
theorem C52_quarter_turn (x0 y0 t a b : Int) (h : x0 ^ 2 + y0 ^ 2 ≤ (2 ^ 31 - 1) ^ 2)
    (hr : rotate x0 y0 t = some (a, b)) : rotate x0 y0 (t + 2 ^ 29) = some (-b, a) := by
  obtain ⟨a', b', -, -, hz, -, -⟩ := core x0 y0 t h
  rw [hz t rfl] at hr
  rw [hz (t + 2 ^ 29) (by omega)]
  have hq : ((t + 2 ^ 29) / 2 ^ 29 % 4).toNat = ((t / 2 ^ 29 % 4).toNat + 1) % 4 := by omega
  rw [hq]
  have hq : (t / 2 ^ 29 % 4).toNat < 4 := by omega
  generalize (t / 2 ^ 29 % 4).toNat = q at *
  simp only [Option.some.injEq] at hr ⊢
  interval_cases q
  all_goals
    simp only [Prod.mk.injEq] at hr
    obtain ⟨rfl, rfl⟩ := hr
    simp

/-- C52.  Angles that differ by a full turn (2^31) give the same result. -/
theorem C52_full_turn (x0 y0 t : Int) : rotate x0 y0 (t + 2 ^ 31) = rotate x0 y0 t := by
  unfold rotate rotateWith
  rw [show (t + 2 ^ 31) % 2 ^ 29 = t % 2 ^ 29 by omega,
    show (t + 2 ^ 31) / 2 ^ 29 % 4 = t / 2 ^ 29 % 4 by omega]

/-- C52.  The excluded radius: INT_MIN at half a turn negates INT_MIN. -/
theorem C52_int_min_undefined : toCartesian (-2 ^ 31) (2 ^ 30) = none := by decide +kernel

example : (3 : Int) ^ 2 + (-4) ^ 2 ≤ (2 ^ 31 - 1) ^ 2 := by norm_num
example : rotate 1000 0 (2 ^ 28) = some (707, 707) := by decide +kernel

end CE.Cordic
