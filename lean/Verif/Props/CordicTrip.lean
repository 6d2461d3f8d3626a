import Verif.Props.CordicVec
/-!
# C113: going there and back with `rotate`, `to_polar` and `to_cartesian`
-/
namespace CE.Cordic

/-- length of a vector -/
noncomputable def len (x y : Int) : ℝ := √((x : ℝ) ^ 2 + (y : ℝ) ^ 2)

theorem len_nonneg (x y : Int) : 0 ≤ len x y := Real.sqrt_nonneg _

theorem len_sq (x y : Int) : len x y ^ 2 = (x : ℝ) ^ 2 + (y : ℝ) ^ 2 := Real.sq_sqrt (by positivity)

theorem len_le {x y : Int} (h : x ^ 2 + y ^ 2 ≤ (2 ^ 31 - 1) ^ 2) : len x y ≤ 2 ^ 31 - 1 := by
  refine Real.sqrt_le_iff.2 ⟨by norm_num, ?_⟩
  exact_mod_cast h

theorem abs_int_le {d : Int} {k : Nat} (h : |(d : ℝ)| < k + 1) : |d| ≤ k := by
  have : |d| < k + 1 := by exact_mod_cast h
  omega

/-- two vectors of given lengths and directions -/
theorem polar_close (f : ℝ → ℝ) (hf : ∀ a b, |f a - f b| ≤ |a - b|) (h1 : ∀ a, |f a| ≤ 1) (m r a b : ℝ) (hr : 0 ≤ r) :
    |m * f a - r * f b| ≤ |m - r| + r * |a - b| := by
  have e : m * f a - r * f b = (m - r) * f a + r * (f a - f b) := by ring
  rw [e]
  refine (abs_add_le _ _).trans ?_
  rw [abs_mul, abs_mul, abs_of_nonneg hr]
  have := mul_le_mul_of_nonneg_left (h1 a) (abs_nonneg (m - r))
  have := mul_le_mul_of_nonneg_left (hf a b) hr
  linarith

theorem cos_lip (a b : ℝ) : |Real.cos a - Real.cos b| ≤ |a - b| := by
  rw [Real.cos_sub_cos, abs_mul, abs_mul, abs_neg, abs_two]
  have h1 := Real.abs_sin_le_one ((a + b) / 2)
  have h2 : |Real.sin ((a - b) / 2)| ≤ |(a - b) / 2| := Real.abs_sin_le_abs
  rw [abs_div, abs_two] at h2
  nlinarith [abs_nonneg (Real.sin ((a + b) / 2)), abs_nonneg (Real.sin ((a - b) / 2))]

theorem sin_lip (a b : ℝ) : |Real.sin a - Real.sin b| ≤ |a - b| := by
  have := cos_lip (Real.pi / 2 - a) (Real.pi / 2 - b)
  rw [Real.cos_pi_div_two_sub, Real.cos_pi_div_two_sub, show Real.pi / 2 - a - (Real.pi / 2 - b) = -(a - b) by ring, abs_neg] at this
  exact this

theorem two_squares {u v e : ℝ} (h1 : |u| ≤ e) (h2 : |v| ≤ e) : u ^ 2 + v ^ 2 ≤ (1415 / 1000 * e) ^ 2 := by
  have a := sq_le_sq' (abs_le.1 h1).1 (abs_le.1 h1).2
  have b := sq_le_sq' (abs_le.1 h2).1 (abs_le.1 h2).2
  nlinarith [sq_nonneg e]

/-- the rotated vector: the components, and the length of what is wrong -/
theorem rotate_near (x y t : Int) (h : x ^ 2 + y ^ 2 ≤ (2 ^ 31 - 1) ^ 2) :
    ∃ a b : Int, rotate x y t = some (a, b) ∧ ∃ u v : ℝ,
      (a : ℝ) = x * Real.cos (radians t) - y * Real.sin (radians t) + u ∧
      (b : ℝ) = x * Real.sin (radians t) + y * Real.cos (radians t) + v ∧
      |u| ≤ tolerance (len x y) ∧ |v| ≤ tolerance (len x y) := by
  obtain ⟨a, b, hr, ha, hb⟩ := C52_rotate_accurate x y t h
  exact ⟨a, b, hr, _, _, (add_sub_cancel _ _).symm, (add_sub_cancel _ _).symm, ha, hb⟩

theorem norm_re_im (z : ℂ) : ‖z‖ ^ 2 = z.re ^ 2 + z.im ^ 2 := by
  rw [← Complex.normSq_eq_norm_sq, Complex.normSq_apply]; ring

theorem len_eq (x y : Int) : len x y = ‖(⟨x, y⟩ : ℂ)‖ := (norm_mk x y).symm

theorem spin_norm (x y : ℝ) (t : ℝ) :
    ‖(⟨x * Real.cos t - y * Real.sin t, x * Real.sin t + y * Real.cos t⟩ : ℂ)‖ = ‖(⟨x, y⟩ : ℂ)‖ := by
  rw [← sq_eq_sq₀ (norm_nonneg _) (norm_nonneg _), norm_re_im, norm_re_im]
  nlinarith [Real.sin_sq_add_cos_sq t]

theorem small_norm {u v e : ℝ} (he : 0 ≤ e) (h1 : |u| ≤ e) (h2 : |v| ≤ e) : ‖(⟨u, v⟩ : ℂ)‖ ≤ 1415 / 1000 * e := by
  have := two_squares h1 h2
  refine abs_le_of_sq_le_sq' (a := ‖(⟨u, v⟩ : ℂ)‖) ?_ (by positivity) |>.2
  rw [norm_re_im]; exact this

theorem tol_nonneg (x y : Int) : 0 ≤ tolerance (len x y) := by
  have : 0 ≤ len x y := Real.sqrt_nonneg _
  unfold tolerance; positivity

/-- C113.  Rotating keeps the length to within 5/2 units, and less than one unit for lengths up to 2^28. -/
theorem C113_length (x y t : Int) (h : x ^ 2 + y ^ 2 ≤ (2 ^ 31 - 1) ^ 2) :
    ∃ a b : Int, rotate x y t = some (a, b) ∧
      |len a b - len x y| < 5 / 2 ∧ (len x y ≤ 2 ^ 28 → |len a b - len x y| < 1) := by
  obtain ⟨a, b, hr, u, v, ha, hb, hu, hv⟩ := rotate_near x y t h
  have hl := len_le h
  have key : |len a b - len x y| ≤ 1415 / 1000 * tolerance (len x y) := by
    have hs := small_norm (tol_nonneg x y) hu hv
    rw [len_eq a b]
    nth_rw 1 [len_eq x y]
    rw [← spin_norm x y (radians t)]
    refine (abs_norm_sub_norm_le _ _).trans ?_
    have e : (⟨(a : ℝ), (b : ℝ)⟩ : ℂ) - ⟨x * Real.cos (radians t) - y * Real.sin (radians t),
        x * Real.sin (radians t) + y * Real.cos (radians t)⟩ = ⟨u, v⟩ := by
      apply Complex.ext
      · simp [ha]
      · simp [hb]
    rw [e]; exact hs
  refine ⟨a, b, hr, key.trans_lt ?_, fun hs => key.trans_lt ?_⟩
  · unfold tolerance; norm_num at hl ⊢; linarith
  · unfold tolerance; norm_num at hs ⊢; linarith

/-- C113.  Rotating by `s` and then by `t` is rotating by `s + t`: each component is within 5 units of the vector turned by
the sum, and within 2 units for lengths up to 2^28. -/
theorem C113_rotate_twice (x y s t : Int) (h : x ^ 2 + y ^ 2 ≤ (2 ^ 31 - 4) ^ 2) :
    ∃ a b c d : Int, rotate x y s = some (a, b) ∧ rotate a b t = some (c, d) ∧
      |c - (x * Real.cos (radians (s + t)) - y * Real.sin (radians (s + t)))| < 5 ∧
      |d - (x * Real.sin (radians (s + t)) + y * Real.cos (radians (s + t)))| < 5 ∧
      (len x y ≤ 2 ^ 28 → |c - (x * Real.cos (radians (s + t)) - y * Real.sin (radians (s + t)))| < 2 ∧
        |d - (x * Real.sin (radians (s + t)) + y * Real.cos (radians (s + t)))| < 2) := by
  have h' : x ^ 2 + y ^ 2 ≤ (2 ^ 31 - 1) ^ 2 := h.trans (by norm_num)
  obtain ⟨a, b, hr, u, v, ha, hb, hu, hv⟩ := rotate_near x y s h'
  obtain ⟨a', b', hr', hlen, hlen'⟩ := C113_length x y s h'
  obtain ⟨rfl, rfl⟩ : a' = a ∧ b' = b := by simpa [hr'] using hr
  have hlx : len x y ≤ 2 ^ 31 - 4 := by
    refine Real.sqrt_le_iff.2 ⟨by norm_num, ?_⟩
    exact_mod_cast h
  have hla : len a' b' ≤ 2 ^ 31 - 1 := by
    have := (abs_lt.1 hlen).2
    linarith
  have h2 : a' ^ 2 + b' ^ 2 ≤ (2 ^ 31 - 1) ^ 2 := by
    have := pow_le_pow_left₀ (len_nonneg a' b') hla 2
    rw [len_sq] at this
    exact_mod_cast this
  obtain ⟨c, d, hr2, u', v', hc, hd, hu', hv'⟩ := rotate_near a' b' t h2
  refine ⟨a', b', c, d, hr, hr2, ?_⟩
  have hadd : radians (s + t) = radians s + radians t := by unfold radians; push_cast; ring
  have hw := small_norm (tol_nonneg x y) hu hv
  have e1 : (c : ℝ) - (x * Real.cos (radians (s + t)) - y * Real.sin (radians (s + t))) =
      (u * Real.cos (radians t) - v * Real.sin (radians t)) + u' := by
    rw [hc, ha, hb, hadd, Real.cos_add, Real.sin_add]; ring
  have e2 : (d : ℝ) - (x * Real.sin (radians (s + t)) + y * Real.cos (radians (s + t))) =
      (u * Real.sin (radians t) + v * Real.cos (radians t)) + v' := by
    rw [hd, ha, hb, hadd, Real.cos_add, Real.sin_add]; ring
  rw [← spin_norm u v (radians t)] at hw
  have w1 := (Complex.abs_re_le_norm _).trans hw
  have w2 := (Complex.abs_im_le_norm _).trans hw
  simp only at w1 w2
  rw [e1, e2]
  have b1 := abs_add_le (u * Real.cos (radians t) - v * Real.sin (radians t)) u'
  have b2 := abs_add_le (u * Real.sin (radians t) + v * Real.cos (radians t)) v'
  have l2 := (abs_lt.1 hlen).2
  unfold tolerance at w1 w2 hu' hv'
  refine ⟨?_, ?_, fun hs => ?_⟩
  · norm_num at *; linarith
  · norm_num at *; linarith
  · have l1 := (abs_lt.1 (hlen' hs)).2
    norm_num at *
    constructor <;> linarith

/-- C113.  Rotating there and back gives the vector again, each component to within 4 units, and to within one unit for lengths up
to 2^28. -/
theorem C113_rotate_back (x y t : Int) (h : x ^ 2 + y ^ 2 ≤ (2 ^ 31 - 4) ^ 2) :
    ∃ a b c d : Int, rotate x y t = some (a, b) ∧ rotate a b (-t) = some (c, d) ∧ |c - x| ≤ 4 ∧ |d - y| ≤ 4 ∧
      (x ^ 2 + y ^ 2 ≤ (2 ^ 28) ^ 2 → |c - x| ≤ 1 ∧ |d - y| ≤ 1) := by
  obtain ⟨a, b, c, d, h1, h2, h3, h4, h5⟩ := C113_rotate_twice x y t (-t) h
  have e : radians (t + -t) = 0 := by simp [radians]
  rw [e] at h3 h4 h5
  simp only [Real.cos_zero, Real.sin_zero, mul_one, mul_zero, sub_zero, zero_add] at h3 h4 h5
  refine ⟨a, b, c, d, h1, h2, ?_, ?_, fun hs => ?_⟩
  · exact abs_int_le (k := 4) (by push_cast; linarith)
  · exact abs_int_le (k := 4) (by push_cast; linarith)
  · have hl : len x y ≤ 2 ^ 28 := by
      refine Real.sqrt_le_iff.2 ⟨by norm_num, ?_⟩
      exact_mod_cast hs
    have := h5 hl
    exact ⟨abs_int_le (k := 1) (by push_cast; linarith), abs_int_le (k := 1) (by push_cast; linarith)⟩

/-- C113.  `to_cartesian` after `to_polar` gives the vector again, each component to within 6 units, and to within one unit
for lengths up to 2^28. -/
theorem C113_polar_back (x y : Int) (h : x ^ 2 + y ^ 2 ≤ (2 ^ 31 - 1) ^ 2) :
    ∃ m a c d : Int, toPolar x y = some (m, a) ∧ toCartesian m a = some (c, d) ∧ |c - x| ≤ 6 ∧ |d - y| ≤ 6 ∧
      (x ^ 2 + y ^ 2 ≤ (2 ^ 28) ^ 2 → |c - x| ≤ 1 ∧ |d - y| ≤ 1) := by
  by_cases h0 : (x, y) = (0, 0)
  · obtain ⟨rfl, rfl⟩ : x = 0 ∧ y = 0 := by simpa using h0
    exact ⟨0, 595825099, 0, 0, C77_zero, by decide +kernel, by simp, by simp, by simp⟩
  obtain ⟨m, a, hp, hm, hm1, β, -, hx, hy, hang⟩ := C77_to_polar x y h0 h
  change |m - len x y| ≤ 51 / 100 + len x y * (11 / 10 ^ 11) at hm
  change |m - len x y| < 1 at hm1
  change (x : ℝ) = len x y * Real.cos β at hx
  change (y : ℝ) = len x y * Real.sin β at hy
  change |radians a - β| ≤ radians 1 * (66 / 100 + 27 / len x y) at hang
  have hL := len_le h
  have hL1 : 1 ≤ len x y := by
    unfold len
    rw [Real.one_le_sqrt]
    have : (1 : Int) ≤ x ^ 2 + y ^ 2 := by
      have hx := sq_nonneg x
      have hy := sq_nonneg y
      by_contra hc
      have h1 : x ^ 2 = 0 := by omega
      have h2 : y ^ 2 = 0 := by omega
      exact h0 (by rw [pow_eq_zero_iff (by norm_num)] at h1 h2; rw [h1, h2])
    exact_mod_cast this
  have hm2 := abs_lt.1 hm1
  have hm0 : (0 : ℝ) < m := by linarith
  have hmi : 0 < m := by exact_mod_cast hm0
  have hmt : m < 2 ^ 31 := by
    have : (m : ℝ) < 2 ^ 31 := by linarith
    exact_mod_cast this
  have hsq : m ^ 2 + 0 ^ 2 ≤ (2 ^ 31 - 1) ^ 2 := by nlinarith
  obtain ⟨c, d, hc, u, v, hc', hd', hu, hv⟩ := rotate_near m 0 a hsq
  have hlm : len m 0 = m := by
    unfold len; simp [Real.sqrt_sq hm0.le]
  rw [hlm] at hu hv
  refine ⟨m, a, c, d, hp, hc, ?_⟩
  have hang' : len x y * |radians a - β| ≤ radians 1 * (66 / 100 * len x y + 27) := by
    have := mul_le_mul_of_nonneg_left hang (by linarith : (0 : ℝ) ≤ len x y)
    refine this.trans (le_of_eq ?_)
    have : len x y ≠ 0 := by linarith
    field_simp
  have hrad : radians 1 * (66 / 100 * len x y + 27) ≤ 293 / 10 ^ 11 * (66 / 100 * len x y + 27) := by
    apply mul_le_mul_of_nonneg_right _ (by linarith)
    unfold radians
    have := Real.pi_lt_d6
    norm_num at this ⊢
    linarith
  have k1 := polar_close Real.cos cos_lip Real.abs_cos_le_one m (len x y) (radians a) β (by linarith)
  have k2 := polar_close Real.sin sin_lip Real.abs_sin_le_one m (len x y) (radians a) β (by linarith)
  rw [← hx] at k1
  rw [← hy] at k2
  have e1 : ((c - x : Int) : ℝ) = (m * Real.cos (radians a) - x) + u := by push_cast; rw [hc']; simp; ring
  have e2 : ((d - y : Int) : ℝ) = (m * Real.sin (radians a) - y) + v := by push_cast; rw [hd']; simp; ring
  have b1 := abs_add_le (m * Real.cos (radians a) - x) u
  have b2 := abs_add_le (m * Real.sin (radians a) - y) v
  rw [← e1] at b1
  rw [← e2] at b2
  unfold tolerance at hu hv
  refine ⟨?_, ?_, fun hs => ?_⟩
  · exact abs_int_le (k := 6) (by norm_num at *; linarith)
  · exact abs_int_le (k := 6) (by norm_num at *; linarith)
  · have hl : len x y ≤ 2 ^ 28 := by
      refine Real.sqrt_le_iff.2 ⟨by norm_num, ?_⟩
      exact_mod_cast hs
    constructor
    · exact abs_int_le (k := 1) (by norm_num at *; linarith)
    · exact abs_int_le (k := 1) (by norm_num at *; linarith)

/-- a number near a positive one has a small argument -/
theorem arg_small {z : ℂ} {r e : ℝ} (he : ‖z - r‖ ≤ e) (hr : e < r) : |z.arg| ≤ Real.pi / 2 * (e / (r - e)) := by
  have hre : 0 < z.re := by
    have := (abs_le.1 ((Complex.abs_re_le_norm _).trans he)).1
    simp at this
    linarith
  have hz : r - e ≤ ‖z‖ := by
    have h1 := norm_sub_norm_le (r : ℂ) z
    rw [norm_sub_rev, Complex.norm_real, Real.norm_eq_abs] at h1
    have := le_abs_self r
    linarith
  have him : |z.im| ≤ e := by
    have := (Complex.abs_im_le_norm _).trans he
    simpa using this
  have hp : |z.arg| ≤ Real.pi / 2 := Complex.abs_arg_le_pi_div_two_iff.2 hre.le
  have hs := Real.mul_abs_le_abs_sin hp
  rw [Complex.sin_arg, abs_div, abs_of_nonneg (norm_nonneg z)] at hs
  have h0 : 0 < r - e := by linarith
  have hq : |z.im| / ‖z‖ ≤ e / (r - e) := by
    apply div_le_div₀ _ him h0 hz
    exact (norm_nonneg _).trans he
  have hpi := Real.pi_pos
  calc |z.arg| = Real.pi / 2 * (2 / Real.pi * |z.arg|) := by field_simp
    _ ≤ Real.pi / 2 * (e / (r - e)) := by gcongr; exact hs.trans hq

open Complex in
/-- two angles of nearly the same point differ by turns and a small angle -/
theorem angle_close {L r β τ e : ℝ} (hL : 0 < L)
    (he : ‖(⟨L * Real.cos β, L * Real.sin β⟩ : ℂ) - ⟨r * Real.cos τ, r * Real.sin τ⟩‖ ≤ e) (hr : e < r) :
    ∃ k : Int, |β - τ - k * (2 * Real.pi)| ≤ Real.pi / 2 * (e / (r - e)) := by
  have e1 : (⟨L * Real.cos β, L * Real.sin β⟩ : ℂ) = L * exp (β * I) := by
    rw [exp_mul_I]; apply Complex.ext <;> simp [cos_ofReal_re, sin_ofReal_re]
  have e2 : (⟨r * Real.cos τ, r * Real.sin τ⟩ : ℂ) = r * exp (τ * I) := by
    rw [exp_mul_I]; apply Complex.ext <;> simp [cos_ofReal_re, sin_ofReal_re]
  rw [e1, e2] at he
  have e3 : (L : ℂ) * exp (((β - τ : ℝ) : ℂ) * I) - r = (L * exp (β * I) - r * exp (τ * I)) * exp (((-τ : ℝ) : ℂ) * I) := by
    rw [sub_mul, mul_assoc, mul_assoc, ← exp_add, ← exp_add, show (β : ℂ) * I + ((-τ : ℝ) : ℂ) * I = ((β - τ : ℝ) : ℂ) * I by
      push_cast; ring, show (τ : ℂ) * I + ((-τ : ℝ) : ℂ) * I = 0 by push_cast; ring, exp_zero, mul_one]
  have h2 : ‖(L : ℂ) * exp (((β - τ : ℝ) : ℂ) * I) - r‖ ≤ e := by
    rw [e3, norm_mul, norm_exp_ofReal_mul_I, mul_one]; exact he
  have h3 := arg_small h2 hr
  rw [arg_real_mul _ hL, arg_exp_mul_I] at h3
  refine ⟨toIocDiv Real.two_pi_pos (-Real.pi) (β - τ), ?_⟩
  have h4 := toIocMod_add_toIocDiv_zsmul Real.two_pi_pos (-Real.pi) (β - τ)
  rw [zsmul_eq_mul] at h4
  rw [show β - τ - (toIocDiv Real.two_pi_pos (-Real.pi) (β - τ) : ℝ) * (2 * Real.pi) =
    toIocMod Real.two_pi_pos (-Real.pi) (β - τ) by linarith]
  exact h3

/-- C113.  `to_polar` after `to_cartesian` gives radius and angle again: the radius to within 3 units, and to within one unit up to
2^28; the angle up to full turns and 9 / r radians. -/
theorem C113_cartesian_back (r t : Int) (h1 : 100 ≤ r) (h2 : r ≤ 2 ^ 31 - 4) :
    ∃ c d m a k : Int, toCartesian r t = some (c, d) ∧ toPolar c d = some (m, a) ∧ |m - r| ≤ 3 ∧
      (r ≤ 2 ^ 28 → |m - r| ≤ 1) ∧ |radians (a - t - k * 2 ^ 31)| ≤ 9 / r := by
  have hr1 : (100 : ℝ) ≤ r := by exact_mod_cast h1
  have hr2 : (r : ℝ) ≤ 2 ^ 31 - 4 := by exact_mod_cast h2
  have hsq : r ^ 2 + 0 ^ 2 ≤ (2 ^ 31 - 1) ^ 2 := by nlinarith
  obtain ⟨c, d, hc, u, v, hc', hd', hu, hv⟩ := rotate_near r 0 t hsq
  obtain ⟨c', d', hcd, hl, hl'⟩ := C113_length r 0 t hsq
  obtain ⟨rfl, rfl⟩ : c' = c ∧ d' = d := by simpa [hcd] using hc
  have hlr : len r 0 = r := by unfold len; simp [Real.sqrt_sq (by linarith : (0 : ℝ) ≤ r)]
  rw [hlr] at hl hl' hu hv
  have hL := abs_lt.1 hl
  have hcd2 : c' ^ 2 + d' ^ 2 ≤ (2 ^ 31 - 1) ^ 2 := by
    have hle : len c' d' ≤ 2 ^ 31 - 1 := by linarith
    have := pow_le_pow_left₀ (len_nonneg c' d') hle 2
    rw [len_sq] at this
    exact_mod_cast this
  have hne : (c', d') ≠ (0, 0) := by
    intro h0
    obtain ⟨rfl, rfl⟩ : c' = 0 ∧ d' = 0 := by simpa using h0
    have : len 0 0 = 0 := by unfold len; simp
    rw [this] at hL
    linarith
  obtain ⟨m, a, hp, hm, hm1, β, -, hx, hy, hang⟩ := C77_to_polar c' d' hne hcd2
  change |m - len c' d'| ≤ 51 / 100 + len c' d' * (11 / 10 ^ 11) at hm
  change |m - len c' d'| < 1 at hm1
  change (c' : ℝ) = len c' d' * Real.cos β at hx
  change (d' : ℝ) = len c' d' * Real.sin β at hy
  change |radians a - β| ≤ radians 1 * (66 / 100 + 27 / len c' d') at hang
  have hL0 : 0 < len c' d' := by linarith
  have hw := small_norm (by unfold tolerance; linarith) hu hv
  have hw' : 1415 / 1000 * tolerance r < 5 / 2 := by unfold tolerance; norm_num at hr2 ⊢; linarith
  have hclose : ‖(⟨len c' d' * Real.cos β, len c' d' * Real.sin β⟩ : ℂ) - ⟨r * Real.cos (radians t), r * Real.sin (radians t)⟩‖ ≤
      5 / 2 := by
    rw [← hx, ← hy]
    refine le_trans (le_of_eq ?_) (hw.trans hw'.le)
    congr 1
    apply Complex.ext
    · simp [hc']
    · simp [hd']
  obtain ⟨k, hk⟩ := angle_close hL0 hclose (by linarith)
  refine ⟨c', d', m, a, k, hc, hp, ?_, fun hs => ?_, ?_⟩
  · refine abs_int_le (k := 3) ?_
    have := abs_add_le ((m : ℝ) - len c' d') (len c' d' - r)
    rw [sub_add_sub_cancel] at this
    push_cast
    linarith
  · refine abs_int_le (k := 1) ?_
    have hs' : (r : ℝ) ≤ 2 ^ 28 := by exact_mod_cast hs
    have l1 := abs_lt.1 (hl' hs')
    have := abs_add_le ((m : ℝ) - len c' d') (len c' d' - r)
    rw [sub_add_sub_cancel] at this
    have l3 := hl' hs'
    push_cast
    norm_num at *
    linarith
  · have e : radians (a - t - k * 2 ^ 31) = (radians a - β) + (β - radians t - k * (2 * Real.pi)) := by
      unfold radians; push_cast; ring
    rw [e]
    refine (abs_add_le _ _).trans ?_
    have hpi := Real.pi_lt_d6
    have hpi0 := Real.pi_pos
    have hr0 : (0 : ℝ) < r := by linarith
    have b1 : |radians a - β| ≤ (44 / 10) / r := by
      refine hang.trans ?_
      have q1 : 27 / len c' d' ≤ 28 / r := by
        rw [div_le_div_iff₀ hL0 hr0]; linarith
      have q2 : radians 1 ≤ 293 / 10 ^ 11 := by
        unfold radians; norm_num at hpi ⊢; linarith
      have q3 : radians 1 * (66 / 100 + 27 / len c' d') ≤ 293 / 10 ^ 11 * (66 / 100 + 28 / r) := by
        have : (0 : ℝ) ≤ 27 / len c' d' := by positivity
        gcongr
      refine q3.trans ?_
      rw [le_div_iff₀ hr0, mul_assoc, add_mul, div_mul_cancel₀ _ hr0.ne']
      norm_num at hr2 ⊢
      linarith
    have b2 : Real.pi / 2 * (5 / 2 / (r - 5 / 2)) ≤ (46 / 10) / r := by
      rw [← mul_div_assoc, div_le_div_iff₀ (by linarith) hr0]
      norm_num at hpi ⊢
      nlinarith
    have : (44 / 10 : ℝ) / r + (46 / 10) / r = 9 / r := by rw [← add_div]; norm_num
    linarith

example : rotate 300000000 (-400000000) 123456789 = some (422004693, -268164201) ∧
    rotate 422004693 (-268164201) (-123456789) = some (300000000, -400000000) := by decide +kernel
example : (300000000 : Int) ^ 2 + (-400000000) ^ 2 ≤ (2 ^ 31 - 4) ^ 2 := by norm_num
example : toCartesian 1000000 123456789 = some (935468, 353410) ∧ toPolar 935468 353410 = some (1000000, 123456682) := by
  decide +kernel

end CE.Cordic
