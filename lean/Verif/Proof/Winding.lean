import Verif.Spec.Winding
import Mathlib.Analysis.SpecialFunctions.Complex.Arg
import Mathlib.Tactic.Ring
import Mathlib.Tactic.Linarith
import Mathlib.Tactic.Positivity
import Mathlib.Tactic.FieldSimp
import Mathlib.Tactic.LinearCombination
/-! Angles of ratios and signs of cross products. -/
namespace CE.Vec

open Complex Real

theorem im_div (a b : ℂ) : (b / a).im = (a.re * b.im - a.im * b.re) / normSq a := by
  rw [Complex.div_im]; ring

theorem re_div (a b : ℂ) : (b / a).re = (a.re * b.re + a.im * b.im) / normSq a := by
  rw [Complex.div_re]; ring

/-- the angle is negative iff the cross product is -/
theorem arg_neg_cross {a b : ℂ} (ha : a ≠ 0) : arg (b / a) < 0 ↔ a.re * b.im - a.im * b.re < 0 := by
  rw [arg_neg_iff, im_div, div_neg_iff]
  have := normSq_pos.2 ha
  constructor
  · rintro (h | h)
    · linarith [h.2]
    · exact h.1
  · exact fun h => Or.inr ⟨h, this⟩

theorem arg_pos_cross {a b : ℂ} (ha : a ≠ 0) (h : 0 < a.re * b.im - a.im * b.re) : 0 < arg (b / a) := by
  have him : 0 < (b / a).im := by rw [im_div]; exact div_pos h (normSq_pos.2 ha)
  have h0 : 0 ≤ arg (b / a) := arg_nonneg_iff.2 him.le
  rcases h0.lt_or_eq with h | h
  · exact h
  · have := (arg_eq_zero_iff.1 h.symm).2
    linarith

/-- the angle is a straight angle only if the segment contains the point -/
theorem arg_ne_pi {a b : ℂ} (ha : a ≠ 0) (h : ¬∃ t : ℝ, 0 ≤ t ∧ t ≤ 1 ∧ a.re + t * (b.re - a.re) = 0 ∧
    a.im + t * (b.im - a.im) = 0) : arg (b / a) ≠ π := by
  intro hpi
  obtain ⟨h1, h2⟩ := arg_eq_pi_iff.1 hpi
  apply h
  set c := -(b / a).re with hc
  have hcpos : 0 < c := by linarith
  have hb : b = -(c : ℂ) * a := by
    have : b / a = ((-c : ℝ) : ℂ) := by
      apply Complex.ext
      · simp [hc]
      · simp [h2]
    rw [div_eq_iff ha] at this
    rw [this]; push_cast; ring
  have hre : b.re = -c * a.re := by rw [hb]; simp
  have him : b.im = -c * a.im := by rw [hb]; simp
  have h1c : (0 : ℝ) < 1 + c := by linarith
  refine ⟨1 / (1 + c), by positivity, ?_, ?_, ?_⟩
  · rw [div_le_one h1c]; linarith
  · rw [hre]; field_simp; ring
  · rw [him]; field_simp; ring

/-- a ratio's angle is the difference of angles, up to full turns -/
theorem arg_ratio {a b : ℂ} (ha : a ≠ 0) (hb : b ≠ 0) :
    ∃ k : ℤ, arg (b / a) = arg b - arg a + 2 * π * k := by
  have := arg_div_coe_angle hb ha
  rw [← Real.Angle.coe_sub, Real.Angle.angle_eq_iff_two_pi_dvd_sub] at this
  obtain ⟨k, hk⟩ := this
  exact ⟨k, by linarith⟩

/-- the number of full turns, from the signs of the imaginary parts and of the cross product -/
noncomputable def turn (a b : ℂ) : ℤ :=
  if 0 ≤ a.im ∧ b.im < 0 then (if 0 < a.re * b.im - a.im * b.re then 1 else 0)
  else if a.im < 0 ∧ 0 ≤ b.im then (if a.re * b.im - a.im * b.re < 0 then -1 else 0)
  else 0

theorem int_of_bounds {k : ℤ} {lo hi : ℤ} (h1 : 2 * π * (lo : ℝ) < 2 * π * k)
    (h2 : 2 * π * (k : ℝ) < 2 * π * hi) : lo < k ∧ k < hi := by
  have hp : (0 : ℝ) < 2 * π := by positivity
  exact ⟨by exact_mod_cast lt_of_mul_lt_mul_left h1 hp.le, by exact_mod_cast lt_of_mul_lt_mul_left h2 hp.le⟩

theorem arg_turn {a b : ℂ} (ha : a ≠ 0) (hb : b ≠ 0) (hpi : arg (b / a) ≠ π) :
    arg (b / a) = arg b - arg a + 2 * π * turn a b := by
  obtain ⟨k, hk⟩ := arg_ratio ha hb
  have p0 := Real.pi_pos
  have a1 := neg_pi_lt_arg a
  have a2 := arg_le_pi a
  have b1 := neg_pi_lt_arg b
  have b2 := arg_le_pi b
  have r1 := neg_pi_lt_arg (b / a)
  have r2 : arg (b / a) < π := lt_of_le_of_ne (arg_le_pi _) hpi
  suffices k = turn a b by rw [hk, this]
  have hneg := arg_neg_cross (b := b) ha
  have hpos := arg_pos_cross (b := b) ha
  by_cases hA : 0 ≤ a.im <;> by_cases hB : 0 ≤ b.im
  · have t1 := arg_nonneg_iff.2 hA
    have t2 := arg_nonneg_iff.2 hB
    have := int_of_bounds (k := k) (lo := -1) (hi := 1) (by push_cast; linarith) (by push_cast; linarith)
    unfold turn
    rw [if_neg (by rintro ⟨_, h⟩; linarith), if_neg (by rintro ⟨h, _⟩; linarith)]
    omega
  · have t1 := arg_nonneg_iff.2 hA
    have t2 := arg_neg_iff.2 (not_le.1 hB)
    have := int_of_bounds (k := k) (lo := -1) (hi := 2) (by push_cast; linarith) (by push_cast; linarith)
    unfold turn
    rw [if_pos ⟨hA, not_le.1 hB⟩]
    have hk01 : k = 0 ∨ k = 1 := by omega
    split
    · next hc =>
      have := hpos hc
      rcases hk01 with rfl | rfl
      · push_cast at hk; linarith
      · rfl
    · next hc =>
      rcases hk01 with rfl | rfl
      · rfl
      · exfalso
        push_cast at hk
        have hrp : 0 < arg (b / a) := by linarith
        have him : 0 < (b / a).im := by
          have h0 := arg_nonneg_iff.1 hrp.le
          rcases h0.lt_or_eq with h | h
          · exact h
          · exfalso
            rcases le_or_gt 0 (b / a).re with hr | hr
            · have := arg_eq_zero_iff.2 ⟨hr, h.symm⟩
              linarith
            · exact hpi (arg_eq_pi_iff.2 ⟨hr, h.symm⟩)
        rw [im_div] at him
        have := (div_pos_iff_of_pos_right (normSq_pos.2 ha)).1 him
        exact hc this
  · have t1 := arg_neg_iff.2 (not_le.1 hA)
    have t2 := arg_nonneg_iff.2 hB
    have := int_of_bounds (k := k) (lo := -2) (hi := 1) (by push_cast; linarith) (by push_cast; linarith)
    unfold turn
    rw [if_neg (by rintro ⟨h, _⟩; exact hA h), if_pos ⟨not_le.1 hA, hB⟩]
    have hk01 : k = 0 ∨ k = -1 := by omega
    split
    · next hc =>
      have := hneg.2 hc
      rcases hk01 with rfl | rfl
      · push_cast at hk; linarith
      · rfl
    · next hc =>
      rcases hk01 with rfl | rfl
      · rfl
      · exfalso
        push_cast at hk
        exact hc (hneg.1 (by linarith))
  · have t1 := arg_neg_iff.2 (not_le.1 hA)
    have t2 := arg_neg_iff.2 (not_le.1 hB)
    have := int_of_bounds (k := k) (lo := -1) (hi := 1) (by push_cast; linarith) (by push_cast; linarith)
    unfold turn
    rw [if_neg (by rintro ⟨h, _⟩; exact hA h), if_neg (by rintro ⟨_, h⟩; exact hB h)]
    omega

/-- the angles under which a triangle's edges are seen add up to a multiple of a full turn; with all
cross products negative it is minus one turn, with mixed signs none -/
theorem triangle_sum {a b c : ℂ} (ha : a ≠ 0) (hb : b ≠ 0) (hc : c ≠ 0)
    (h1 : a.re * b.im - a.im * b.re ≠ 0) (h2 : b.re * c.im - b.im * c.re ≠ 0)
    (h3 : c.re * a.im - c.im * a.re ≠ 0)
    (hcw : (a.re * b.im - a.im * b.re) + (b.re * c.im - b.im * c.re) + (c.re * a.im - c.im * a.re) < 0) :
    arg (b / a) + arg (c / b) + arg (a / c) =
      -2 * π * (if a.re * b.im - a.im * b.re < 0 ∧ b.re * c.im - b.im * c.re < 0 ∧
        c.re * a.im - c.im * a.re < 0 then 1 else 0) := by
  obtain ⟨k1, e1⟩ := arg_ratio ha hb
  obtain ⟨k2, e2⟩ := arg_ratio hb hc
  obtain ⟨k3, e3⟩ := arg_ratio hc ha
  have hsum : arg (b / a) + arg (c / b) + arg (a / c) = 2 * π * ((k1 + k2 + k3 : ℤ) : ℝ) := by
    push_cast; linarith
  have lim : ∀ {x y : ℂ}, x ≠ 0 → x.re * y.im - x.im * y.re ≠ 0 → arg (y / x) < π := by
    intro x y hx h
    apply lt_of_le_of_ne (arg_le_pi _)
    intro hpi
    have := (arg_eq_pi_iff.1 hpi).2
    rw [im_div, div_eq_zero_iff] at this
    rcases this with h' | h'
    · exact h h'
    · exact (normSq_pos.2 hx).ne' h'
  have sgn : ∀ {x y : ℂ}, x ≠ 0 → x.re * y.im - x.im * y.re ≠ 0 →
      (x.re * y.im - x.im * y.re < 0 ∧ arg (y / x) < 0 ∨
        0 < x.re * y.im - x.im * y.re ∧ 0 < arg (y / x)) := by
    intro x y hx h
    rcases lt_or_gt_of_ne h with h | h
    · exact Or.inl ⟨h, (arg_neg_cross hx).2 h⟩
    · exact Or.inr ⟨h, arg_pos_cross hx h⟩
  have l1 := lim ha h1
  have l2 := lim hb h2
  have l3 := lim hc h3
  have m1 := neg_pi_lt_arg (b / a)
  have m2 := neg_pi_lt_arg (c / b)
  have m3 := neg_pi_lt_arg (a / c)
  have p0 := Real.pi_pos
  generalize k1 + k2 + k3 = k at hsum
  rw [hsum]
  rcases sgn ha h1 with ⟨s1, t1⟩ | ⟨s1, t1⟩ <;> rcases sgn hb h2 with ⟨s2, t2⟩ | ⟨s2, t2⟩ <;>
    rcases sgn hc h3 with ⟨s3, t3⟩ | ⟨s3, t3⟩
  · rw [if_pos ⟨s1, s2, s3⟩]
    have := int_of_bounds (k := k) (lo := -2) (hi := 0) (by push_cast; linarith) (by push_cast; linarith)
    have : k = -1 := by omega
    subst this
    push_cast; ring
  all_goals first
    | (exfalso; linarith)
    | (rw [if_neg (by rintro ⟨q1, q2, q3⟩; linarith)]
       have := int_of_bounds (k := k) (lo := -1) (hi := 1) (by push_cast; linarith) (by push_cast; linarith)
       have : k = 0 := by omega
       subst this
       push_cast; ring)

/-- reversing an edge changes the sign of its angle -/
theorem arg_flip {a b : ℂ} (hpi : arg (b / a) ≠ π) : arg (a / b) = -arg (b / a) := by
  rw [← inv_div, arg_inv, if_neg hpi]

end CE.Vec
