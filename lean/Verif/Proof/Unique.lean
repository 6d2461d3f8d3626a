import Verif.Spec.Unique
import Mathlib.Tactic.Ring
import Mathlib.Tactic.Linarith
import Mathlib.Tactic.LinearCombination
/-! Two empty circles: the lifting to the paraboloid. -/
namespace CE.Cdt

/-- `circleDet` over the rationals -/
def circQ (ax ay bx b_y cx cy dx dy : ℚ) : ℚ :=
  ((ax - dx) ^ 2 + (ay - dy) ^ 2) * ((bx - dx) * (cy - dy) - (b_y - dy) * (cx - dx)) +
  ((bx - dx) ^ 2 + (b_y - dy) ^ 2) * ((cx - dx) * (ay - dy) - (cy - dy) * (ax - dx)) +
  ((cx - dx) ^ 2 + (cy - dy) ^ 2) * ((ax - dx) * (b_y - dy) - (ay - dy) * (bx - dx))

theorem circQ_cast (ax ay bx b_y cx cy dx dy : Int) :
    ((circleDet ax ay bx b_y cx cy dx dy : Int) : ℚ) = circQ ax ay bx b_y cx cy dx dy := by
  unfold circleDet circQ; push_cast; ring

/-- minus twice the area, positive when clockwise -/
def arQ (ax ay bx b_y cx cy : ℚ) : ℚ := -((bx - ax) * (cy - ay) - (b_y - ay) * (cx - ax))

/-- as a function of `d` it is affine in `d` and its square -/
theorem circQ_lift (ax ay bx b_y cx cy : ℚ) : ∃ β γ δ : ℚ, ∀ x y,
    circQ ax ay bx b_y cx cy x y = arQ ax ay bx b_y cx cy * (x ^ 2 + y ^ 2) + β * x + γ * y + δ := by
  refine ⟨circQ ax ay bx b_y cx cy 1 0 - circQ ax ay bx b_y cx cy 0 0 - arQ ax ay bx b_y cx cy,
    circQ ax ay bx b_y cx cy 0 1 - circQ ax ay bx b_y cx cy 0 0 - arQ ax ay bx b_y cx cy, circQ ax ay bx b_y cx cy 0 0, ?_⟩
  intro x y
  unfold circQ arQ
  ring

/-- weights of a point in a triangle: opposite sides -/
theorem weights (ax ay bx b_y cx cy x y : ℚ) :
    arQ x y bx b_y cx cy + arQ ax ay x y cx cy + arQ ax ay bx b_y x y = arQ ax ay bx b_y cx cy ∧
    arQ x y bx b_y cx cy * ax + arQ ax ay x y cx cy * bx + arQ ax ay bx b_y x y * cx = arQ ax ay bx b_y cx cy * x ∧
    arQ x y bx b_y cx cy * ay + arQ ax ay x y cx cy * b_y + arQ ax ay bx b_y x y * cy = arQ ax ay bx b_y cx cy * y := by
  unfold arQ
  refine ⟨?_, ?_, ?_⟩ <;> ring

theorem circQ_corner (ax ay bx b_y cx cy : ℚ) :
    circQ ax ay bx b_y cx cy ax ay = 0 ∧ circQ ax ay bx b_y cx cy bx b_y = 0 ∧ circQ ax ay bx b_y cx cy cx cy = 0 := by
  unfold circQ
  refine ⟨?_, ?_, ?_⟩ <;> ring

/-- a weighted sum over the corners of a triangle, in terms of the point that has these weights -/
theorem lift_sum {α β γ δ A u v w ax ay bx b_y cx cy x y : ℚ} (h1 : u + v + w = A) (h2 : u * ax + v * bx + w * cx = A * x)
    (h3 : u * ay + v * b_y + w * cy = A * y) :
    u * (α * (ax ^ 2 + ay ^ 2) + β * ax + γ * ay + δ) + v * (α * (bx ^ 2 + b_y ^ 2) + β * bx + γ * b_y + δ) +
      w * (α * (cx ^ 2 + cy ^ 2) + β * cx + γ * cy + δ) =
    α * (u * (ax ^ 2 + ay ^ 2) + v * (bx ^ 2 + b_y ^ 2) + w * (cx ^ 2 + cy ^ 2)) + A * (β * x + γ * y + δ) := by
  linear_combination δ * h1 + β * h2 + γ * h3

/-- The point is in both triangles. -/
theorem two_circles (ax ay bx b_y cx cy dx dy ex ey fx fy x y : ℚ)
    (hA : 0 < arQ ax ay bx b_y cx cy) (hD : 0 < arQ dx dy ex ey fx fy) :
    arQ x y ex ey fx fy * circQ ax ay bx b_y cx cy dx dy + arQ dx dy x y fx fy * circQ ax ay bx b_y cx cy ex ey +
        arQ dx dy ex ey x y * circQ ax ay bx b_y cx cy fx fy +
      (arQ x y bx b_y cx cy * circQ dx dy ex ey fx fy ax ay + arQ ax ay x y cx cy * circQ dx dy ex ey fx fy bx b_y +
        arQ ax ay bx b_y x y * circQ dx dy ex ey fx fy cx cy) = 0 := by
  obtain ⟨β, γ, δ, h⟩ := circQ_lift ax ay bx b_y cx cy
  obtain ⟨β', γ', δ', h'⟩ := circQ_lift dx dy ex ey fx fy
  obtain ⟨u1, u2, u3⟩ := weights ax ay bx b_y cx cy x y
  obtain ⟨w1, w2, w3⟩ := weights dx dy ex ey fx fy x y
  obtain ⟨z1, z2, z3⟩ := circQ_corner ax ay bx b_y cx cy
  obtain ⟨z1', z2', z3'⟩ := circQ_corner dx dy ex ey fx fy
  rw [h] at z1 z2 z3
  rw [h'] at z1' z2' z3'
  rw [h, h, h, h', h', h']
  rw [lift_sum w1 w2 w3, lift_sum u1 u2 u3]
  have s := lift_sum (α := arQ ax ay bx b_y cx cy) (β := β) (γ := γ) (δ := δ) u1 u2 u3
  rw [z1, z2, z3] at s
  have s' := lift_sum (α := arQ dx dy ex ey fx fy) (β := β') (γ := γ') (δ := δ') w1 w2 w3
  rw [z1', z2', z3'] at s'
  simp only [mul_zero, add_zero] at s s'
  have t : arQ x y bx b_y cx cy * (ax ^ 2 + ay ^ 2) + arQ ax ay x y cx cy * (bx ^ 2 + b_y ^ 2) + arQ ax ay bx b_y x y * (cx ^ 2 + cy ^ 2) =
      -(β * x + γ * y + δ) := by
    apply mul_left_cancel₀ hA.ne'
    linear_combination -s
  have t' : arQ x y ex ey fx fy * (dx ^ 2 + dy ^ 2) + arQ dx dy x y fx fy * (ex ^ 2 + ey ^ 2) + arQ dx dy ex ey x y * (fx ^ 2 + fy ^ 2) =
      -(β' * x + γ' * y + δ') := by
    apply mul_left_cancel₀ hD.ne'
    linear_combination -s'
  rw [t, t']
  ring

/-- If no corner of either is inside the circle of the other, then those of the first are on the circle of the second. -/
theorem same_circle {ax ay bx b_y cx cy dx dy ex ey fx fy x y : ℚ}
    (hA : 0 < arQ ax ay bx b_y cx cy) (hD : 0 < arQ dx dy ex ey fx fy)
    (i1 : 0 < arQ x y bx b_y cx cy) (i2 : 0 < arQ ax ay x y cx cy) (i3 : 0 < arQ ax ay bx b_y x y)
    (w1 : 0 ≤ arQ x y ex ey fx fy) (w2 : 0 ≤ arQ dx dy x y fx fy) (w3 : 0 ≤ arQ dx dy ex ey x y)
    (e1 : 0 ≤ circQ ax ay bx b_y cx cy dx dy) (e2 : 0 ≤ circQ ax ay bx b_y cx cy ex ey) (e3 : 0 ≤ circQ ax ay bx b_y cx cy fx fy)
    (o1 : 0 ≤ circQ dx dy ex ey fx fy ax ay) (o2 : 0 ≤ circQ dx dy ex ey fx fy bx b_y) (o3 : 0 ≤ circQ dx dy ex ey fx fy cx cy) :
    circQ dx dy ex ey fx fy ax ay = 0 ∧ circQ dx dy ex ey fx fy bx b_y = 0 ∧ circQ dx dy ex ey fx fy cx cy = 0 := by
  have key := two_circles ax ay bx b_y cx cy dx dy ex ey fx fy x y hA hD
  have m1 := mul_nonneg w1 e1
  have m2 := mul_nonneg w2 e2
  have m3 := mul_nonneg w3 e3
  have n1 := mul_nonneg i1.le o1
  have n2 := mul_nonneg i2.le o2
  have n3 := mul_nonneg i3.le o3
  refine ⟨?_, ?_, ?_⟩
  · exact (mul_eq_zero.1 (by linarith : arQ x y bx b_y cx cy * circQ dx dy ex ey fx fy ax ay = 0)).resolve_left i1.ne'
  · exact (mul_eq_zero.1 (by linarith : arQ ax ay x y cx cy * circQ dx dy ex ey fx fy bx b_y = 0)).resolve_left i2.ne'
  · exact (mul_eq_zero.1 (by linarith : arQ ax ay bx b_y x y * circQ dx dy ex ey fx fy cx cy = 0)).resolve_left i3.ne'

end CE.Cdt
