import Verif.Spec.Near
import Mathlib.Algebra.BigOperators.Ring.Finset
import Mathlib.Algebra.Order.BigOperators.Group.Finset
import Mathlib.Analysis.SpecialFunctions.Trigonometric.Inverse
/-! Interpolation between vertices, and angles. -/
namespace CE.Cdt

/-- the point `(x, y)` as an average of vertices: `g i` has weight `w i`, for `i` in `s` -/
structure Mesh.Average (m : Mesh) (s : Finset ℕ) (g : ℕ → ℕ) (w : ℕ → ℝ) (x y : ℝ) : Prop where
  nonneg : ∀ i ∈ s, 0 ≤ w i
  one : ∑ i ∈ s, w i = 1
  atX : ∑ i ∈ s, w i * m.x (g i) = x
  atY : ∑ i ∈ s, w i * m.y (g i) = y

/-- the average squared distance of the vertices from the point -/
noncomputable def Mesh.spread (m : Mesh) (s : Finset ℕ) (g : ℕ → ℕ) (w : ℕ → ℝ) (x y : ℝ) : ℝ := ∑ i ∈ s, w i * m.from2 x y (g i)

/-- a function of the plane that is, at the vertices, within `M / 2` times the squared distance of its tangent plane at `(x, y)`, as is
every function with second derivatives of at most `M` -/
def Mesh.Curved (m : Mesh) (F : ℝ → ℝ → ℝ) (M x y : ℝ) : Prop :=
  ∃ p q : ℝ, ∀ v, v < m.size → |F (m.x v) (m.y v) - (F x y + p * (m.x v - x) + q * (m.y v - y))| ≤ M / 2 * m.from2 x y v

/-- the angle at `b` between `a` and `c` -/
noncomputable def Mesh.angle (m : Mesh) (a b c : Nat) : ℝ :=
  Real.arccos ((((m.x a - m.x b) * (m.x c - m.x b) + (m.y a - m.y b) * (m.y c - m.y b) : ℤ) : ℝ) / √((m.dist2 a b * m.dist2 c b : ℤ) : ℝ))

/-- the six angles of the two triangles on the two sides of the line from `u` to `v` with third corners `a` and `b` -/
def Mesh.Angles (m : Mesh) (u v a b : Nat) : Set ℝ :=
  {m.angle u a v, m.angle a u v, m.angle a v u, m.angle u b v, m.angle b u v, m.angle b v u}

end CE.Cdt
