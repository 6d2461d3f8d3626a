import Verif.Spec.Delaunay
import Verif.Spec.Sight
import Mathlib.Data.Real.Basic
import Mathlib.Algebra.BigOperators.Intervals
import Mathlib.Order.Interval.Finset.Nat
/-! How steep the surface over a mesh is.  A height is given at every place; over a face the surface is the plane through
the three heights at its corners. -/
namespace CE.Cdt

/-- the height at a vertex, when `F` tells the heights of places -/
def Mesh.height (m : Mesh) (F : Int → Int → ℝ) (v : Nat) : ℝ := F (m.x v) (m.y v)

/-- the plane `p x + q y + r` goes through the heights at the corners of the face -/
def Mesh.Plane (m : Mesh) (F : Int → Int → ℝ) (f : Nat) (p q r : ℝ) : Prop :=
  ∀ j, j < 3 → m.height F (m.corner f j) = p * m.x (m.corner f j) + q * m.y (m.corner f j) + r

/-- twice the area of the face; faces are clockwise -/
def Mesh.size2 (m : Mesh) (f : Nat) : ℝ := -(m.area (m.corner f 0) (m.corner f 1) (m.corner f 2) : ℝ)

/-- slope of that plane in direction `x` -/
noncomputable def Mesh.slopeX (m : Mesh) (F : Int → Int → ℝ) (f : Nat) : ℝ :=
  -(m.height F (m.corner f 0) * (m.y (m.corner f 1) - m.y (m.corner f 2)) + m.height F (m.corner f 1) * (m.y (m.corner f 2) - m.y (m.corner f 0)) +
    m.height F (m.corner f 2) * (m.y (m.corner f 0) - m.y (m.corner f 1))) / m.size2 f

/-- slope of that plane in direction `y` -/
noncomputable def Mesh.slopeY (m : Mesh) (F : Int → Int → ℝ) (f : Nat) : ℝ :=
  (m.height F (m.corner f 0) * (m.x (m.corner f 1) - m.x (m.corner f 2)) + m.height F (m.corner f 1) * (m.x (m.corner f 2) - m.x (m.corner f 0)) +
    m.height F (m.corner f 2) * (m.x (m.corner f 0) - m.x (m.corner f 1))) / m.size2 f

/-- how steep the surface is: the square of the slope, summed over the square (the integral of the square of the gradient) -/
noncomputable def Mesh.rough (m : Mesh) (F : Int → Int → ℝ) : ℝ :=
  ∑ f ∈ Finset.Ico 6 (2 * m.size), (m.slopeX F f ^ 2 + m.slopeY F f ^ 2) * (m.size2 f / 2)

/-- the mesh, whoever made it, is a triangulation of the square -/
structure Sheet (m : Mesh) : Prop where
  four : 4 ≤ m.size
  linked : Linked m
  outline : Outline m
  clockwise : Clockwise m
  coords : Coords m
  used : ∀ v, v < m.size → ∃ f j, Used m f ∧ j < 3 ∧ m.corner f j = v
  once : ∀ v w, v < m.size → w < m.size → m.x v = m.x w → m.y v = m.y w → v = w

/-- there is an edge between the places -/
def Mesh.EdgeAt (m : Mesh) (p q : Int × Int) : Prop := ∃ f j, Used m f ∧ j < 3 ∧
  ((m.pos (m.corner f (j + 1)) = p ∧ m.pos (m.corner f (j + 2)) = q) ∨ (m.pos (m.corner f (j + 1)) = q ∧ m.pos (m.corner f (j + 2)) = p))

/-- across every edge, except between places that `W` tells, the opposite corner is not strictly inside the circle of the face -/
def Mesh.DelaunayBut (m : Mesh) (W : Int × Int → Int × Int → Prop) : Prop :=
  ∀ f j, Used m f → j < 3 → m.e (4 * f + j) ≠ 0 → ¬ W (m.pos (m.corner f (j + 1))) (m.pos (m.corner f (j + 2))) → 0 ≤ m.circle f (m.p (m.e (4 * f + j)))

end CE.Cdt
