import Verif.Spec.Cdt
import Mathlib.Data.Rat.Cast.Order
/-! What it means that the faces tile the square and that a triangulation is Delaunay. -/
namespace CE.Cdt

/-- there is a vertex at the point -/
def Mesh.Vertex (m : Mesh) (px py : Int) : Prop := ∃ v, v < m.size ∧ m.x v = px ∧ m.y v = py

/-- strictly inside the square -/
def InSquare16 (px py : Int) : Prop := (-32768 < px ∧ px < 32767) ∧ (-32768 < py ∧ py < 32767)

/-- side of a rational point with respect to the line from corner `j` of face `f` to the next one -/
def Mesh.sideQ (m : Mesh) (f j : Nat) (x y : ℚ) : ℚ :=
  (m.x (m.corner f j) - x) * (m.y (m.corner f (j + 1)) - y) - (m.y (m.corner f j) - y) * (m.x (m.corner f (j + 1)) - x)

/-- the rational point is strictly inside the face -/
def Mesh.Inside (m : Mesh) (f : Nat) (x y : ℚ) : Prop := ∀ j, j < 3 → m.sideQ f j x y < 0

/-- the rational point is inside the face or on its boundary -/
def Mesh.Within (m : Mesh) (f : Nat) (x y : ℚ) : Prop := ∀ j, j < 3 → m.sideQ f j x y ≤ 0

/-- the faces in use tile the square: they do not overlap, they leave no gaps, and they meet at corners only -/
structure Tiling (m : Mesh) : Prop where
  apart : ∀ f g x y, Used m f → Used m g → m.Inside f x y → m.Inside g x y → f = g
  cover : ∀ x y : ℚ, -32768 ≤ x → x ≤ 32767 → -32768 ≤ y → y ≤ 32767 → ∃ f, Used m f ∧ m.Within f x y
  meet : ∀ f v, Used m f → v < m.size → m.Within f (m.x v) (m.y v) → ∃ j, j < 3 ∧ m.corner f j = v
  used : ∀ v, v < m.size → ∃ f j, Used m f ∧ j < 3 ∧ m.corner f j = v
  once : ∀ v w, v < m.size → w < m.size → m.x v = m.x w → m.y v = m.y w → v = w

/-- the in-circle determinant of the corners of a face and a vertex; negative when the vertex is strictly inside the circle -/
def Mesh.circle (m : Mesh) (f v : Nat) : Int :=
  circleDet (m.x (m.corner f 0)) (m.y (m.corner f 0)) (m.x (m.corner f 1)) (m.y (m.corner f 1)) (m.x (m.corner f 2)) (m.y (m.corner f 2)) (m.x v) (m.y v)

/-- no vertex is strictly inside the circle of a face -/
def Delaunay (m : Mesh) : Prop := ∀ f v, Used m f → v < m.size → 0 ≤ m.circle f v

/-- across every edge that is not constrained, the opposite corner is not strictly inside the circle of the face -/
def LocallyDelaunay (m : Mesh) : Prop :=
  ∀ f j, Used m f → j < 3 → m.c (4 * f + j) = 0 → 0 ≤ m.circle f (m.p (m.e (4 * f + j)))

/-- histories without `insert_edge` and `try_flip` -/
inductive Marked (limit : Nat) : Mesh → Prop
  | reset (m : Mesh) : Marked limit (CE.Cdt.reset m)
  | point {m m' k px py hint r} (h : Marked limit m) (run : insertPoint limit k m px py hint = some (m', r)) : Marked limit m'
  | constrain {m m' k f j} (h : Marked limit m) (u : Used m f) (hj : j < 3) (run : constrainEdge k m (4 * f + j) = some m') : Marked limit m'
  | flip {m m' k f j} (h : Marked limit m) (u : Used m f) (hj : j < 3) (run : flip k m (4 * f + j) = some m') : Marked limit m'
  | fill {m m' k f info} (h : Marked limit m) (u : Used m f) (run : fill k m (4 * f) info = some m') : Marked limit m'

/-- histories without constraints -/
inductive Points (limit : Nat) : Mesh → Prop
  | reset (m : Mesh) : Points limit (CE.Cdt.reset m)
  | point {m m' k px py hint r} (h : Points limit m) (run : insertPoint limit k m px py hint = some (m', r)) : Points limit m'
  | flip {m m' k f j} (h : Points limit m) (u : Used m f) (hj : j < 3) (run : flip k m (4 * f + j) = some m') : Points limit m'
  | fill {m m' k f info} (h : Points limit m) (u : Used m f) (run : fill k m (4 * f) info = some m') : Points limit m'

end CE.Cdt
