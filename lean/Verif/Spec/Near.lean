import Verif.Spec.Delaunay
import Mathlib.Data.Real.Basic
/-! Edges of a triangulation, distances, and paths along the edges. -/
namespace CE.Cdt

/-- some face in use has an edge between the two vertices -/
def Mesh.Joined (m : Mesh) (u v : Nat) : Prop :=
  ∃ f j, Used m f ∧ j < 3 ∧ ((m.corner f j = u ∧ m.corner f (j + 1) = v) ∨ (m.corner f j = v ∧ m.corner f (j + 1) = u))

/-- squared distance of two vertices -/
def Mesh.dist2 (m : Mesh) (u v : Nat) : Int := (m.x u - m.x v) ^ 2 + (m.y u - m.y v) ^ 2

/-- squared distance of a vertex from a point of the plane -/
def Mesh.from2 (m : Mesh) (cx cy : ℝ) (v : Nat) : ℝ := (m.x v - cx) ^ 2 + (m.y v - cy) ^ 2

/-- `d` is the sum of the squared lengths of the edges of a path along edges from `u` to `v` -/
inductive Mesh.Path (m : Mesh) : Nat → Nat → Int → Prop
  | here (u : Nat) : m.Path u u 0
  | step {u v w d} (h : m.Path u v d) (j : m.Joined v w) : m.Path u w (d + m.dist2 v w)

end CE.Cdt
