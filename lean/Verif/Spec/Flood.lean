import Verif.Spec.Fence
import Verif.Spec.Winding
/-! Polygons whose edges are constrained edges of a triangulation. -/
namespace CE.Cdt

open CE.Vec

/-- where the vertex is -/
def Mesh.place (m : Mesh) (v : Nat) : V2 := ⟨m.x v, m.y v⟩

/-- side of a real point with respect to the line from corner `j` of face `f` to the next one -/
def Mesh.sideR (m : Mesh) (f j : Nat) (x y : ℝ) : ℝ :=
  (m.x (m.corner f j) - x) * (m.y (m.corner f (j + 1)) - y) - (m.y (m.corner f j) - y) * (m.x (m.corner f (j + 1)) - x)

/-- the real point is in the face or on its boundary -/
def Mesh.Has (m : Mesh) (f : Nat) (x y : ℝ) : Prop := ∀ j, j < 3 → m.sideR f j x y ≤ 0

/-- the real point is strictly inside the face -/
def Mesh.Core (m : Mesh) (f : Nat) (x y : ℝ) : Prop := ∀ j, j < 3 → m.sideR f j x y < 0

/-- the point is not on the polygon -/
def Off (ps : List V2) (x y : ℝ) : Prop := ∀ e ∈ polyEdges ps, ¬Vec.OnEdge x y e

/-- the polygon consists of constrained edges: each of its points is on one -/
def Mesh.Walled (m : Mesh) (ps : List V2) : Prop :=
  ∀ e ∈ polyEdges ps, ∀ x y : ℝ, Vec.OnEdge x y e → ∃ a b, m.Wall a b ∧ Vec.OnEdge x y (m.place a, m.place b)

/-- the polygon passes along the edge between two vertices exactly once -/
def Mesh.Once (m : Mesh) (ps : List V2) (a b : Nat) : Prop :=
  ∃ pre e post, polyEdges ps = pre ++ e :: post ∧ Vec.OnEdge (m.x a) (m.y a) e ∧ Vec.OnEdge (m.x b) (m.y b) e ∧
    ∀ e' ∈ pre ++ post, ¬Vec.OnEdge ((m.x a + m.x b) / 2) ((m.y a + m.y b) / 2) e'

/-- the constrained edges inside the square are the sides of one closed polygon, whose vertices `v 0`, ..., `v (n - 1)` are
different and not corners of the square -/
structure Mesh.Outline (m : Mesh) (n : Nat) (v : Nat → Nat) : Prop where
  three : 3 ≤ n
  round : v n = v 0
  inj : ∀ j k, j < n → k < n → v j = v k → j = k
  inner : ∀ k, k < n → 4 ≤ v k
  wall : ∀ k, k < n → m.Wall (v k) (v (k + 1))
  only : ∀ f j, Used m f → j < 3 → m.c (4 * f + j) ≠ 0 → m.e (4 * f + j) ≠ 0 → ∃ k, k < n ∧
    ((m.corner f (j + 1) = v k ∧ m.corner f (j + 2) = v (k + 1)) ∨ (m.corner f (j + 1) = v (k + 1) ∧ m.corner f (j + 2) = v k))

/-- the polygon of the outline -/
def Mesh.polygon (m : Mesh) (n : Nat) (v : Nat → Nat) : List V2 := (List.range n).map fun k => m.place (v k)

/-- a closed line of constrained edges -/
def Mesh.Line (m : Mesh) (ps : List V2) : Prop := ∀ e ∈ polyEdges ps, ∃ a b, m.Wall a b ∧ e = (m.place a, m.place b)

end CE.Cdt
