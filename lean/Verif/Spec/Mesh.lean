import Verif.Spec.Vec
import Verif.Spec.Winding
import Mathlib.Data.Multiset.Basic
/-! Triangle meshes in the plane. -/
namespace CE.Vec

/-- triangle of a mesh -/
structure Tri where
  a : V2
  b : V2
  c : V2

/-- directed edges -/
def Tri.edges (T : Tri) : List (V2 × V2) := [(T.a, T.b), (T.b, T.c), (T.c, T.a)]

/-- which side of the directed edge the rational point is on: negative on the right -/
def side (x y : ℚ) (e : V2 × V2) : ℚ := crossQ (e.1.x - x) (e.1.y - y) (e.2.x - x) (e.2.y - y)

/-- the point is strictly inside the clockwise triangle -/
def Tri.Interior (T : Tri) (x y : ℚ) : Prop := ∀ e ∈ T.edges, side x y e < 0

/-- the point is inside the clockwise triangle or on its boundary -/
def Tri.Closed (T : Tri) (x y : ℚ) : Prop := ∀ e ∈ T.edges, side x y e ≤ 0

/-- clockwise and not degenerate -/
def Tri.Clockwise (T : Tri) : Prop :=
  (T.b.x - T.a.x) * (T.c.y - T.a.y) - (T.b.y - T.a.y) * (T.c.x - T.a.x) < 0

/-- no two triangles of the mesh overlap -/
def Planar (Ts : List Tri) : Prop := Ts.Pairwise fun S T => ∀ x y, ¬(S.Interior x y ∧ T.Interior x y)

/-- a neighbourhood of the point is covered by the triangles -/
def CoversNear (Ts : List Tri) (p : V2) : Prop :=
  ∃ η > (0 : ℚ), ∀ x y : ℚ, |x - p.x| < η → |y - p.y| < η → ∃ T ∈ Ts, T.Closed x y

/-- the directed edges of the triangles are those of the boundary and interior edges, each of which
occurs in both directions -/
def IsBoundary (Ts : List Tri) (Bd : Multiset (V2 × V2)) : Prop :=
  ∃ I : Multiset (V2 × V2), I.map Prod.swap = I ∧ ((Ts.flatMap Tri.edges : List _) : Multiset _) = Bd + I

end CE.Vec
