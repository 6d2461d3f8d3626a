import Verif.Model.Vec
import Mathlib.Analysis.SpecialFunctions.Complex.Arg
/-! Winding numbers as sums of angles. -/
namespace CE.Vec

open Complex

/-- vector from the point `(x, y)` to the vertex `v`, as a complex number -/
noncomputable def toward (x y : ℝ) (v : V2) : ℂ := ⟨v.x - x, v.y - y⟩

/-- signed angle, in (-π, π], under which the directed edge from `u` to `v` is seen from `(x, y)` -/
noncomputable def seenAngle (x y : ℝ) (e : V2 × V2) : ℝ := arg (toward x y e.2 / toward x y e.1)

/-- consecutive pairs, starting from `u` -/
def edgesFrom (u : V2) : List V2 → List (V2 × V2)
  | [] => []
  | v :: vs => (u, v) :: edgesFrom v vs

/-- directed edges of the closed polygon -/
def polyEdges (ps : List V2) : List (V2 × V2) :=
  match ps.getLast? with
  | none => []
  | some v => edgesFrom v ps

/-- the point is on the segment -/
def OnEdge (x y : ℝ) (e : V2 × V2) : Prop :=
  ∃ t : ℝ, 0 ≤ t ∧ t ≤ 1 ∧ x = e.1.x + t * (e.2.x - e.1.x) ∧ y = e.1.y + t * (e.2.y - e.1.y)

/-- angle swept by the closed polygon as seen from the point: 2π times its winding number -/
noncomputable def swept (x y : ℝ) (es : List (V2 × V2)) : ℝ := (es.map (seenAngle x y)).sum

end CE.Vec
