import Verif.Spec.Delaunay
/-! Faces at a vertex. -/
namespace CE.Cdt

/-- the number of faces in use that have the vertex as a corner -/
def Mesh.fan (m : Mesh) (v : Nat) : Nat :=
  ((List.range (2 * m.size)).filter fun f => 6 ≤ f ∧ (m.corner f 0 = v ∨ m.corner f 1 = v ∨ m.corner f 2 = v)).length

end CE.Cdt
