import Verif.Spec.Fence
import Verif.Spec.Unique
/-! Visibility in a triangulation with constraints, and the constrained Delaunay property. -/
namespace CE.Cdt

/-- the vertex can be seen from the point: the segment from the point to the vertex, without the vertex itself, does not meet
any constrained edge -/
def Mesh.Visible (m : Mesh) (x y : ℚ) (v : Nat) : Prop :=
  ∀ a b, m.Wall a b → ∀ s t : ℚ, 0 ≤ s → s < 1 → 0 ≤ t → t ≤ 1 →
    ¬ (x + s * (m.x v - x) = m.x a + t * (m.x b - m.x a) ∧ y + s * (m.y v - y) = m.y a + t * (m.y b - m.y a))

/-- no vertex that can be seen from some point inside a face is strictly inside the circle of the face -/
def ConstrainedDelaunay (m : Mesh) : Prop :=
  ∀ f v x y, Used m f → v < m.size → m.Inside f x y → m.Visible x y v → 0 ≤ m.circle f v

/-- there is a constrained edge between the places -/
def Mesh.WallAt (m : Mesh) (p q : Int × Int) : Prop := ∃ a b, m.Wall a b ∧ m.pos a = p ∧ m.pos b = q

/-- no vertex that can be seen from inside a face is on its circle, except its corners -/
def NoFourSeen (m : Mesh) : Prop :=
  ∀ f v x y, Used m f → v < m.size → m.Inside f x y → m.Visible x y v → m.circle f v = 0 → ∃ j, j < 3 ∧ m.corner f j = v

end CE.Cdt
