import Verif.Spec.Interpolate
import Verif.Spec.Flood
import Verif.Spec.Sight
import Verif.Spec.Mesh
/-! Other triangulations of the same points, their angles and the circles around their triangles. -/
namespace CE.Vec

/-- the angle at `b` between `a` and `c` -/
noncomputable def angleAt (a b c : V2) : ℝ :=
  Real.arccos ((((a.x - b.x) * (c.x - b.x) + (a.y - b.y) * (c.y - b.y) : ℤ) : ℝ) /
    √((((a.x - b.x) ^ 2 + (a.y - b.y) ^ 2) * ((c.x - b.x) ^ 2 + (c.y - b.y) ^ 2) : ℤ) : ℝ))

/-- the three angles of a triangle -/
def Tri.angles (T : Tri) : Set ℝ := {angleAt T.a T.b T.c, angleAt T.b T.c T.a, angleAt T.c T.a T.b}

/-- the circle around `(x, y)` whose radius squared is `r` contains the triangle -/
def Tri.In (T : Tri) (x y r : ℝ) : Prop := ∀ p ∈ [T.a, T.b, T.c], (p.x - x) ^ 2 + (p.y - y) ^ 2 ≤ r

end CE.Vec

namespace CE.Cdt
open CE.Vec

/-- the face as a triangle -/
def Mesh.faceTri (m : Mesh) (f : Nat) : Tri := ⟨m.place (m.corner f 0), m.place (m.corner f 1), m.place (m.corner f 2)⟩

/-- triangles between the vertices of the mesh that cover the square and meet vertices at their corners only: any triangulation
of the vertices, not only those the library makes (the triangles might even overlap) -/
structure Mesh.Division (m : Mesh) (Ts : List Tri) : Prop where
  clockwise : ∀ T ∈ Ts, T.Clockwise
  corners : ∀ T ∈ Ts, ∀ p ∈ [T.a, T.b, T.c], m.Vertex p.x p.y
  cover : ∀ x y : ℚ, -32768 ≤ x → x ≤ 32767 → -32768 ≤ y → y ≤ 32767 → ∃ T ∈ Ts, T.Closed x y
  meet : ∀ T ∈ Ts, ∀ v, v < m.size → T.Closed (m.x v) (m.y v) → m.place v ∈ [T.a, T.b, T.c]

/-- no constrained edge goes through the inside of a triangle -/
def Mesh.Respects (m : Mesh) (Ts : List Tri) : Prop :=
  ∀ T ∈ Ts, ∀ a b, m.Wall a b → ∀ t : ℚ, 0 ≤ t → t ≤ 1 → ¬ T.Interior (m.x a + t * (m.x b - m.x a)) (m.y a + t * (m.y b - m.y a))

end CE.Cdt
