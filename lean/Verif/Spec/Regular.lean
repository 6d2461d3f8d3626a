import Verif.Spec.Rough
/-! Meshes over which there is a surface that bends upwards across the edges (regular triangulations). -/
namespace CE.Cdt

/-- how far the height at a vertex is above the plane of a face -/
noncomputable def Mesh.above (m : Mesh) (F : Int → Int → ℝ) (f v : Nat) : ℝ :=
  m.height F v - (m.height F (m.corner f 0) + m.slopeX F f * (m.x v - m.x (m.corner f 0)) + m.slopeY F f * (m.y v - m.y (m.corner f 0)))

/-- with these heights the surface bends upwards across every edge or, where it is flat, the opposite corner is not inside the circle -/
def Mesh.Upward (m : Mesh) (F : Int → Int → ℝ) : Prop :=
  ∀ f j, Used m f → j < 3 → m.e (4 * f + j) ≠ 0 → 0 < m.above F f (m.p (m.e (4 * f + j))) ∨
    (m.above F f (m.p (m.e (4 * f + j))) = 0 ∧ 0 ≤ m.circle f (m.p (m.e (4 * f + j))))

end CE.Cdt
