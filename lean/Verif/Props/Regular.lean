import Verif.Proof.CdtRegular
import Verif.Props.Sight
/-! C80 for meshes with constraints: walks end wherever there is a surface over the mesh that bends upwards across the edges. -/
namespace CE.Cdt

open CE.Vec

variable {m : Mesh} {F : Int → Int → ℝ} {limit : Nat}

/-- C80.  A mesh without a vertex in the circle of a face, constraints or not, has such a surface: the flat one. -/
theorem C80_flat (D : Delaunay m) (h : Reach limit m) : m.Upward fun _ _ => 0 := by
  have I := (reach_inv h).1
  intro f j u hj he
  refine Or.inr ⟨?_, D f _ u (I.pl _ (I.pair (u.isE hj) he).ib)⟩
  unfold Mesh.above Mesh.slopeX Mesh.slopeY Mesh.height
  simp

/-- C80.  The walk of `insert_point` takes at most `6 size` steps from any hint to any point, if for some heights the surface over the
mesh bends upwards. -/
theorem C80_upward_walk_partial (h : Reach limit m) (U : m.Upward F) (px py : Int) (hint : Nat) :
    ∃ n, ∀ k, 6 * m.size ≤ k → locateIns k m px py hint = some n :=
  locateIns_total (reach_inv h).1 (Upward.tame (reach_inv h).1 U) px py hint

/-- C80.  Then `insert_point` always ends. -/
theorem C80_upward_insert_partial (h : Reach limit m) (U : m.Upward F) (px py : Int) (hint : Nat) :
    ∃ K r, ∀ k, K ≤ k → insertPoint limit k m px py hint = some r :=
  insertPoint_total (reach_inv h).1 (Upward.tame (reach_inv h).1 U) limit px py hint

/-- C80.  And `locate` finds the face of every point of the square, from any hint, in at most `6 size` steps. -/
theorem C80_upward_locate_partial (h : Reach limit m) (U : m.Upward F) {w px py : Int} (hw : 0 < w) (hw' : w ≤ 32768) (hp : InSquare w ⟨px, py⟩)
    (hint : Nat) : ∃ r, (∀ k, 6 * m.size ≤ k → locate k m w px py hint = some r) ∧ Used m (r / 4) ∧ r % 4 = 3 ∧
      inTriangle ⟨px, py⟩ (m.pt w (m.corner (r / 4) 0)) (m.pt w (m.corner (r / 4) 1)) (m.pt w (m.corner (r / 4) 2)) = some true := by
  obtain ⟨r, hr⟩ := locate_total (reach_inv h).1 (Upward.tame (reach_inv h).1 U) hw hint fun v hv => ⟨_, (C75_fits h hw hw' hp v hv).2⟩
  refine ⟨r, hr, ?_⟩
  rcases C75_locate h hw (hr _ (le_refl _)) with ⟨-, e⟩ | e
  · exact absurd hp e
  · exact e

-- the mesh on which the walk goes around for ever has no such surface
example : Reach 100 spin ∧ ¬ ∃ F, spin.Upward F := by
  refine ⟨spin_reach, ?_⟩
  rintro ⟨F, U⟩
  obtain ⟨n, hn⟩ := C80_upward_walk_partial spin_reach U 0 0 0
  have h8 : spin.size = 13 := by decide +kernel
  have := hn (6 * spin.size) (le_refl _)
  rw [locateIns, h8] at this
  have no : walkFrom spin (fun v => some ⟨spin.x v - 0, spin.y v - 0⟩) (fun a b => some (inn a.x a.y b.x b.y)) true (6 * 13)
      ((if 0 < 24 ∨ 0 ≥ 13 * 8 then 13 * 8 - 4 else 0) / 4 * 4) = none :=
    walkFrom_loops (N := 7) (L := 8) (t := (false, 65, ⟨-6339, -13595⟩, ⟨-1775, 3806⟩)) (by decide +kernel) (by decide +kernel) _
  rw [no] at this
  cases this

/-- for heights that are integers: the sign of `Mesh.above` -/
def Mesh.lift (m : Mesh) (G : Int → Int → Int) (f v : Nat) : Int :=
  let H := fun w => G (m.x w) (m.y w)
  let a := m.p (4 * f)
  let b := m.p (4 * f + 1)
  let c := m.p (4 * f + 2)
  H a * m.cr v b c + H b * m.cr v c a + H c * m.cr v a b - H v * m.cr a b c

theorem lift_above (h : Inv m) {G : Int → Int → Int} {f v} (u : Used m f) (p : 0 < m.lift G f v) : 0 < m.above (fun x y => (G x y : ℝ)) f v := by
  have h0 : IsE m.size (4 * f) := u.isE (j := 0) (by omega)
  have B := base h0 (by omega)
  have c := h.cw _ h0
  rw [B.n0, B.p0] at c
  have d : ((m.cr (m.p (4 * f)) (m.p (4 * f + 1)) (m.p (4 * f + 2)) : ℤ) : ℝ) < 0 := by exact_mod_cast c
  have q : (0 : ℝ) < (m.lift G f v : ℤ) := by exact_mod_cast p
  rw [above_tilt h u (j := 0) (by omega), sub_pos]
  unfold Mesh.tilt
  simp only [Nat.add_zero]
  rw [B.n0, B.p0, div_lt_iff_of_neg d]
  unfold Mesh.lift at q
  unfold Mesh.height Mesh.crQ
  unfold Mesh.cr at q ⊢
  push_cast at q ⊢
  linarith

/-- a valley along the diagonal -/
def valley (x y : Int) : Int := x * x + y * y + 100000 * |x + y + 1|

-- a constrained edge that is not Delaunay, and heights with which the surface bends upwards
example : Marked 100 tied2 ∧ ¬ Delaunay tied2 ∧ tied2.Upward (fun x y => (valley x y : ℝ)) ∧
    (∀ hint px py, ∃ n, ∀ k, 36 ≤ k → locateIns k tied2 px py hint = some n) := by
  have hz : tied2.size = 6 := by decide +kernel
  have I := (reach_inv tied2_marked.reach).1
  have U : tied2.Upward (fun x y => (valley x y : ℝ)) := by
    intro f j u hj he
    have all : ∀ f, f < 12 → ∀ j, j < 3 → 6 ≤ f → tied2.e (4 * f + j) ≠ 0 → 0 < tied2.lift valley f (tied2.p (tied2.e (4 * f + j))) := by decide +kernel
    refine Or.inl (lift_above I u (all f ?_ j hj u.1 he))
    have := u.2
    rw [hz] at this
    omega
  refine ⟨tied2_marked, fun D => ?_, U, fun hint px py => ?_⟩
  · have no : ¬ ∀ f, f < 12 → 6 ≤ f → ∀ v, v < 6 → 0 ≤ tied2.circle f v := by decide +kernel
    exact no fun f h1 h2 v hv => D f v (by unfold Used; exact ⟨h2, by rw [hz]; omega⟩) (by rw [hz]; exact hv)
  · obtain ⟨n, hn⟩ := C80_upward_walk_partial tied2_marked.reach U px py hint
    rw [hz] at hn
    exact ⟨n, hn⟩

end CE.Cdt
