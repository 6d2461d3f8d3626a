import Verif.Props.Delaunay
import Verif.Proof.Near
/-! C122: what an application gets from the triangulation of points: nearest vertices, spanning trees, short paths. -/
namespace CE.Cdt

variable {m : Mesh} {limit : Nat}

/-- C122.  In a triangulation of points two vertices for which some circle goes through both, with all other vertices strictly
outside, are joined by an edge. -/
theorem C122_circle (h : Points limit m) {u v} (hu : u < m.size) (hv : v < m.size) (ne : u ≠ v) {cx cy : ℝ}
    (on : m.from2 cx cy u = m.from2 cx cy v) (out : ∀ w, w < m.size → w ≠ u → w ≠ v → m.from2 cx cy u < m.from2 cx cy w) :
    m.Joined u v :=
  joined_of_circle (C81_tiling h.marked.reach) (C72_clockwise h.marked.reach).2 (C72_clockwise h.marked.reach).1
    (C71_linked h.marked.reach) (C79_delaunay h) hu hv ne on out

/-- C122.  Only vertices on a common circle with no vertex strictly inside are joined. -/
theorem C122_only (h : Points limit m) {u v} (j : m.Joined u v) :
    ∃ cx cy : ℝ, m.from2 cx cy u = m.from2 cx cy v ∧ ∀ w, w < m.size → m.from2 cx cy u ≤ m.from2 cx cy w :=
  circle_of_joined (C72_clockwise h.marked.reach).1 (C79_delaunay h) j

/-- C122.  Vertices with no other vertex in the disc over them are joined. -/
theorem C122_diameter (h : Points limit m) {u v} (hu : u < m.size) (hv : v < m.size) (ne : u ≠ v)
    (out : ∀ w, w < m.size → w ≠ u → w ≠ v → m.dist2 u v < m.dist2 u w + m.dist2 w v) : m.Joined u v :=
  joined_of_diameter (C81_tiling h.marked.reach) (C72_clockwise h.marked.reach).2 (C72_clockwise h.marked.reach).1
    (C71_linked h.marked.reach) (C79_delaunay h) hu hv ne out

/-- C122.  Whichever way the vertices are split in two, each shortest connection across the split is an edge: the edges
contain every minimum spanning tree. -/
theorem C122_cut (h : Points limit m) (S : Nat → Prop) {u v} (hu : u < m.size) (hv : v < m.size) (inS : S u) (notS : ¬ S v)
    (least : ∀ a b, a < m.size → b < m.size → S a → ¬ S b → m.dist2 u v ≤ m.dist2 a b) : m.Joined u v := by
  have T := C81_tiling h.marked.reach
  have ne : u ≠ v := by rintro rfl; exact notS inS
  refine C122_diameter h hu hv ne fun w hw wu wv => ?_
  have p1 := dist2_pos T hu hw wu.symm
  have p2 := dist2_pos T hw hv wv
  by_cases s : S w
  · have := least w v hw hv s notS
    omega
  · have := least u w hu hw inS s
    omega

/-- C122.  Every vertex is joined to each of the vertices nearest to it. -/
theorem C122_nearest (h : Points limit m) {u v} (hu : u < m.size) (hv : v < m.size) (ne : u ≠ v)
    (least : ∀ w, w < m.size → w ≠ u → m.dist2 u v ≤ m.dist2 u w) : m.Joined u v :=
  C122_cut h (· = u) hu hv rfl ne.symm fun a b _ hb ea nb => by subst ea; exact least b hb nb

/-- C122.  From every vertex to every other vertex there is a path along edges such that the squares of the lengths of
the edges add up to at most the square of the distance. -/
theorem C122_path (h : Points limit m) {u v} (hu : u < m.size) (hv : v < m.size) : ∃ d, d ≤ m.dist2 u v ∧ m.Path u v d :=
  path_of (C81_tiling h.marked.reach) (C72_clockwise h.marked.reach).2 (C72_clockwise h.marked.reach).1
    (C71_linked h.marked.reach) (C79_delaunay h) (m.dist2 u v).toNat hu hv (Int.self_le_toNat _)

/-- C122.  A vertex that is not nearest to a point of the plane is joined to a vertex that is strictly nearer: going from vertex to
vertex along edges, nearer each time, ends at a nearest vertex only. -/
theorem C122_greedy (h : Points limit m) {u} (hu : u < m.size) (qx qy : ℝ) :
    (∀ w, w < m.size → m.Joined u w → m.from2 qx qy u ≤ m.from2 qx qy w) ↔ ∀ v, v < m.size → m.from2 qx qy u ≤ m.from2 qx qy v := by
  refine ⟨fun no v hv => ?_, fun a w hw _ => a w hw⟩
  by_contra lt
  obtain ⟨w, hw, j, c⟩ := nearer (C81_tiling h.marked.reach) (C72_clockwise h.marked.reach).2 (C72_clockwise h.marked.reach).1
    (C71_linked h.marked.reach) (C79_delaunay h) hu hv (not_le.1 lt)
  exact absurd (no w hw j) (not_le.2 c)

-- vertex 5 is the one nearest to vertex 6
example : Points 100 pts3 ∧ pts3.size = 7 ∧ (∀ w, w < 7 → w ≠ 6 → pts3.dist2 6 5 ≤ pts3.dist2 6 w) ∧ pts3.dist2 6 5 = 260000000 ∧
    pts3.dist2 6 4 = 1189000000 :=
  ⟨pts3_points, by decide +kernel, by decide +kernel, by decide +kernel, by decide +kernel⟩
-- vertices that are not joined
example : ¬ pts3.Joined 0 3 := by
  rintro ⟨f, j, u, hj, h⟩
  obtain ⟨u1, u2⟩ := u
  have s : pts3.size = 7 := by decide +kernel
  rw [s] at u2
  have : ∀ f, f < 14 → ∀ j, j < 3 → 6 ≤ f → ¬ ((pts3.corner f j = 0 ∧ pts3.corner f (j + 1) = 3) ∨ (pts3.corner f j = 3 ∧ pts3.corner f (j + 1) = 0)) := by
    decide +kernel
  exact this f u2 j hj u1 h

end CE.Cdt
