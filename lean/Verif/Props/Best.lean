import Verif.Props.Interpolate
import Verif.Props.Sight
import Verif.Proof.Best
/-! C126, C127: of all triangulations of the same points the library's has the largest smallest angle, and the smallest
largest circle around a triangle. -/
namespace CE.Cdt
open CE.Vec

variable {m m' : Mesh} {limit limit' : Nat} {Ts : List Tri}

theorem tri_interior {f : Nat} {x y : ℚ} : (m.faceTri f).Interior x y ↔ m.Inside f x y := by
  rw [Tri.interior_iff]
  constructor
  · rintro ⟨h0, h1, h2⟩ j hj
    have : j = 0 ∨ j = 1 ∨ j = 2 := by omega
    rcases this with rfl | rfl | rfl
    · exact h0
    · exact h1
    · exact h2
  · intro h
    exact ⟨h 0 (by omega), h 1 (by omega), h 2 (by omega)⟩

theorem tri_closed {f : Nat} {x y : ℚ} : (m.faceTri f).Closed x y ↔ m.Within f x y := by
  rw [Tri.closed_iff]
  constructor
  · rintro ⟨h0, h1, h2⟩ j hj
    have : j = 0 ∨ j = 1 ∨ j = 2 := by omega
    rcases this with rfl | rfl | rfl
    · exact h0
    · exact h1
    · exact h2
  · intro h
    exact ⟨h 0 (by omega), h 1 (by omega), h 2 (by omega)⟩

/-- the points of a face are points of the square -/
theorem tri_square (h : Reach limit m) {f} (u : Used m f) {x y : ℚ} (hc : m.Within f x y) :
    (-32768 ≤ x ∧ x ≤ 32767) ∧ -32768 ≤ y ∧ y ≤ 32767 := by
  obtain ⟨l, a⟩ := average_of_within (C72_clockwise h).1 u hc
  have rng := fun j => (C72_clockwise h).2 _ ((C71_linked h).vertex f j u)
  have one := a.one
  have atX := a.atX
  have atY := a.atY
  have n0 := a.nonneg 0 (by simp)
  have n1 := a.nonneg 1 (by simp)
  have n2 := a.nonneg 2 (by simp)
  simp only [Finset.sum_range_succ, Finset.sum_range_zero, zero_add] at one atX atY
  have r : ∀ j, ((-32768 ≤ (m.x (m.corner f j) : ℝ)) ∧ (m.x (m.corner f j) : ℝ) ≤ 32767) ∧
      (-32768 ≤ (m.y (m.corner f j) : ℝ)) ∧ (m.y (m.corner f j) : ℝ) ≤ 32767 := fun j => by exact_mod_cast rng j
  have a0 := r 0
  have a1 := r 1
  have a2 := r 2
  have X : (-32768 ≤ (x : ℝ)) ∧ (x : ℝ) ≤ 32767 := by constructor <;> nlinarith
  have Y : (-32768 ≤ (y : ℝ)) ∧ (y : ℝ) ≤ 32767 := by constructor <;> nlinarith
  exact_mod_cast And.intro X Y

/-- a corner of a triangle that has points inside a face can be seen from there -/
theorem Respects.sees (R : m.Respects Ts) {T} (hT : T ∈ Ts) {x y : ℚ} (hin : T.Interior x y) {v : Nat} (hc : T.Closed (m.x v) (m.y v)) :
    m.Visible x y v := by
  intro a b w s t s0 s1 t0 t1 hp
  refine R T hT a b w t t0 t1 ?_
  rw [← hp.1, ← hp.2]
  have := hc.mix hin (t := 1 - s) (by linarith) (by linarith)
  rw [show ∀ z z' : ℚ, z + s * (z' - z) = z' + (1 - s) * (z - z') from fun z z' => by ring,
    show ∀ z z' : ℚ, z + s * (z' - z) = z' + (1 - s) * (z - z') from fun z z' => by ring]
  exact this

theorem corner_closed {T : Tri} (cw : T.Clockwise) {p : V2} (hp : p ∈ [T.a, T.b, T.c]) : T.Closed p.x p.y := by
  have cw : triArea T.a T.b T.c < 0 := cw
  have z1 : ∀ p q : V2, triArea p p q = 0 := fun p q => by unfold triArea; ring
  have z2 : ∀ p q : V2, triArea p q p = 0 := fun p q => by unfold triArea; ring
  rw [Tri.closed_iff, side_at, side_at, side_at]
  norm_cast
  simp only [List.mem_cons, List.not_mem_nil, or_false] at hp
  rcases hp with rfl | rfl | rfl
  · exact ⟨(z1 _ _).le, cw.le, (z2 _ _).le⟩
  · exact ⟨(z2 _ _).le, (z1 _ _).le, by unfold triArea at *; linarith⟩
  · exact ⟨by unfold triArea at *; linarith, (z2 _ _).le, (z1 _ _).le⟩

/-- no corner of a triangle that has points inside a face is inside the circle of the face -/
def Outside (m : Mesh) (Ts : List Tri) : Prop :=
  ∀ f, Used m f → ∀ T ∈ Ts, (∃ x y, (m.faceTri f).Interior x y ∧ T.Interior x y) → ∀ p ∈ [T.a, T.b, T.c],
    0 ≤ circleDet (m.faceTri f).a.x (m.faceTri f).a.y (m.faceTri f).b.x (m.faceTri f).b.y (m.faceTri f).c.x (m.faceTri f).c.y p.x p.y

theorem outside_points (h : Points limit m) (D : m.Division Ts) : Outside m Ts := by
  intro f u T hT _ p hp
  obtain ⟨v, hv, ex, ey⟩ := D.corners T hT p hp
  have := C79_delaunay h f v u hv
  unfold Mesh.circle at this
  rw [ex, ey] at this
  exact this

theorem outside_local (h : Reach limit m) (L : LocallyDelaunay m) (D : m.Division Ts) (R : m.Respects Ts) : Outside m Ts := by
  rintro f u T hT ⟨x, y, hf, hi⟩ p hp
  obtain ⟨v, hv, ex, ey⟩ := D.corners T hT p hp
  have c := corner_closed (D.clockwise T hT) hp
  rw [← ex, ← ey] at c
  have := (C111_local h).2 L f v x y u hv (tri_interior.1 hf) (Respects.sees R hT hi c)
  unfold Mesh.circle at this
  rw [ex, ey] at this
  exact this

theorem division_cover (h : Reach limit m) (D : m.Division Ts) {f} (u : Used m f) {x y : ℚ} (hc : (m.faceTri f).Closed x y) : ∃ T ∈ Ts, T.Closed x y := by
  obtain ⟨hx, hy⟩ := tri_square h u (tri_closed.1 hc)
  exact D.cover x y hx.1 hx.2 hy.1 hy.2

theorem outside_angle (h : Reach limit m) (D : m.Division Ts) (O : Outside m Ts) {f} (u : Used m f) {θ : ℝ} (hθ : θ ∈ (m.faceTri f).angles) :
    ∃ T ∈ Ts, ∃ φ ∈ T.angles, φ ≤ θ := by
  have cw : triArea (m.faceTri f).a (m.faceTri f).b (m.faceTri f).c < 0 := (C72_clockwise h).1 f u
  have V := fun j => (C71_linked h).vertex f j u
  have meet : ∀ p ∈ [(m.faceTri f).a, (m.faceTri f).b, (m.faceTri f).c], ∀ T ∈ Ts, T.Closed p.x p.y → p ∈ [T.a, T.b, T.c] := by
    intro p hp T hT hc
    simp only [Mesh.faceTri, List.mem_cons, List.not_mem_nil, or_false] at hp
    rcases hp with rfl | rfl | rfl <;> exact D.meet T hT _ (V _) hc
  have cov := fun x y (hc : (m.faceTri f).Closed x y) => division_cover h D u hc
  have o := O f u
  unfold Tri.angles at hθ
  generalize m.faceTri f = S at *
  have det1 : ∀ p : V2, circleDet S.b.x S.b.y S.c.x S.c.y S.a.x S.a.y p.x p.y = circleDet S.a.x S.a.y S.b.x S.b.y S.c.x S.c.y p.x p.y :=
    fun p => by unfold circleDet; ring
  have det2 : ∀ p : V2, circleDet S.c.x S.c.y S.a.x S.a.y S.b.x S.b.y p.x p.y = circleDet S.a.x S.a.y S.b.x S.b.y S.c.x S.c.y p.x p.y :=
    fun p => by unfold circleDet; ring
  simp only [Set.mem_insert_iff, Set.mem_singleton_iff] at hθ
  rcases hθ with rfl | rfl | rfl
  · refine best_angle (a := S.c) (b := S.a) (c := S.b) (by unfold Tri.Clockwise; unfold triArea at cw; linarith) D.clockwise ?_ ?_ ?_
    · intro x y hc
      rw [Tri.closed_iff] at hc
      exact cov x y (Tri.closed_iff.2 ⟨hc.2.1, hc.2.2, hc.1⟩)
    · intro T hT p hp
      exact meet p (by simp only [List.mem_cons, List.not_mem_nil, or_false] at *; tauto) T hT
    · rintro T hT ⟨x, y, hi, hi'⟩ p hp
      rw [Tri.interior_iff] at hi
      rw [det2]
      exact o T hT ⟨x, y, Tri.interior_iff.2 ⟨hi.2.1, hi.2.2, hi.1⟩, hi'⟩ p hp
  · refine best_angle (a := S.a) (b := S.b) (c := S.c) cw D.clockwise ?_ ?_ ?_
    · intro x y hc
      exact cov x y hc
    · intro T hT p hp
      exact meet p (by simp only [List.mem_cons, List.not_mem_nil, or_false] at *; tauto) T hT
    · exact o
  · refine best_angle (a := S.b) (b := S.c) (c := S.a) (by unfold Tri.Clockwise; unfold triArea at cw; linarith) D.clockwise ?_ ?_ ?_
    · intro x y hc
      rw [Tri.closed_iff] at hc
      exact cov x y (Tri.closed_iff.2 ⟨hc.2.2, hc.1, hc.2.1⟩)
    · intro T hT p hp
      exact meet p (by simp only [List.mem_cons, List.not_mem_nil, or_false] at *; tauto) T hT
    · rintro T hT ⟨x, y, hi, hi'⟩ p hp
      rw [Tri.interior_iff] at hi
      rw [det1]
      exact o T hT ⟨x, y, Tri.interior_iff.2 ⟨hi.2.2, hi.1, hi.2.1⟩, hi'⟩ p hp

theorem outside_circle (h : Reach limit m) (D : m.Division Ts) (O : Outside m Ts) {f} (u : Used m f) :
    ∃ T ∈ Ts, ∃ x y : ℝ, ∀ u v r, T.In u v r → (m.faceTri f).In x y r :=
  best_circle ((C72_clockwise h).1 f u) D.clockwise (fun _ _ hc => division_cover h D u hc) (O f u)

/-- the faces in use -/
def Mesh.faceTris (m : Mesh) : List Tri := ((List.range (2 * m.size)).filter (6 ≤ ·)).map m.faceTri

theorem mem_faceTris {T : Tri} : T ∈ m.faceTris ↔ ∃ f, Used m f ∧ T = m.faceTri f := by
  unfold Mesh.faceTris Used
  simp only [List.mem_map, List.mem_filter, List.mem_range, decide_eq_true_eq]
  constructor
  · rintro ⟨f, ⟨h1, h2⟩, rfl⟩; exact ⟨f, ⟨h2, h1⟩, rfl⟩
  · rintro ⟨f, ⟨h1, h2⟩, rfl⟩; exact ⟨f, ⟨h2, h1⟩, rfl⟩

/-- C126.  The faces of any mesh with vertices at the same places, whatever its history, are such a triangulation. -/
theorem C126_meshes (h' : Reach limit' m') (same : ∀ px py, m.Vertex px py ↔ m'.Vertex px py) : m.Division m'.faceTris := by
  have V := fun f j (u : Used m' f) => (C71_linked h').vertex f j u
  refine ⟨?_, ?_, ?_, ?_⟩
  · intro T hT
    obtain ⟨f, u, rfl⟩ := mem_faceTris.1 hT
    exact (C72_clockwise h').1 f u
  · intro T hT p hp
    obtain ⟨f, u, rfl⟩ := mem_faceTris.1 hT
    rw [same]
    simp only [Mesh.faceTri, List.mem_cons, List.not_mem_nil, or_false] at hp
    rcases hp with rfl | rfl | rfl <;> exact Vertex.at' (V f _ u)
  · intro x y h1 h2 h3 h4
    obtain ⟨f, u, w⟩ := (C81_tiling h').cover x y h1 h2 h3 h4
    exact ⟨_, mem_faceTris.2 ⟨f, u, rfl⟩, tri_closed.2 w⟩
  · intro T hT v hv hc
    obtain ⟨f, u, rfl⟩ := mem_faceTris.1 hT
    obtain ⟨w, hw, ex, ey⟩ := (same _ _).1 (Vertex.at' hv)
    rw [← ex, ← ey] at hc
    obtain ⟨j, hj, e⟩ := (C81_tiling h').meet f w u hw (tri_closed.1 hc)
    have e' : m.place v = m'.place (m'.corner f j) := by unfold Mesh.place; rw [e, ex, ey]
    have : j = 0 ∨ j = 1 ∨ j = 2 := by omega
    rw [e']
    rcases this with rfl | rfl | rfl <;> simp [Mesh.faceTri]

/-- C126.  If it has the constrained edges of the other one, it respects them. -/
theorem C126_walls (h' : Reach limit' m') (walls : ∀ p q, m.WallAt p q → m'.WallAt p q) : m.Respects m'.faceTris := by
  intro T hT a b w t t0 t1 hi
  obtain ⟨f, u, rfl⟩ := mem_faceTris.1 hT
  obtain ⟨a', b', w', ea, eb⟩ := walls _ _ ⟨a, b, w, rfl, rfl⟩
  obtain ⟨I, R⟩ := reach_inv h'
  refine wall_out I R (u.isE (j := 0) (by omega)) w' t0 t1 ?_
  unfold Mesh.pos at ea eb
  rw [Prod.mk.injEq] at ea eb
  rw [ea.1, ea.2, eb.1, eb.2]
  exact (inside_open u).1 (tri_interior.1 hi)

/-- C126.  A mesh made from points has the largest smallest angle of all triangulations of these points: whatever angle one of its faces
has, every other triangulation has one that is not larger. -/
theorem C126_smallest_angle (h : Points limit m) (D : m.Division Ts) {f} (u : Used m f) {θ : ℝ} (hθ : θ ∈ (m.faceTri f).angles) :
    ∃ T ∈ Ts, ∃ φ ∈ T.angles, φ ≤ θ :=
  outside_angle h.marked.reach D (outside_points h D) u hθ

/-- C126.  With constraints: of all triangulations whose triangles no constrained edge goes through, provided that the mesh is locally
Delaunay, as it is after every history without `insert_edge` and `try_flip`. -/
theorem C126_constrained (h : Reach limit m) (L : LocallyDelaunay m) (D : m.Division Ts) (R : m.Respects Ts) {f} (u : Used m f) {θ : ℝ}
    (hθ : θ ∈ (m.faceTri f).angles) : ∃ T ∈ Ts, ∃ φ ∈ T.angles, φ ≤ θ :=
  outside_angle h D (outside_local h L D R) u hθ

-- the mesh of three points and another triangulation of these, in which one edge has been turned
/-- the mesh of three points with one edge turned -/
def pts3t : Mesh := ((pts3.tryFlip (4 * 7 + 1)).get (by decide +kernel)).1

theorem pts3t_reach : Reach 100 pts3t := by
  refine .tryFlip (f := 7) (j := 1) (d := ((pts3.tryFlip (4 * 7 + 1)).get (by decide +kernel)).2) pts3_points.marked.reach (by unfold Used; decide +kernel)
    (by omega) ?_
  unfold pts3t
  simp

theorem pts3t_same : ∀ px py, pts3.Vertex px py ↔ pts3t.Vertex px py := by
  have e : ∀ v, v < 7 → pts3t.x v = pts3.x v ∧ pts3t.y v = pts3.y v := by decide +kernel
  have s : pts3.size = 7 := by decide +kernel
  have s' : pts3t.size = 7 := by decide +kernel
  intro px py
  unfold Mesh.Vertex
  rw [s, s']
  constructor <;> rintro ⟨v, hv, h1, h2⟩ <;> have := e v hv <;> exact ⟨v, hv, by omega, by omega⟩

example : Points 100 pts3 ∧ pts3.Division pts3t.faceTris ∧ Used pts3 7 ∧ ∃ j < 3, pts3t.corner 7 j ≠ pts3.corner 7 j :=
  ⟨pts3_points, C126_meshes pts3t_reach pts3t_same, by unfold Used; decide +kernel, by decide +kernel⟩

-- a mesh with a constrained edge that is not Delaunay
example : LocallyDelaunay tied2 ∧ tied2.Division tied2.faceTris ∧ tied2.Respects tied2.faceTris ∧ Used tied2 8 ∧
    tied2.WallAt (-32768, 32767) (32767, -32768) := by
  have h := tied2_marked
  refine ⟨C79_locally_delaunay_partial h, C126_meshes h.reach fun _ _ => Iff.rfl, C126_walls h.reach fun _ _ w => w,
    by unfold Used; decide +kernel, ?_⟩
  rw [wallAt_iff]
  decide +kernel

/-- C127.  A mesh made from points has, of all triangulations of these points, the smallest largest circle around a triangle: whatever face it
has, every other triangulation has a triangle such that every circle that contains it is at least as large as one around the face. -/
theorem C127_largest_circle (h : Points limit m) (D : m.Division Ts) {f} (u : Used m f) :
    ∃ T ∈ Ts, ∃ x y : ℝ, ∀ a b r, T.In a b r → (m.faceTri f).In x y r :=
  outside_circle h.marked.reach D (outside_points h D) u

/-- C127.  With constraints, as in C126. -/
theorem C127_constrained (h : Reach limit m) (L : LocallyDelaunay m) (D : m.Division Ts) (R : m.Respects Ts) {f} (u : Used m f) :
    ∃ T ∈ Ts, ∃ x y : ℝ, ∀ a b r, T.In a b r → (m.faceTri f).In x y r :=
  outside_circle h D (outside_local h L D R) u

-- a circle around a face and around a triangle of another triangulation
example : ∃ x y : ℝ, ∃ T ∈ pts3t.faceTris, ∀ a b r, T.In a b r → (pts3.faceTri 7).In x y r := by
  obtain ⟨T, hT, x, y, h⟩ := C127_largest_circle pts3_points (C126_meshes pts3t_reach pts3t_same) (f := 7) (by unfold Used; decide +kernel)
  exact ⟨x, y, T, hT, h⟩

end CE.Cdt
