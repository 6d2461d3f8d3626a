import Verif.Props.Unique
import Verif.Props.Fence
import Verif.Proof.CdtSight
/-! C111: with constraints the triangulation is constrained Delaunay, and it depends on the vertices and constraints only. -/
namespace CE.Cdt

variable {m m' : Mesh} {limit limit' : Nat}

theorem legal_iff : LocallyDelaunay m ↔ Legal m := by
  constructor
  · intro h i hi hc
    obtain ⟨f, j, u, hj, rfl⟩ : ∃ f j, Used m f ∧ j < 3 ∧ i = 4 * f + j :=
      ⟨i / 4, i % 4, by unfold IsE at hi; unfold Used; omega, by unfold IsE at hi; omega, by omega⟩
    have := h f j u hj hc
    rwa [circle_dt u hj] at this
  · intro h f j u hj hc
    rw [circle_dt u hj]
    exact h _ (u.isE hj) hc

/-- C111.  When no unconstrained edge has the opposite corner inside the circle, then no vertex that can be seen from inside a
face, past the constrained edges, is inside its circle; and the other way round. -/
theorem C111_local (h : Reach limit m) : ConstrainedDelaunay m ↔ LocallyDelaunay m := by
  obtain ⟨I, R⟩ := reach_inv h
  obtain ⟨C, D⟩ := reach_tiled h
  rw [legal_iff]
  constructor
  · intro cd i hi hc
    obtain ⟨f, j, u, hj, rfl⟩ : ∃ f j, Used m f ∧ j < 3 ∧ i = 4 * f + j :=
      ⟨i / 4, i % 4, by unfold IsE at hi; unfold Used; omega, by unfold IsE at hi; omega, by omega⟩
    obtain ⟨x, y, o, vis⟩ := across_visible I R hi hc
    have o' := InOpen.base hi o
    rw [show (4 * f + j) / 4 * 4 = 4 * f by omega] at o'
    have := cd f (m.p (m.e (4 * f + j))) x y u (I.pl _ (I.pair hi (I.free hi hc)).ib) ((inside_open u).2 o') vis
    rwa [circle_dt u hj] at this
  · intro L f v x y u hv hin vis
    rw [circle_dt u (j := 0) (by omega)]
    exact sight I R C D L hv (u.isE (by omega)) ((inside_open u).1 hin) vis

/-- C111.  After any history without `insert_edge` and `try_flip` the triangulation is constrained Delaunay. -/
theorem C111_constrained_delaunay_partial (h : Marked limit m) : ConstrainedDelaunay m :=
  (C111_local h.reach).2 (C79_locally_delaunay_partial h)

/-- C111.  With `insert_edge` it need not be. -/
theorem C111_insert_edge_false : ∃ m, Reach 100 m ∧ ¬ ConstrainedDelaunay m := by
  obtain ⟨m, h, n⟩ := C79_insert_edge_false
  exact ⟨m, h, fun c => n ((C111_local h).1 c)⟩

/-- the corners of a face can be seen from inside -/
theorem Inside.sees (h : Reach limit m) {f} (u : Used m f) {x y : ℚ} (hin : m.Inside f x y) (j : Nat) : m.Visible x y (m.corner f j) := by
  obtain ⟨I, R⟩ := reach_inv h
  have o := (inside_open u).1 hin
  have h0 : IsE m.size (4 * f) := u.isE (j := 0) (by omega)
  have B := base h0 (by omega)
  unfold Mesh.corner
  have : j % 3 = 0 ∨ j % 3 = 1 ∨ j % 3 = 2 := by omega
  rcases this with e | e | e <;> rw [e]
  · exact corner_visible I R h0 o
  · rw [← B.n0]; exact corner_visible I R h0.nx (InOpen.nx h0 o)
  · rw [← B.p0]; exact corner_visible I R h0.pv (InOpen.pv h0 o)

/-- what can be seen depends on the places of the constrained edges -/
theorem Visible.move (walls : ∀ p q, m.WallAt p q ↔ m'.WallAt p q) {x y : ℚ} {v w} (e : m.pos v = m'.pos w) (h : m.Visible x y v) :
    m'.Visible x y w := by
  intro a b hw s t s0 s1 t0 t1 hc
  obtain ⟨a', b', hw', ea, eb⟩ := (walls _ _).2 ⟨a, b, hw, rfl, rfl⟩
  refine h a' b' hw' s t s0 s1 t0 t1 ?_
  unfold Mesh.pos at e ea eb
  rw [Prod.mk.injEq] at e ea eb
  rw [e.1, e.2, ea.1, ea.2, eb.1, eb.2]
  exact hc

/-- C111.  Two constrained Delaunay triangulations with vertices and constrained edges at the same places: where faces of the two
overlap, their corners are on one circle. -/
theorem C111_same_circle (h : Reach limit m) (h' : Reach limit' m') (cd : ConstrainedDelaunay m) (cd' : ConstrainedDelaunay m')
    (same : ∀ px py, m.Vertex px py ↔ m'.Vertex px py) (walls : ∀ p q, m.WallAt p q ↔ m'.WallAt p q) {f g : Nat}
    (u : Used m f) (u' : Used m' g) {x y : ℚ} (hin : m.Inside f x y) (hin' : m'.Inside g x y) {j : Nat} :
    m'.circleAt g (m.pos (m.corner f j)) = 0 := by
  have V := fun j => (C71_linked h).vertex f j u
  have V' := fun j => (C71_linked h').vertex g j u'
  refine overlap_circle h h' u u' hin (fun j hj => (hin' j hj).le) ?_ ?_
  · intro j
    obtain ⟨v, hv, ex, ey⟩ := (same _ _).1 (Vertex.at' (V j))
    have := cd' g v x y u' hv hin' (Visible.move walls (by unfold Mesh.pos; rw [ex, ey]) (Inside.sees h u hin j))
    unfold Mesh.circle at this
    rw [ex, ey] at this
    exact this
  · intro j
    obtain ⟨v, hv, ex, ey⟩ := (same _ _).2 (Vertex.at' (V' j))
    have := cd f v x y u hv hin (Visible.move (fun p q => (walls p q).symm) (by unfold Mesh.pos; rw [ex, ey]) (Inside.sees h' u' hin' j))
    unfold Mesh.circle at this
    rw [ex, ey] at this
    exact this

/-- overlapping faces are the same -/
theorem overlap_same (h : Reach limit m) (h' : Reach limit' m') (cd : ConstrainedDelaunay m) (cd' : ConstrainedDelaunay m')
    (same : ∀ px py, m.Vertex px py ↔ m'.Vertex px py) (walls : ∀ p q, m.WallAt p q ↔ m'.WallAt p q) (nf : NoFourSeen m) {f g : Nat}
    (u : Used m f) (u' : Used m' g) {x y : ℚ} (hin : m.Inside f x y) (hin' : m'.Inside g x y) :
    ∃ s, s < 3 ∧ ∀ j, m'.pos (m'.corner g (j + s)) = m.pos (m.corner f j) := by
  have V' := fun j => (C71_linked h').vertex g j u'
  have cw : Turns (m.pos (m.corner f 0)) (m.pos (m.corner f 1)) (m.pos (m.corner f 2)) := (C72_clockwise h).1 f u
  have cw' : Turns (m'.pos (m'.corner g 0)) (m'.pos (m'.corner g 1)) (m'.pos (m'.corner g 2)) := (C72_clockwise h').1 g u'
  have at' : ∀ j, m'.pos (m'.corner g j) = m.pos (m.corner f 0) ∨ m'.pos (m'.corner g j) = m.pos (m.corner f 1) ∨
      m'.pos (m'.corner g j) = m.pos (m.corner f 2) := by
    intro j
    obtain ⟨v, hv, ex, ey⟩ := (same _ _).2 (Vertex.at' (V' j))
    have z := C111_same_circle h' h cd' cd (fun a b => (same a b).symm) (fun p q => (walls p q).symm) u' u hin' hin (j := j)
    have e : m.pos v = m'.pos (m'.corner g j) := by unfold Mesh.pos; rw [ex, ey]
    rw [← e] at z
    obtain ⟨l, hl, el⟩ := nf f v x y u hv hin (Visible.move (fun p q => (walls p q).symm) e.symm (Inside.sees h' u' hin' j)) z
    rw [← e, ← el]
    have : l = 0 ∨ l = 1 ∨ l = 2 := by omega
    rcases this with rfl | rfl | rfl
    · exact Or.inl rfl
    · exact Or.inr (Or.inl rfl)
    · exact Or.inr (Or.inr rfl)
  have c : ∀ (m : Mesh) (f j), m.corner f j = m.corner f (j % 3) := by
    intro m f j; unfold Mesh.corner; rw [Nat.mod_mod]
  have ext : ∀ s, (∀ j, j < 3 → m'.pos (m'.corner g (j + s)) = m.pos (m.corner f j)) → ∀ j, m'.pos (m'.corner g (j + s)) = m.pos (m.corner f j) := by
    intro s hs j
    have := hs (j % 3) (Nat.mod_lt _ (by omega))
    rw [c m f j, ← this, c m' g (j + s), c m' g (j % 3 + s), Nat.mod_add_mod]
  have three : ∀ {P : Nat → Prop}, P 0 → P 1 → P 2 → ∀ j, j < 3 → P j := by
    intro P p0 p1 p2 j hj
    have : j = 0 ∨ j = 1 ∨ j = 2 := by omega
    rcases this with rfl | rfl | rfl <;> assumption
  rcases turned cw' cw (at' 0) (at' 1) (at' 2) with ⟨e0, e1, e2⟩ | ⟨e0, e1, e2⟩ | ⟨e0, e1, e2⟩
  · exact ⟨0, by omega, ext 0 (three e0 e1 e2)⟩
  · exact ⟨2, by omega, ext 2 (three e2 e0 e1)⟩
  · exact ⟨1, by omega, ext 1 (three e1 e2 e0)⟩

/-- a face of one mesh overlaps a face of the other -/
theorem overlaps (h : Reach limit m) (h' : Reach limit' m') {f} (u : Used m f) :
    ∃ g x y, Used m' g ∧ m.Inside f x y ∧ m'.Inside g x y := by
  obtain ⟨x, y, hin, hx, hy⟩ := centre_inside h u
  obtain ⟨g, u', hin'⟩ := (C81_tiling h').cover x y hx.1 hx.2 hy.1 hy.2
  obtain ⟨x', y', o, o'⟩ := both_open (reach_inv h').1 (u'.isE (j := 0) (by omega)) ((inside_open u).1 hin) ((within_shut u').1 hin')
  exact ⟨g, x', y', u', (inside_open u).2 o, (inside_open u').2 o'⟩

/-- C111.  A constrained Delaunay triangulation is determined by the places of its vertices and constrained edges, provided no
vertex seen from a face, other than its corners, is on its circle. -/
theorem C111_unique (h : Reach limit m) (h' : Reach limit' m') (cd : ConstrainedDelaunay m) (cd' : ConstrainedDelaunay m')
    (same : ∀ px py, m.Vertex px py ↔ m'.Vertex px py) (walls : ∀ p q, m.WallAt p q ↔ m'.WallAt p q) (nf : NoFourSeen m) :
    FacesOf m m' ∧ FacesOf m' m := by
  constructor
  · intro f u
    obtain ⟨g, x, y, u', hin, hin'⟩ := overlaps h h' u
    obtain ⟨s, hs, e⟩ := overlap_same h h' cd cd' same walls nf u u' hin hin'
    exact ⟨g, s, u', hs, fun j _ => e j⟩
  · intro g u'
    obtain ⟨f, x, y, u, hin', hin⟩ := overlaps h' h u'
    obtain ⟨s, hs, e⟩ := overlap_same h h' cd cd' same walls nf u u' hin hin'
    have c : ∀ (m : Mesh) (f j), m.corner f (j + 3) = m.corner f j := by
      intro m f j; unfold Mesh.corner; rw [Nat.add_mod_right]
    refine ⟨f, (3 - s) % 3, u, Nat.mod_lt _ (by omega), fun j _ => ?_⟩
    rw [← e]
    have : s = 0 ∨ s = 1 ∨ s = 2 := by omega
    rcases this with rfl | rfl | rfl
    · rfl
    · rw [show j + (3 - 1) % 3 + 1 = j + 3 from rfl, c]
    · rw [show j + (3 - 2) % 3 + 2 = j + 3 from rfl, c]

/-! ### instances -/

/-- the places of the constrained edges, in both directions -/
def wallList (m : Mesh) : List ((Int × Int) × (Int × Int)) := (List.range (2 * m.size)).flatMap fun f => (List.range 3).flatMap fun j =>
  if 6 ≤ f ∧ m.c (4 * f + j) ≠ 0 then [(m.pos (m.corner f (j + 1)), m.pos (m.corner f (j + 2))), (m.pos (m.corner f (j + 2)), m.pos (m.corner f (j + 1)))]
  else []

theorem wallAt_iff {p q : Int × Int} : m.WallAt p q ↔ (p, q) ∈ wallList m := by
  unfold Mesh.WallAt Mesh.Wall wallList Used
  simp only [List.mem_flatMap, List.mem_range]
  constructor
  · rintro ⟨a, b, ⟨f, j, ⟨u1, u2⟩, hj, hc, e⟩, rfl, rfl⟩
    refine ⟨f, u2, j, hj, ?_⟩
    rw [if_pos ⟨u1, hc⟩]
    rcases e with ⟨rfl, rfl⟩ | ⟨rfl, rfl⟩ <;> simp
  · rintro ⟨f, u2, j, hj, hm⟩
    by_cases hc : 6 ≤ f ∧ m.c (4 * f + j) ≠ 0
    · rw [if_pos hc] at hm
      simp only [List.mem_cons, List.not_mem_nil, or_false, Prod.mk.injEq] at hm
      rcases hm with ⟨rfl, rfl⟩ | ⟨rfl, rfl⟩
      · exact ⟨_, _, ⟨f, j, ⟨hc.1, u2⟩, hj, hc.2, Or.inl ⟨rfl, rfl⟩⟩, rfl, rfl⟩
      · exact ⟨_, _, ⟨f, j, ⟨hc.1, u2⟩, hj, hc.2, Or.inr ⟨rfl, rfl⟩⟩, rfl, rfl⟩
    · rw [if_neg hc] at hm
      simp at hm

/-- the square, its diagonal constrained -/
def tied0 : Mesh := (constrainEdge 9 (CE.Cdt.reset sample0) 24).get (by decide +kernel)
/-- a point above the diagonal -/
def tied1 : Mesh := ((insertPoint 100 60 tied0 10000 9000 0).get (by decide +kernel)).1
/-- a point below -/
def tied2 : Mesh := ((insertPoint 100 60 tied1 (-12000) (-9000) 0).get (by decide +kernel)).1
/-- in the other order -/
def knot1 : Mesh := ((insertPoint 100 60 tied0 (-12000) (-9000) 0).get (by decide +kernel)).1
/-- the second -/
def knot2 : Mesh := ((insertPoint 100 60 knot1 10000 9000 0).get (by decide +kernel)).1

theorem tied0_marked : Marked 100 tied0 := by
  have e : ∀ (o : Option Mesh) (h : o.isSome = true), o = some (o.get h) := by simp
  unfold tied0
  exact .constrain (f := 6) (j := 0) (.reset _) (by unfold Used; decide +kernel) (by decide) (e _ _)

theorem tied2_marked : Marked 100 tied2 := by
  have h1 : Marked 100 tied1 := by
    unfold tied1
    exact .point tied0_marked (get_pair _ _)
  unfold tied2
  exact .point h1 (get_pair _ _)

theorem knot2_marked : Marked 100 knot2 := by
  have h1 : Marked 100 knot1 := by
    unfold knot1
    exact .point tied0_marked (get_pair _ _)
  unfold knot2
  exact .point h1 (get_pair _ _)

/-- C111.  Vertices hidden behind a constrained edge may be inside the circle. -/
theorem C111_hidden : ∃ m, Marked 100 m ∧ ConstrainedDelaunay m ∧ ¬ Delaunay m := by
  refine ⟨tied2, tied2_marked, C111_constrained_delaunay_partial tied2_marked, fun d => ?_⟩
  have no : ∃ f < 12, 6 ≤ f ∧ ∃ v < 6, tied2.circle f v < 0 := by decide +kernel
  obtain ⟨f, hf, h6, v, hv, hn⟩ := no
  have hz : tied2.size = 6 := by decide +kernel
  have := d f v ⟨h6, by omega⟩ (by omega)
  omega

theorem vertex_of {m m' : Mesh} (h : ∀ v < m.size, ∃ w < m'.size, m'.pos w = m.pos v) (h' : ∀ v < m'.size, ∃ w < m.size, m.pos w = m'.pos v)
    (px py : Int) : m.Vertex px py ↔ m'.Vertex px py := by
  unfold Mesh.pos at h h'
  simp only [Prod.mk.injEq] at h h'
  constructor
  · rintro ⟨v, hv, rfl, rfl⟩
    obtain ⟨w, hw, a, b⟩ := h v hv
    exact ⟨w, hw, a, b⟩
  · rintro ⟨v, hv, rfl, rfl⟩
    obtain ⟨w, hw, a, b⟩ := h' v hv
    exact ⟨w, hw, a, b⟩

example : Marked 100 tied2 ∧ Marked 100 knot2 ∧ tied2.size = 6 ∧ tied2.pos 4 ≠ knot2.pos 4 ∧ tied2.WallAt (-32768, 32767) (32767, -32768) ∧
    NoFourSeen tied2 ∧ FacesOf tied2 knot2 ∧ FacesOf knot2 tied2 := by
  have nf : NoFourSeen tied2 := by
    intro f v x y u hv _ _ hz
    have e : tied2.size = 6 := by decide +kernel
    obtain ⟨u1, u2⟩ := u
    have all : ∀ f < 12, 6 ≤ f → ∀ v < 6, tied2.circle f v = 0 → ∃ j, j < 3 ∧ tied2.corner f j = v := by decide +kernel
    exact all f (by omega) u1 v (by omega) hz
  have k := C111_unique tied2_marked.reach knot2_marked.reach (C111_constrained_delaunay_partial tied2_marked)
    (C111_constrained_delaunay_partial knot2_marked) (vertex_of (by decide +kernel) (by decide +kernel))
    (fun p q => by
      rw [wallAt_iff, wallAt_iff]
      have a : ∀ x ∈ wallList tied2, x ∈ wallList knot2 := by decide +kernel
      have b : ∀ x ∈ wallList knot2, x ∈ wallList tied2 := by decide +kernel
      exact ⟨a _, b _⟩) nf
  exact ⟨tied2_marked, knot2_marked, by decide +kernel, by decide +kernel, wallAt_iff.2 (by decide +kernel), nf, k⟩

end CE.Cdt
