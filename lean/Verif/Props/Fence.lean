import Verif.Props.Delaunay
import Verif.Proof.CdtRoute
/-! C82, C83: constrained edges. -/
namespace CE.Cdt

open CE.Vec Relation

variable {m m' m'' : Mesh} {limit : Nat}

/-! ### translation -/

theorem Op.reach (o : Op limit m m') (h : Reach limit m) : Reach limit m' := by
  cases o with
  | point run => exact .point h run
  | edge run => exact .edge h run
  | constrain u hj run => exact .constrain h u hj run
  | flip u hj run => exact .flip h u hj run
  | tryFlip u hj run => exact .tryFlip h u hj run
  | fill u run => exact .fill h u run

/-- what an operation does is either a number of steps or painting -/
theorem Op.cases (o : Op limit m m') (h : Inv m) : Steps m m' ∨ ∃ fi, m' = { m with fi := fi } := by
  cases o with
  | point run => exact Or.inl (insertPoint_spec h run).steps
  | edge run => exact Or.inl ((edges_steps limit _).1 _ _ _ _ _ _ _ _ h run)
  | constrain u hj run => exact Or.inl (constrainEdge_steps h run)
  | flip u hj run => exact Or.inl (flip_steps h (Or.inl (u.isE hj)) run)
  | tryFlip u hj run => exact Or.inl (tryFlip_steps h (u.isE hj) run)
  | fill u run => exact Or.inr ⟨_, (fill_paint run).same⟩

theorem Op.keep (o : Op limit m m') (h : Inv m) : m.size ≤ m'.size := by
  rcases o.cases h with s | ⟨fi, rfl⟩
  · exact s.keep.1
  · exact le_refl _

theorem Op.fence (o : Op limit m m') (h : Inv m) {u v} (hu : u < m.size) (hv : v < m.size) (F : m.Fence u v) : m'.Fence u v := by
  rcases o.cases h with s | ⟨fi, rfl⟩
  · exact s.fence h hu hv F
  · exact F

theorem paint_route {fi : Nat → Nat} {n u v} (R : m.Route n u v) : ({ m with fi := fi } : Mesh).Route n u v := by
  induction R with
  | straight h => exact .straight h
  | pass h _ _ ih1 ih2 => exact .pass h ih1 ih2
  | bend h _ _ ih1 ih2 => exact .bend h ih1 ih2

theorem Op.route (o : Op limit m m') (h : Inv m) {n u v} (hu : u < m.size) (R : m.Route n u v) : m'.Route n u v := by
  rcases o.cases h with s | ⟨fi, rfl⟩
  · exact s.route h hu R
  · exact paint_route R

/-! ### C82 -/

/-- C82.  `constrain_edge` makes the segment between the ends of the edge a wall, and whatever is done with the triangulation after
that, short of `reset`, the segment remains one: it may be divided by vertices that are on it, but it consists of constrained edges. -/
theorem C82_constrain (h : Reach limit m) {k f j} (uf : Used m f) (hj : j < 3) (run : constrainEdge k m (4 * f + j) = some m')
    (later : Later limit m' m'') : m''.Fence (m.corner f (j + 1)) (m.corner f (j + 2)) := by
  have F := constrainEdge_fence (reach_inv h).1 run
  rw [← corner_nx m f hj, ← corner_pv m f hj] at F
  have s := constrainEdge_steps (reach_inv h).1 run
  have h' : Reach limit m' := .constrain h uf hj run
  have hu : m.corner f (j + 1) < m'.size := lt_of_lt_of_le ((C71_linked h).vertex f _ uf) s.keep.1
  have hv : m.corner f (j + 2) < m'.size := lt_of_lt_of_le ((C71_linked h).vertex f _ uf) s.keep.1
  clear s run
  induction later with
  | refl => exact F
  | tail l o ih =>
    have key : ∀ {m1}, Later limit m' m1 → Reach limit m1 ∧ m'.size ≤ m1.size := by
      intro m1 l
      induction l with
      | refl => exact ⟨h', le_refl _⟩
      | tail _ o ih => exact ⟨o.reach ih.1, ih.2.trans (o.keep (reach_inv ih.1).1)⟩
    obtain ⟨r, sz⟩ := key l
    exact o.fence (reach_inv r).1 (lt_of_lt_of_le hu sz) (lt_of_lt_of_le hv sz) ih

/-- C82.  A wall stays whatever is done. -/
theorem C82_persist (h : Reach limit m) (later : Later limit m m') :
    Reach limit m' ∧ m.size ≤ m'.size ∧ (∀ v, v < m.size → m'.x v = m.x v ∧ m'.y v = m.y v) ∧
    ∀ u v, u < m.size → v < m.size → m.Fence u v → m'.Fence u v := by
  induction later with
  | refl => exact ⟨h, le_refl _, fun _ _ => ⟨rfl, rfl⟩, fun _ _ _ _ F => F⟩
  | tail _ o ih =>
    obtain ⟨r, sz, xy, fe⟩ := ih
    have I := (reach_inv r).1
    refine ⟨o.reach r, sz.trans (o.keep I), fun v hv => ?_, fun u v hu hv F =>
      o.fence I (lt_of_lt_of_le hu sz) (lt_of_lt_of_le hv sz) (fe u v hu hv F)⟩
    rw [← (xy v hv).1, ← (xy v hv).2]
    rcases o.cases I with s | ⟨fi, rfl⟩
    · exact s.keep.2 v (lt_of_lt_of_le hv sz)
    · exact ⟨rfl, rfl⟩

theorem get_same {α : Type} {b : Bool} (o : Option (α × Bool)) (h : o.isSome = true) (hb : (o.get h).2 = b) : o = some ((o.get h).1, b) := by
  rw [← hb]; simp

-- in `sample` the edge inserted between vertices 4 and 5 is a wall
theorem sample_wall : sample.Wall 4 5 :=
  (by decide +kernel : ∃ f, f < 12 ∧ ∃ j, j < 3 ∧ (6 ≤ f ∧ f < 2 * sample.size) ∧ sample.c (4 * f + j) ≠ 0 ∧
    ((sample.corner f (j + 1) = 4 ∧ sample.corner f (j + 2) = 5) ∨ (sample.corner f (j + 1) = 5 ∧ sample.corner f (j + 2) = 4))) |>.elim
    fun f ⟨_, j, hj, u, hc, hv⟩ => ⟨f, j, u, hj, hc, hv⟩

/-- a point on that edge, which divides it -/
def divided : Mesh := ((insertPoint 100 60 sample (-7500) (-2000) 0).get (by decide +kernel)).1

theorem divided_later : Later 100 sample divided := by
  unfold divided
  exact .single (.point (get_pair _ _))

-- the wall is still there although there is no edge from 4 to 5 any more
example : Reach 100 sample ∧ Later 100 sample divided ∧ sample.Fence 4 5 ∧ divided.Fence 4 5 ∧
    (∀ i, i < 8 * divided.size → i % 4 < 3 → ¬ (divided.p (nx i) = 4 ∧ divided.p (pv i) = 5)) :=
  ⟨sample_reach, divided_later, wall_fence sample_wall,
    (C82_persist sample_reach divided_later).2.2.2 4 5 (by decide +kernel) (by decide +kernel) (wall_fence sample_wall), by decide +kernel⟩

/-! ### C83 -/

/-- C83.  When `insert_edge` returns true both ends are vertices and there is a way from the one to the other along constrained
edges, which has a finite number of bends; every bend is less than one unit away from the segment that it divides.  It stays
whatever is done with the triangulation after that.  The full claim would be that there are no bends, and that it returns true
whenever the ends are in the square and there is room; see `C83_straight_false` and `C83_crossing_false`. -/
theorem C83_route_partial (h : Reach limit m) {k px py qx qy hint} (run : insertEdge limit k m px py qx qy hint = some (m', true))
    (later : Later limit m' m'') :
    ∃ u v n, (u < m''.size ∧ m''.x u = px ∧ m''.y u = py) ∧ (v < m''.size ∧ m''.x v = qx ∧ m''.y v = qy) ∧ m''.Route n u v := by
  obtain ⟨I, R⟩ := reach_inv h
  obtain ⟨C, D⟩ := reach_tiled h
  obtain ⟨u, v, n, hu, hv, r⟩ := (edges_route limit k).1 _ _ _ _ _ _ _ ⟨I, R, C, D⟩ run
  have h' : Reach limit m' := .edge h run
  refine ⟨u, v, n, ?_⟩
  have key : ∀ {m1}, Later limit m' m1 → Reach limit m1 ∧ Pos m1 u px py ∧ Pos m1 v qx qy ∧ m1.Route n u v := by
    intro m1 l
    induction l with
    | refl => exact ⟨h', hu, hv, r⟩
    | tail _ o ih =>
      obtain ⟨r1, u1, v1, rt⟩ := ih
      have I := (reach_inv r1).1
      refine ⟨o.reach r1, ?_, ?_, o.route I u1.1 rt⟩
      · rcases o.cases I with s | ⟨fi, rfl⟩
        · exact s.pos u1
        · exact u1
      · rcases o.cases I with s | ⟨fi, rfl⟩
        · exact s.pos v1
        · exact v1
  exact (key later).2

/-- C83.  Such a way is a chain of constrained edges that is never further away from the segment than it has bends. -/
theorem C83_chain {n u v} (R : m.Route n u v) :
    ReflTransGen (fun a b => m.Wall a b ∧ m.Along n u v a ∧ m.Along n u v b) u v := by
  have mono : ∀ {d e : ℚ} {u v w : Nat}, d ≤ e → m.Along d u v w → m.Along e u v w := fun hd ⟨t, t0, t1, hx, hy⟩ =>
    ⟨t, t0, t1, hx.trans hd, hy.trans hd⟩
  have part : ∀ {d e g : ℚ} {u v a b : Nat}, d + e ≤ g → m.Along d u v a → m.Along d u v b →
      ReflTransGen (fun c c' => m.Wall c c' ∧ m.Along e a b c ∧ m.Along e a b c') a b →
      ReflTransGen (fun c c' => m.Wall c c' ∧ m.Along g u v c ∧ m.Along g u v c') a b := by
    intro d e g u v a b hg ha hb h
    exact ReflTransGen.mono (fun c c' h => And.intro h.1 (And.intro (mono hg (ha.trans hb h.2.1)) (mono hg (ha.trans hb h.2.2)))) _ _ h
  induction R with
  | straight h => simpa [Mesh.Fence] using h
  | @pass n k u v w h a b ih1 ih2 =>
    have hn : (0 : ℚ) ≤ n := Nat.cast_nonneg _
    have hk : (0 : ℚ) ≤ k := Nat.cast_nonneg _
    refine (part (d := 0) ?_ (along_left m (le_refl _) u v) h ih1).trans (part (d := 0) ?_ h (along_right m (le_refl _) u v) ih2)
    · push_cast; linarith
    · push_cast; linarith
  | @bend n k u v w h a b ih1 ih2 =>
    have hn : (0 : ℚ) ≤ n := Nat.cast_nonneg _
    have hk : (0 : ℚ) ≤ k := Nat.cast_nonneg _
    have h1 : m.Along 1 u v w := by
      obtain ⟨t, t0, t1, hx, hy⟩ := h
      exact ⟨t, t0, t1, hx.le, hy.le⟩
    refine (part (d := 1) ?_ (along_left m zero_le_one u v) h1 ih1).trans (part (d := 1) ?_ h1 (along_right m zero_le_one u v) ih2)
    · push_cast; linarith
    · push_cast; linarith

-- `sample` has such a way
example : ∃ u v n, (u < divided.size ∧ divided.x u = -20000 ∧ divided.y u = -10000) ∧
    (v < divided.size ∧ divided.x v = 5000 ∧ divided.y v = 6000) ∧ divided.Route n u v := by
  have h1 : Reach 100 sample1 := by
    unfold sample1
    exact .point (.reset _) (get_pair _ _)
  refine C83_route_partial h1 (k := 30) (hint := 0) (m' := sample) ?_ divided_later
  unfold sample
  exact get_same _ _ (by decide +kernel)

/-- vertex `w` is on the line through `u` and `v` -/
def Mesh.online (m : Mesh) (u v w : Nat) : Bool := (m.x w - m.x u) * (m.y v - m.y u) == (m.y w - m.y u) * (m.x v - m.x u)

/-- no constrained edge at `u` is on the line through `u` and `v` -/
def Mesh.astray (m : Mesh) (u v : Nat) : Bool := (List.range (2 * m.size)).all fun f => (List.range 3).all fun j =>
  m.c (4 * f + j) == 0 || !(m.corner f (j + 1) == u && m.online u v (m.corner f (j + 2)) ||
    m.corner f (j + 2) == u && m.online u v (m.corner f (j + 1))) || f < 6

theorem no_fence {u v : Nat} (huv : u ≠ v) (hc : m.astray u v = true) : ¬ m.Fence u v := by
  intro F
  rcases ReflTransGen.cases_head F with e | ⟨w, ⟨⟨f, j, uf, hj, c, hw⟩, -, al⟩, -⟩
  · exact huv e
  · obtain ⟨t, -, -, ex, ey⟩ := along_zero.1 al
    have z : (m.x w - m.x u) * (m.y v - m.y u) = (m.y w - m.y u) * (m.x v - m.x u) := by
      have : ((m.x w : ℚ) - m.x u) * (m.y v - m.y u) = (m.y w - m.y u) * (m.x v - m.x u) := by rw [ex, ey]; ring
      exact_mod_cast this
    have z : m.online u v w = true := by unfold Mesh.online; rw [z]; simp
    unfold Mesh.astray at hc
    simp only [List.all_eq_true, List.mem_range] at hc
    have := hc f uf.2 j hj
    have h6 : ¬ f < 6 := by have := uf.1; omega
    rcases hw with ⟨e1, e2⟩ | ⟨e1, e2⟩ <;> simp [e1, e2, z, c, h6] at this

/-- four points -/
def odd1 : Mesh := ((insertPoint 100 60 sample0 28892 26372 0).get (by decide +kernel)).1
/-- the second point -/
def odd2 : Mesh := ((insertPoint 100 60 odd1 (-28140) (-22706) 0).get (by decide +kernel)).1
/-- the third point -/
def odd3 : Mesh := ((insertPoint 100 60 odd2 21290 20224 0).get (by decide +kernel)).1
/-- the fourth point -/
def odd4 : Mesh := ((insertPoint 100 60 odd3 (-4322) 12976 0).get (by decide +kernel)).1
/-- and the edge between the first two -/
def odd5 : Mesh := ((insertEdge 100 100 odd4 28892 26372 (-28140) (-22706) 0).get (by decide +kernel)).1

theorem odd4_points : Points 100 odd4 := by
  have h1 : Points 100 odd1 := by
    unfold odd1
    exact .point (.reset _) (get_pair _ _)
  have h2 : Points 100 odd2 := by
    unfold odd2
    exact .point h1 (get_pair _ _)
  have h3 : Points 100 odd3 := by
    unfold odd3
    exact .point h2 (get_pair _ _)
  unfold odd4
  exact .point h3 (get_pair _ _)

/-- C83.  The segment is not always made of constrained edges: in a triangulation of four points without any constraints `insert_edge`
between the first two returns true, but it has added a vertex that is not on the segment and the way bends there. -/
theorem C83_straight_false : ∃ m m' u v, Points 100 m ∧ insertEdge 100 100 m 28892 26372 (-28140) (-22706) 0 = some (m', true) ∧
    m'.size = m.size + 1 ∧ (m.x u = 28892 ∧ m.y u = 26372) ∧ (m.x v = -28140 ∧ m.y v = -22706) ∧ u < m.size ∧ v < m.size ∧ ¬ m'.Fence u v := by
  refine ⟨odd4, odd5, 4, 5, odd4_points, ?_, by decide +kernel, by decide +kernel, by decide +kernel, by decide +kernel, by decide +kernel, ?_⟩
  · unfold odd5
    exact get_same _ _ (by decide +kernel)
  · exact no_fence (by decide) (by decide +kernel)

/-- one constrained segment -/
def cross1 : Mesh := ((insertEdge 100 100 sample0 0 0 1000 2 0).get (by decide +kernel)).1

/-- C83.  `insert_edge` can fail although both ends are in the square and there is room: two segments that cross are enough, when
their intersection is not a grid point. -/
theorem C83_crossing_false : ∃ m m', Reach 100 m ∧ m.size = 6 ∧ insertEdge 100 100 m 500 (-500) 600 500 0 = some (m', false) ∧ m'.size = 9 := by
  refine ⟨cross1, ((insertEdge 100 100 cross1 500 (-500) 600 500 0).get (by decide +kernel)).1, ?_, by decide +kernel, ?_, by decide +kernel⟩
  · unfold cross1
    exact .edge (.reset _) (get_pair _ _)
  · exact get_same _ _ (by decide +kernel)

end CE.Cdt
