import Verif.Spec.Delaunay
import Verif.Props.Cdt
import Verif.Proof.CdtPoints
/-! C78–C81: inserting points, the Delaunay property, termination of the walk, and the tiling of the square. -/
namespace CE.Cdt

open CE.Vec

variable {m m' : Mesh} {limit : Nat}

/-! ### translation -/

theorem Paint.cover {info} (P : Paint info m m') (C : Cover m) : Cover m' := by rw [P.same]; exact C
theorem Paint.distinct {info} (P : Paint info m m') (D : Distinct m) : Distinct m' := by rw [P.same]; exact D
theorem Paint.legal {info} (P : Paint info m m') (L : Legal m) : Legal m' := by rw [P.same]; exact L
theorem Paint.free {info} (P : Paint info m m') (F : Free m) : Free m' := by rw [P.same]; exact F

theorem reach_tiled (h : Reach limit m) : Cover m ∧ Distinct m := by
  have key : ∀ {m m'}, Reach limit m → Cover m ∧ Distinct m → Steps m m' → Cover m' ∧ Distinct m' := fun h c s => by
    obtain ⟨I, R⟩ := reach_inv h
    exact ⟨s.cover I c.1, s.distinct I R c.1 c.2⟩
  induction h with
  | reset m => exact ⟨reset_cover m, reset_distinct m⟩
  | point h run ih => exact key h ih (insertPoint_spec (reach_inv h).1 run).steps
  | edge h run ih => exact key h ih ((edges_steps limit _).1 _ _ _ _ _ _ _ _ (reach_inv h).1 run)
  | constrain h u hj run ih => exact key h ih (constrainEdge_steps (reach_inv h).1 run)
  | flip h u hj run ih => exact key h ih (flip_steps (reach_inv h).1 (Or.inl (u.isE hj)) run)
  | tryFlip h u hj run ih => exact key h ih (tryFlip_steps (reach_inv h).1 (u.isE hj) run)
  | fill h u run ih => exact ⟨(fill_paint run).cover ih.1, (fill_paint run).distinct ih.2⟩

theorem Marked.reach (h : Marked limit m) : Reach limit m := by
  induction h with
  | reset m => exact .reset m
  | point _ run ih => exact .point ih run
  | constrain _ u hj run ih => exact .constrain ih u hj run
  | flip _ u hj run ih => exact .flip ih u hj run
  | fill _ u run ih => exact .fill ih u run

theorem Points.marked (h : Points limit m) : Marked limit m := by
  induction h with
  | reset m => exact .reset m
  | point _ run ih => exact .point ih run
  | flip _ u hj run ih => exact .flip ih u hj run
  | fill _ u run ih => exact .fill ih u run

theorem insertPoint_at {k px py hint r} (run : insertPoint limit k m px py hint = some (m', r)) :
    ∃ n, locateIns k m px py hint = some n ∧ insertAt limit k m px py n = some (m', r) := by
  unfold insertPoint at run
  simpa only [Option.bind_eq_bind, Option.bind_eq_some_iff] using run

theorem Marked.legal (h : Marked limit m) : Legal m := by
  induction h with
  | reset m => exact reset_legal m
  | point h run ih =>
    obtain ⟨n, -, e⟩ := insertPoint_at run
    exact insertAt_legal (reach_inv h.reach).1 ih e
  | constrain h u hj run ih => exact constrainEdge_legal (reach_inv h.reach).1 ih run
  | flip h u hj run ih => exact flip_legal (reach_inv h.reach).1 ih (Or.inl (u.isE hj)) run
  | fill h u run ih => exact (fill_paint run).legal ih

theorem Points.free (h : Points limit m) : Free m := by
  induction h with
  | reset m => exact reset_free m
  | point h run ih =>
    obtain ⟨n, -, e⟩ := insertPoint_at run
    have I := (reach_inv h.marked.reach).1
    exact (insertAt_part I e).free I ih
  | flip h u hj run ih =>
    have I := (reach_inv h.marked.reach).1
    exact (flip_flips I (Or.inl (u.isE hj)) run).free I ih
  | fill h u run ih => exact (fill_paint run).free ih

theorem Points.full (h : Points limit m) : FullLegal m := h.free.full h.marked.legal

theorem sides_all {P : Nat → Prop} : (∀ j, j < 3 → P j) ↔ P 0 ∧ P 1 ∧ P 2 := by
  constructor
  · intro h; exact ⟨h 0 (by omega), h 1 (by omega), h 2 (by omega)⟩
  · rintro ⟨a, b, c⟩ j hj
    have : j = 0 ∨ j = 1 ∨ j = 2 := by omega
    rcases this with rfl | rfl | rfl <;> assumption

theorem sideQ_eq (m : Mesh) (f j : Nat) (x y : ℚ) : m.sideQ f j x y = m.crQ x y (m.corner f j) (m.corner f (j + 1)) := rfl

theorem inside_open {f} (u : Used m f) {x y : ℚ} : m.Inside f x y ↔ m.InOpen x y (4 * f) := by
  have B := base (u.isE (j := 0) (by omega)) (by omega)
  rw [Nat.add_zero] at B
  unfold Mesh.Inside Mesh.InOpen
  rw [sides_all, B.n0, B.p0]
  simp only [sideQ_eq, Mesh.corner]
  norm_num

theorem within_shut {f} (u : Used m f) {x y : ℚ} : m.Within f x y ↔ m.InShut x y (4 * f) := by
  have B := base (u.isE (j := 0) (by omega)) (by omega)
  rw [Nat.add_zero] at B
  unfold Mesh.Within Mesh.InShut
  rw [sides_all, B.n0, B.p0]
  simp only [sideQ_eq, Mesh.corner]
  norm_num

theorem circle_dt {f} (u : Used m f) {j} (hj : j < 3) (v : Nat) :
    m.circle f v = m.dt (m.p (4 * f + j)) (m.p (nx (4 * f + j))) (m.p (pv (4 * f + j))) v := by
  rw [← corner_nx m f hj, ← corner_pv m f hj, ← corner_at m f hj]
  have : j = 0 ∨ j = 1 ∨ j = 2 := by omega
  unfold Mesh.circle circleDet Mesh.dt detE Mesh.corner
  rcases this with rfl | rfl | rfl <;> norm_num <;> ring

/-! ### C78 -/

/-- C78.  `insert_point` succeeds exactly when the point already is a vertex or is strictly inside the square and there is room;
it returns 0 and changes nothing otherwise, leaves the mesh alone when the point was a vertex, and else adds exactly that vertex. -/
theorem C78_insert (h : Reach limit m) {k px py hint r} (run : insertPoint limit k m px py hint = some (m', r)) :
    (r ≠ 0 ↔ m.Vertex px py ∨ (InSquare16 px py ∧ m.size < limit)) ∧
    (r = 0 ∨ m.Vertex px py → m' = m) ∧
    (r ≠ 0 → ¬ m.Vertex px py → m'.size = m.size + 1 ∧ (∀ v, v < m.size → m'.x v = m.x v ∧ m'.y v = m.y v) ∧
      m'.x m.size = px ∧ m'.y m.size = py) := by
  obtain ⟨I, R⟩ := reach_inv h
  obtain ⟨C, D⟩ := reach_tiled h
  obtain ⟨I', R'⟩ := reach_inv (.point h run)
  obtain ⟨C', D'⟩ := reach_tiled (.point h run)
  obtain ⟨n, loc, ins⟩ := insertPoint_at run
  have h4 := I.sz
  have strict : m'.size = m.size + 1 → m'.x m.size = px → m'.y m.size = py → InSquare16 px py := fun hz hx hy => by
    have := rim_only I' R' C' D' (v := m.size) (by omega) h4
    rw [hx, hy] at this
    exact this
  have square : m.Vertex px py → Is16 px ∧ Is16 py := by
    rintro ⟨v, hv, rfl, rfl⟩; exact I.rng v hv
  have P := insertAt_part I ins
  cases P with
  | out hn =>
    rcases locateIns_spec I loc with ⟨-, i, b, ho⟩ | ⟨hi, -⟩
    · have no : ¬ (Is16 px ∧ Is16 py) := fun hr => by have := R.inner b hr.1 hr.2; omega
      refine ⟨⟨fun hc => absurd rfl hc, ?_⟩, fun _ => rfl, fun hc => absurd rfl hc⟩
      rintro (hv | ⟨hs, -⟩)
      · exact absurd (square hv) no
      · exact absurd (by unfold InSquare16 at hs; unfold Is16; omega) no
    · exact absurd hn hi.pos
  | vert hi hx hy h0 =>
    have hv : m.Vertex px py := ⟨_, I.pl _ hi, hx, hy⟩
    exact ⟨⟨fun _ => Or.inl hv, fun _ => h0⟩, fun _ => rfl, fun _ hc => absurd hv hc⟩
  | @rim i hi hf he on a1 a2 =>
    refine ⟨⟨fun hc => absurd rfl hc, ?_⟩, fun _ => rfl, fun hc => absurd rfl hc⟩
    intro hc
    have hm := R.mem i ⟨hi, he⟩
    unfold sides Mesh.ends at hm
    simp only [List.mem_cons, List.not_mem_nil, or_false, Prod.mk.injEq] at hm
    have ns : ¬ InSquare16 px py := by
      intro hs
      unfold InSquare16 at hs
      unfold Mesh.crP at on
      rcases hm with ⟨e1, e2⟩ | ⟨e1, e2⟩ | ⟨e1, e2⟩ | ⟨e1, e2⟩
      · rw [e1, e2, R.xy0.1, R.xy0.2, R.xy1.1, R.xy1.2] at on; nlinarith
      · rw [e1, e2, R.xy0.1, R.xy0.2, R.xy2.1, R.xy2.2] at on; nlinarith
      · rw [e1, e2, R.xy2.1, R.xy2.2, R.xy3.1, R.xy3.2] at on; nlinarith
      · rw [e1, e2, R.xy3.1, R.xy3.2, R.xy1.1, R.xy1.2] at on; nlinarith
    rcases hc with ⟨v, hv, hx, hy⟩ | ⟨hs, -⟩
    · exact absurd ⟨hx, hy⟩ (fresh I R C hi ⟨a1.le, on.le, a2.le⟩ (edge_novert hi a1 a2) hv)
    · exact absurd hs ns
  | full hi hl hin hv =>
    refine ⟨⟨fun hc => absurd rfl hc, ?_⟩, fun _ => rfl, fun hc => absurd rfl hc⟩
    rintro (⟨v, hv', hx, hy⟩ | ⟨-, hs⟩)
    · exact absurd ⟨hx, hy⟩ (fresh I R C hi hin hv hv')
    · omega
  | @face m1 _ u hl hu hu4 hx hy h0 h1 h2 S F =>
    have B := base hu hu4
    have hv := fun v => fresh I R C hu (v := v) ⟨by rw [B.n0]; exact h2.le, by rw [B.n0, B.p0]; exact h0.le, by rw [B.p0]; exact h1.le⟩ (face_novert B h0 h1 h2)
    obtain ⟨f1, f2, f3⟩ := F.coords
    have ex : m'.x m.size = px := by rw [f2, S.xn, i16_eq hx]
    have ey : m'.y m.size = py := by rw [f3, S.yn, i16_eq hy]
    have ez : m'.size = m.size + 1 := by rw [f1, S.size]
    have nv : ¬ m.Vertex px py := fun ⟨v, h1, h2, h3⟩ => hv v h1 ⟨h2, h3⟩
    refine ⟨⟨fun _ => Or.inr ⟨strict ez ex ey, hl⟩, fun _ => by omega⟩, ?_, fun _ _ => ⟨ez, fun v hv => ?_, ex, ey⟩⟩
    · rintro (e | e)
      · omega
      · exact absurd e nv
    · rw [f2, f3, S.x v hv, S.y v hv]; exact ⟨rfl, rfl⟩
  | @edge m1 _ a b _ hl E hx hy S F hi =>
    have hv := fun v => fresh I R C E.pair.ia (v := v) ⟨E.h1.le, E.on.le, E.h2.le⟩ (edge_novert E.pair.ia E.h1 E.h2)
    obtain ⟨f1, f2, f3⟩ := F.coords
    have ex : m'.x m.size = px := by rw [f2, S.xn, i16_eq hx]
    have ey : m'.y m.size = py := by rw [f3, S.yn, i16_eq hy]
    have ez : m'.size = m.size + 1 := by rw [f1, S.size]
    have nv : ¬ m.Vertex px py := fun ⟨v, h1, h2, h3⟩ => hv v h1 ⟨h2, h3⟩
    refine ⟨⟨fun _ => Or.inr ⟨strict ez ex ey, hl⟩, fun _ => hi⟩, ?_, fun _ _ => ⟨ez, fun v hv => ?_, ex, ey⟩⟩
    · rintro (e | e)
      · exact absurd e hi
      · exact absurd e nv
    · rw [f2, f3, S.x v hv, S.y v hv]; exact ⟨rfl, rfl⟩

/-- the mesh of the examples: three points -/
def pts1 : Mesh := ((insertPoint 100 60 sample0 (-20000) (-10000) 0).get (by decide +kernel)).1
/-- the second -/
def pts2 : Mesh := ((insertPoint 100 60 pts1 5000 6000 0).get (by decide +kernel)).1
/-- the third -/
def pts3 : Mesh := ((insertPoint 100 60 pts2 (-3000) 20000 24).get (by decide +kernel)).1

theorem pts3_points : Points 100 pts3 := by
  have h1 : Points 100 pts1 := by
    unfold pts1
    exact .point (.reset _) (get_pair _ _)
  have h2 : Points 100 pts2 := by
    unfold pts2
    exact .point h1 (get_pair _ _)
  unfold pts3
  exact .point h2 (get_pair _ _)

-- a new point, a vertex again, and a point on the outline
example : Reach 100 pts3 ∧ ((insertPoint 100 60 pts3 7 7 0).map fun r => (r.1.size, decide (r.2 = 0))) = some (8, false) ∧
    ((insertPoint 100 60 pts3 5000 6000 0).map fun r => (r.1.size, decide (r.2 = 0))) = some (7, false) ∧
    ((insertPoint 100 60 pts3 32767 0 0).map fun r => (r.1.size, decide (r.2 = 0))) = some (7, true) :=
  ⟨pts3_points.marked.reach, by decide +kernel, by decide +kernel, by decide +kernel⟩

/-! ### C79 -/

/-- C79.  After `reset` and any sequence of `insert_point`, `constrain_edge`, `flip` and `fill`, every edge that is not constrained
is locally Delaunay. -/
theorem C79_locally_delaunay_partial (h : Marked limit m) : LocallyDelaunay m := by
  intro f j u hj hc
  rw [circle_dt u hj]
  exact h.legal _ (u.isE hj) hc

/-- C79.  Without constraints no vertex is strictly inside the circle of a face. -/
theorem C79_delaunay (h : Points limit m) : Delaunay m := by
  intro f v u hv
  obtain ⟨I, R⟩ := reach_inv h.marked.reach
  rw [circle_dt u (j := 0) (by omega)]
  exact delaunay I R (reach_tiled h.marked.reach).1 h.full (u.isE (by omega)) hv

example : Points 100 pts3 ∧ pts3.size = 7 ∧ Delaunay pts3 ∧ Used pts3 6 :=
  ⟨pts3_points, by decide +kernel, C79_delaunay pts3_points, by unfold Used; decide +kernel⟩

/-- a point -/
def bent1 : Mesh := ((insertPoint 100 60 sample0 0 1000 0).get (by decide +kernel)).1
/-- another point -/
def bent2 : Mesh := ((insertPoint 100 60 bent1 10000 (-10000) 0).get (by decide +kernel)).1
/-- an edge that crosses edges of the mesh -/
def bent : Mesh := ((insertEdge 100 100 bent2 (-5000) 10000 7000 (-8000) 0).get (by decide +kernel)).1

/-- C79.  `insert_edge` does not keep it: it turns the edges in the way but does not restore all of them afterwards, so the result
is not a constrained Delaunay triangulation. -/
theorem C79_insert_edge_false : ∃ m, Reach 100 m ∧ ¬ LocallyDelaunay m := by
  refine ⟨bent, ?_, ?_⟩
  · have h1 : Reach 100 bent1 := by
      unfold bent1
      exact .point (.reset _) (get_pair _ _)
    have h2 : Reach 100 bent2 := by
      unfold bent2
      exact .point h1 (get_pair _ _)
    unfold bent
    exact .edge h2 (get_pair _ _)
  · intro h
    have := h 11 0 (by unfold Used; decide +kernel) (by decide) (by decide +kernel)
    exact absurd this (by decide +kernel)

/-! ### C80 -/

/-- C80.  Without constraints the walk of `insert_point` takes at most `6 size` steps from any hint to any point. -/
theorem C80_walk_ends_partial (h : Points limit m) (px py : Int) (hint : Nat) :
    ∃ n, ∀ k, 6 * m.size ≤ k → locateIns k m px py hint = some n :=
  locateIns_total (reach_inv h.marked.reach).1 (h.full.tame (reach_inv h.marked.reach).1) px py hint

/-- C80.  Without constraints `insert_point` always ends. -/
theorem C80_insert_ends_partial (h : Points limit m) (px py : Int) (hint : Nat) :
    ∃ K r, ∀ k, K ≤ k → insertPoint limit k m px py hint = some r :=
  insertPoint_total (reach_inv h.marked.reach).1 (h.full.tame (reach_inv h.marked.reach).1) limit px py hint

/-- C80.  Without constraints `locate` finds the face of every point of the square, from any hint, in at most `6 size` steps. -/
theorem C80_locate_ends_partial (h : Points limit m) {w px py : Int} (hw : 0 < w) (hw' : w ≤ 32768) (hp : InSquare w ⟨px, py⟩) (hint : Nat) :
    ∃ r, (∀ k, 6 * m.size ≤ k → locate k m w px py hint = some r) ∧ Used m (r / 4) ∧ r % 4 = 3 ∧
      inTriangle ⟨px, py⟩ (m.pt w (m.corner (r / 4) 0)) (m.pt w (m.corner (r / 4) 1)) (m.pt w (m.corner (r / 4) 2)) = some true := by
  have R := h.marked.reach
  obtain ⟨r, hr⟩ := locate_total (reach_inv R).1 (h.full.tame (reach_inv R).1) hw hint fun v hv => ⟨_, (C75_fits R hw hw' hp v hv).2⟩
  refine ⟨r, hr, ?_⟩
  rcases C75_locate R hw (hr _ (le_refl _)) with ⟨-, e⟩ | e
  · exact absurd hp e
  · exact e

example : ∃ n, ∀ k, 42 ≤ k → locateIns k pts3 123 (-456) 31 = some n := by
  have := C80_walk_ends_partial pts3_points 123 (-456) 31
  rwa [show 6 * pts3.size = 42 by decide +kernel] at this
example : InSquare 256 ⟨1000, -2000⟩ ∧ (0 : Int) < 256 ∧ (256 : Int) ≤ 32768 := by decide

/-- where the walk goes next -/
def hop (m : Mesh) (at' : Nat → Option V2) (ins : V2 → V2 → Option Bool) : Bool × Nat × V2 × V2 → Option (Bool × Nat × V2 × V2)
  | (false, e, p1, p2) =>
    if e = 0 then none
    else do
      let p0 ← at' (m.p e)
      let in1 ← ins p2 p0
      let in2 ← ins p0 p1
      if in1 && in2 then none
      else if in1 then some (false, m.e (pv e), p1, p0)
      else if in2 then some (false, m.e (nx e), p0, p2)
      else some (true, m.e (nx e), p0, p2)
  | (true, e, p1, p2) =>
    if e = 0 then none
    else do
      let ok ← ins p1 p2
      if ¬ ok then none
      else do
        let p0 ← at' (m.p e)
        let in2 ← ins p0 p1
        if in2 then do
          let in1 ← ins p2 p0
          if in1 then none
          else some (false, m.e (nx e), p0, p2)
        else some (true, m.e (pv e), p1, p0)

theorem hop_walk {m : Mesh} {at' ins asrt} {b b' : Bool} {e e' : Nat} {p1 p2 q1 q2 : V2}
    (h : hop m at' ins (b, e, p1, p2) = some (b', e', q1, q2)) (k : Nat) :
    walk m at' ins asrt (k + 1) b e p1 p2 = walk m at' ins asrt k b' e' q1 q2 := by
  cases b
  · simp only [hop] at h
    simp only [walk]
    split at h
    · cases h
    next h0 =>
    rw [if_neg h0]
    cases ha : at' (m.p e) with
    | none => simp [ha] at h
    | some p0 =>
      cases h1 : ins p2 p0 with
      | none => simp [ha, h1] at h
      | some in1 =>
        cases h2 : ins p0 p1 with
        | none => simp [ha, h1, h2] at h
        | some in2 =>
          simp only [ha, h1, h2, Option.bind_eq_bind, Option.bind_some] at h ⊢
          cases in1 <;> cases in2 <;> simp at h ⊢ <;> obtain ⟨rfl, rfl, rfl, rfl⟩ := h <;> rfl
  · simp only [hop] at h
    simp only [walk]
    split at h
    · cases h
    next h0 =>
    cases h3 : ins p1 p2 with
    | none => simp [h3] at h
    | some ok =>
      cases ok
      · simp [h3] at h
      cases ha : at' (m.p e) with
      | none => simp [h3, ha] at h
      | some p0 =>
        cases h2 : ins p0 p1 with
        | none => simp [h3, ha, h2] at h
        | some in2 =>
          simp only [h3, ha, h2, Option.bind_eq_bind, Option.bind_some] at h ⊢
          cases asrt <;> cases in2
          · simp [h0] at h ⊢
            obtain ⟨rfl, rfl, rfl, rfl⟩ := h
            rfl
          · cases h1 : ins p2 p0 with
            | none => simp [h1] at h
            | some in1 =>
              cases in1 <;> simp [h1, h0] at h ⊢
              obtain ⟨rfl, rfl, rfl, rfl⟩ := h
              rfl
          · simp [h0] at h ⊢
            obtain ⟨rfl, rfl, rfl, rfl⟩ := h
            rfl
          · cases h1 : ins p2 p0 with
            | none => simp [h1] at h
            | some in1 =>
              cases in1 <;> simp [h1, h0] at h ⊢
              obtain ⟨rfl, rfl, rfl, rfl⟩ := h
              rfl

/-- several steps -/
def hops (m : Mesh) (at' : Nat → Option V2) (ins : V2 → V2 → Option Bool) : Nat → Bool × Nat × V2 × V2 → Option (Bool × Nat × V2 × V2)
  | 0, s => some s
  | n + 1, s => (hop m at' ins s).bind (hops m at' ins n)

theorem hops_walk {m : Mesh} {at' ins asrt} : ∀ {n : Nat} {s t : Bool × Nat × V2 × V2}, hops m at' ins n s = some t → ∀ k,
    walk m at' ins asrt (k + n) s.1 s.2.1 s.2.2.1 s.2.2.2 = walk m at' ins asrt k t.1 t.2.1 t.2.2.1 t.2.2.2
  | 0, _, _, h, k => by cases h; rfl
  | n + 1, s, t, h, k => by
    simp only [hops] at h
    cases hs : hop m at' ins s with
    | none => simp [hs] at h
    | some u =>
      simp only [hs, Option.bind_some] at h
      rw [← hops_walk h k, ← add_assoc]
      obtain ⟨_, _, _, _⟩ := s
      obtain ⟨_, _, _, _⟩ := u
      exact hop_walk hs _

/-- a walk that comes back to where it was never ends -/
theorem walk_loops {m : Mesh} {at' ins asrt} {N L : Nat} {s t : Bool × Nat × V2 × V2} (hN : hops m at' ins N s = some t)
    (hL : hops m at' ins (L + 1) t = some t) (k : Nat) : walk m at' ins asrt k s.1 s.2.1 s.2.2.1 s.2.2.2 = none := by
  have h1 : ∀ j, walk m at' ins asrt (j * (L + 1)) t.1 t.2.1 t.2.2.1 t.2.2.2 = none := by
    intro j
    induction j with
    | zero => simp [walk]
    | succ j ih => rw [Nat.succ_mul, hops_walk hL]; exact ih
  have h2 := hops_walk (asrt := asrt) hN (k * (L + 1))
  rw [h1] at h2
  cases hk : walk m at' ins asrt k s.1 s.2.1 s.2.2.1 s.2.2.2 with
  | none => rfl
  | some r =>
    have hm : ∀ d, walk m at' ins asrt (k + d) s.1 s.2.1 s.2.2.1 s.2.2.2 = some r := by
      intro d
      induction d with
      | zero => exact hk
      | succ d ih => exact walk_mono asrt _ _ _ _ _ _ ih
    have := hm (k * L + N)
    rw [← add_assoc, show k + k * L = k * (L + 1) by ring] at this
    rw [this] at h2
    cases h2

/-- where the walk begins -/
def start (m : Mesh) (at' : Nat → Option V2) (ins : V2 → V2 → Option Bool) (e : Nat) : Option (Bool × Nat × V2 × V2) := do
  let p1 ← at' (m.p (e + 1))
  let p2 ← at' (m.p (e + 2))
  let i ← ins p1 p2
  return if i then (false, e, p1, p2) else (false, m.e e, p2, p1)

theorem walkFrom_loops {m : Mesh} {at' ins asrt} {e N L : Nat} {t : Bool × Nat × V2 × V2}
    (hN : (start m at' ins e).bind (hops m at' ins N) = some t) (hL : hops m at' ins (L + 1) t = some t) (k : Nat) :
    walkFrom m at' ins asrt k e = none := by
  cases h1 : at' (m.p (e + 1)) with
  | none => simp [start, h1] at hN
  | some p1 =>
    cases h2 : at' (m.p (e + 2)) with
    | none => simp [start, h1, h2] at hN
    | some p2 =>
      cases h3 : ins p1 p2 with
      | none => simp [start, h1, h2, h3] at hN
      | some i =>
        cases i <;> simp [start, h1, h2, h3] at hN <;> simp [walkFrom, h1, h2, h3] <;> exact walk_loops hN hL k

/-- an edge -/
def spin1 : Mesh := ((insertEdge 100 200 sample0 4184 (-366) (-8604) 12287 0).get (by decide +kernel)).1
/-- the second edge -/
def spin2 : Mesh := ((insertEdge 100 200 spin1 (-1775) 3806 (-6339) (-13595) 0).get (by decide +kernel)).1
/-- the third edge -/
def spin3 : Mesh := ((insertEdge 100 200 spin2 (-2409) (-3440) 14943 1307 0).get (by decide +kernel)).1
/-- a point behind each of the edges -/
def spin4 : Mesh := ((insertPoint 100 200 spin3 6000 0 0).get (by decide +kernel)).1
/-- the second point -/
def spin5 : Mesh := ((insertPoint 100 200 spin4 (-3000) 5196 0).get (by decide +kernel)).1
/-- the third point -/
def spin : Mesh := ((insertPoint 100 200 spin5 (-3000) (-5196) 0).get (by decide +kernel)).1

theorem spin_reach : Reach 100 spin := by
  have h1 : Reach 100 spin1 := by
    unfold spin1
    exact .edge (.reset _) (get_pair _ _)
  have h2 : Reach 100 spin2 := by
    unfold spin2
    exact .edge h1 (get_pair _ _)
  have h3 : Reach 100 spin3 := by
    unfold spin3
    exact .edge h2 (get_pair _ _)
  have h4 : Reach 100 spin4 := by
    unfold spin4
    exact .point h3 (get_pair _ _)
  have h5 : Reach 100 spin5 := by
    unfold spin5
    exact .point h4 (get_pair _ _)
  unfold spin
  exact .point h5 (get_pair _ _)

/-- C80.  With constraints it does not hold: after three calls of `insert_edge` and three of `insert_point` the walk goes around
the origin for ever, so neither `insert_point(0, 0)` nor `locate(0, 0)` ends. -/
theorem C80_constraints_false : ∃ m, Reach 100 m ∧ (∀ k, insertPoint 100 k m 0 0 0 = none) ∧ (∀ k, locate k m 1 0 0 0 = none) := by
  refine ⟨spin, spin_reach, fun k => ?_, fun k => ?_⟩
  · have : locateIns k spin 0 0 0 = none := by
      have h8 : spin.size = 13 := by decide +kernel
      simp only [locateIns, h8]
      exact walkFrom_loops (N := 7) (L := 8) (t := (false, 65, ⟨-6339, -13595⟩, ⟨-1775, 3806⟩)) (by decide +kernel) (by decide +kernel) k
    simp [insertPoint, this]
  · have h8 : spin.size = 13 := by decide +kernel
    have : walkFrom spin (spin.at32 1 0 0) inside false k 100 = none :=
      walkFrom_loops (N := 7) (L := 8) (t := (false, 65, ⟨-6339, -13595⟩, ⟨-1775, 3806⟩)) (by decide +kernel) (by decide +kernel) k
    simp [locate, h8, this]

/-! ### C81 -/

/-- C81.  The faces of every mesh a program can have tile the square. -/
theorem C81_tiling (h : Reach limit m) : Tiling m := by
  obtain ⟨I, R⟩ := reach_inv h
  obtain ⟨C, D⟩ := reach_tiled h
  have i0 : ∀ {f}, Used m f → IsE m.size (4 * f) := fun u => u.isE (j := 0) (by omega)
  refine ⟨?_, ?_, ?_, ?_, D⟩
  · intro f g x y uf ug hf hg
    have := planar I R (i0 uf) (i0 ug) ((inside_open uf).1 hf) ((inside_open ug).1 hg)
    omega
  · intro x y h1 h2 h3 h4
    obtain ⟨i, hi, hin⟩ := covered I R ⟨h1, h2⟩ ⟨h3, h4⟩
    have u : Used m (i / 4) := hi.isF
    refine ⟨i / 4, u, (within_shut u).2 ?_⟩
    rw [mul_comm]
    exact InShut.base hi hin
  · intro f v u hv hin
    obtain ⟨j, hj, ej⟩ := C v hv
    have := shut_iff.1 ((within_shut u).1 hin)
    rw [← ej] at this
    obtain ⟨k, hk, hf, kx, ky⟩ := clean I R (i0 u) hj this
    have kv : m.p k = v := by rw [ej] at kx ky; exact D _ _ (I.pl _ hk) hv kx ky
    have h3 : k % 4 < 3 := by unfold IsE at hk; omega
    refine ⟨k % 4, h3, ?_⟩
    rw [corner_at m f h3, ← kv]
    congr 1
    omega
  · intro v hv
    obtain ⟨j, hj, ej⟩ := C v hv
    have h3 : j % 4 < 3 := by unfold IsE at hj; omega
    refine ⟨j / 4, j % 4, hj.isF, h3, ?_⟩
    rw [corner_at m _ h3, ← ej]
    congr 1
    omega

example : Tiling sample := C81_tiling sample_reach

end CE.Cdt
