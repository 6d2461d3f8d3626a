import Verif.Spec.Draw
import Verif.Proof.CdtDraw
import Verif.Props.Outline
import Verif.Props.Near
/-!
# C125: lines along edges of a triangulation are drawn as they are, and what they enclose is filled
-/
namespace CE.Cdt

open CE.Vec

variable {m m' : Mesh} {limit n : Nat} {v : Nat → Nat}

theorem LocallyDelaunay.legal (h : LocallyDelaunay m) : Legal m := by
  intro i hi hc
  have h3 : i % 4 < 3 := by unfold IsE at hi; omega
  have e : 4 * (i / 4) + i % 4 = i := by omega
  have := h (i / 4) (i % 4) hi.isF h3 (by rw [e]; exact hc)
  rw [circle_dt hi.isF h3, e] at this
  exact this

theorem Mesh.Joined.edge {u w : Nat} (h : m.Joined u w) : ∃ f j, Used m f ∧ j < 3 ∧ m.Edge f j u w := by
  obtain ⟨f, j, U, hj, h⟩ := h
  unfold Mesh.Edge
  have hc : ∀ k, m.corner f (k + 3) = m.corner f k := fun k => by unfold Mesh.corner; rw [Nat.add_mod_right]
  obtain rfl | rfl | rfl : j = 0 ∨ j = 1 ∨ j = 2 := by omega
  · exact ⟨f, 2, U, by omega, by simpa only [hc 0, hc 1] using h⟩
  · exact ⟨f, 0, U, by omega, h⟩
  · exact ⟨f, 1, U, by omega, h⟩

theorem edge_iff_ends {f j u w : Nat} (hj : j < 3) :
    m.Edge f j u w ↔ (m.p (nx (4 * f + j)) = u ∧ m.p (pv (4 * f + j)) = w ∨ m.p (nx (4 * f + j)) = w ∧ m.p (pv (4 * f + j)) = u) := by
  unfold Mesh.Edge; rw [corner_nx m f hj, corner_pv m f hj]

/-- what the mark does -/
theorem mark_drawn (h : Reach limit m) {i u w : Nat} (hi : IsE m.size i) (he : m.e i ≠ 0) (hu : m.p (pv i) = w ∧ m.p (nx i) = u ∨ m.p (pv i) = u ∧ m.p (nx i) = w) :
    Drawn m (m.mark i) [(u, w)] := by
  obtain ⟨I, R⟩ := reach_inv h
  refine ⟨rfl, fun f j U hj => ?_⟩
  have hk := U.isE hj
  rw [mark_c]
  simp only [List.mem_singleton, exists_eq_left]
  rw [edge_iff_ends hj]
  obtain ⟨t1, t2, -, t4, t5⟩ := I.tw i hi he
  constructor
  · intro hc
    split at hc
    · rename_i e
      right
      rcases e with e | e
      · rw [e]
        rcases hu with ⟨a, b⟩ | ⟨a, b⟩
        · exact .inl ⟨b, a⟩
        · exact .inr ⟨b, a⟩
      · rw [e, t4, t5]
        rcases hu with ⟨a, b⟩ | ⟨a, b⟩
        · exact .inr ⟨a, b⟩
        · exact .inl ⟨a, b⟩
    · exact .inl hc
  · intro hc
    split
    · decide
    · rename_i ne
      rcases hc with hc | hc
      · exact hc
      · exfalso
        apply ne
        have same : m.p (nx (4 * f + j)) = m.p (nx i) → m.p (pv (4 * f + j)) = m.p (pv i) → 4 * f + j = i := fun a b =>
          ends_inj I R hk hi (by unfold Mesh.ends; rw [a, b])
        have twin : m.p (nx (4 * f + j)) = m.p (pv i) → m.p (pv (4 * f + j)) = m.p (nx i) → 4 * f + j = m.e i := fun a b =>
          (ends_twin I R hi hk (by unfold Mesh.ends; rw [a, b])).symm
        rcases hu with ⟨a, b⟩ | ⟨a, b⟩ <;> rcases hc with ⟨c, d⟩ | ⟨c, d⟩
        · exact .inl (same (c.trans b.symm) (d.trans a.symm))
        · exact .inr (twin (c.trans a.symm) (d.trans b.symm))
        · exact .inr (twin (c.trans a.symm) (d.trans b.symm))
        · exact .inl (same (c.trans b.symm) (d.trans a.symm))

theorem Joined.lt (h : Reach limit m) {u w : Nat} (j : m.Joined u w) : u < m.size ∧ w < m.size := by
  obtain ⟨f, j, U, -, ⟨rfl, rfl⟩ | ⟨rfl, rfl⟩⟩ := j <;> exact ⟨(C71_linked h).vertex _ _ U, (C71_linked h).vertex _ _ U⟩

/-- the spoke of joined vertices -/
theorem joined_spoke (h : Reach limit m) {f j u w : Nat} (U : Used m f) (hj : j < 3) (h4 : 4 ≤ u) (E : m.Edge f j u w) :
    ∃ i, IsE m.size i ∧ m.p i = u ∧ m.p (pv i) = w ∧ m.e (nx i) ≠ 0 ∧ Drawn m (m.mark (nx i)) [(u, w)] := by
  have g := reach_sound h
  obtain ⟨i, hi, a, b, c, -⟩ := g.spoke (U.isE hj) h4 ((edge_iff_ends hj).1 E)
  exact ⟨i, hi, a, b, c, mark_drawn h hi.nx c (.inr ⟨by rw [hi.pv_nx, a], by rw [hi.nx_nx, b]⟩)⟩

/-- the search at the end of the loop -/
theorem last_search (h : Reach limit m) {i : Nat} (hi : IsE m.size i) (he : m.e (nx i) ≠ 0) :
    walking (m.mark (nx i)) (m.x (m.p (pv i))) (m.y (m.p (pv i))) (m.e (nx i)) = some (m.e (nx i) / 4 * 4) := by
  have g := reach_sound h
  have g1 : Sound (m.mark (nx i)) := (Steps.step (.con hi.nx) (.refl _) : Steps m (m.mark (nx i))).sound g
  obtain ⟨t1, t2, -, t4, t5⟩ := g.inv.tw _ hi.nx he
  rw [hi.nx_nx] at t5
  have := walking_here g1 (u := m.p (pv i)) (x := m.x (m.p (pv i))) (y := m.y (m.p (pv i))) (i := pv (m.e (nx i))) (hint := m.e (nx i))
    ⟨g.inv.pl _ hi.pv, rfl, rfl⟩ t1.pv t5 t1.pv_div.symm
  rw [t1.pv_div] at this
  exact this

/-- C125.  Between two vertices that an edge of the triangulation joins, `insert_edge` changes nothing but this edge, which it
constrains, and reports success. -/
theorem C125_edge (h : Reach limit m) (D : LocallyDelaunay m) {u w hint k : Nat} {ok : Bool} (h4 : 4 ≤ u) (J : m.Joined u w)
    (run : insertEdge limit k m (m.x u) (m.y u) (m.x w) (m.y w) hint = some (m', ok)) : ok = true ∧ Drawn m m' [(u, w)] := by
  have g := reach_sound h
  obtain ⟨lu, lw⟩ := Joined.lt h J
  obtain ⟨f, j, U, hj, E⟩ := J.edge
  obtain ⟨i, hi, rfl, rfl, he, M⟩ := joined_spoke h U hj h4 E
  obtain ⟨K, hK⟩ := (C112_same m m' hint ok).1 ⟨k, run⟩
  have hu : Pos m (m.p i) (m.x (m.p i)) (m.y (m.p i)) := ⟨lu, rfl, rfl⟩
  have hw : Pos m (m.p (pv i)) (m.x (m.p (pv i))) (m.y (m.p (pv i))) := ⟨lw, rfl, rfl⟩
  cases K with
  | zero => simp [insertEdgeBy] at hK
  | succ K =>
  have hK' := hK
  rw [insertEdgeBy] at hK
  cases f1 : walking m (m.x (m.p i)) (m.y (m.p i)) hint with
  | none => simp [f1] at hK
  | some n1 =>
  obtain ⟨-, j1, hj1, e1, p1⟩ := walking_right.vertex g hu f1
  have hpq : ¬ (m.x (m.p i) = m.x (m.p (pv i)) ∧ m.y (m.p i) = m.y (m.p (pv i))) := fun c =>
    g.inv.ne2 hi (g.distinct _ _ lu lw c.1 c.2)
  simp only [f1, insertAt_vertex g hu hj1 p1 e1.symm limit K, e1, if_neg (e1 ▸ hj1.base.pos : n1 / 4 * 4 ≠ 0), if_neg hpq] at hK
  cases f2 : walking m (m.x (m.p (pv i))) (m.y (m.p (pv i))) (n1 / 4 * 4) with
  | none => simp [f2] at hK
  | some n2 =>
  have f3 := walking_here g hu hj1 p1 (hint := n1 / 4 * 4) (by omega)
  obtain ⟨K2, hK2⟩ := edge_joined (limit := limit) walking_right g D.legal hi h4 hu hw f1 f2 f3 (last_search h hi he)
  obtain ⟨K3, hK3⟩ := (by_ends limit (K + 1)).1 _ _ _ _ _ _ _ _ hK'
  have a1 := hK2 (max K2 K3) (le_max_left _ _)
  have a2 := (by_same limit _).1 _ _ _ _ _ _ _ _ (hK3 (max K2 K3) (le_max_right _ _))
  simp only at a1
  rw [a1] at a2
  simp only [Option.some.injEq, Run.done.injEq] at a2
  obtain ⟨rfl, rfl⟩ := a2
  exact ⟨rfl, M⟩

/-- C125.  With a face of this edge as the hint it does return. -/
theorem C125_hint (h : Reach limit m) (D : LocallyDelaunay m) {u w f j : Nat} (h4 : 4 ≤ u) (U : Used m f) (hj : j < 3) (E : m.Edge f j u w) :
    ∃ m' K, ∀ k, K ≤ k → insertEdge limit k m (m.x u) (m.y u) (m.x w) (m.y w) (4 * f) = some (m', true) := by
  have g := reach_sound h
  obtain ⟨i, hi, rfl, rfl, he, M⟩ := joined_spoke h U hj h4 E
  have hu : Pos m (m.p i) (m.x (m.p i)) (m.y (m.p i)) := ⟨g.inv.pl _ hi, rfl, rfl⟩
  have hw : Pos m (m.p (pv i)) (m.x (m.p (pv i))) (m.y (m.p (pv i))) := ⟨g.inv.pl _ hi.pv, rfl, rfl⟩
  have hk := U.isE hj
  have fk : (4 * f + j) / 4 = f := by omega
  obtain ⟨a, b, ha, hb, pa, pb, fa, fb⟩ : ∃ a b, IsE m.size a ∧ IsE m.size b ∧ m.p a = m.p i ∧ m.p b = m.p (pv i) ∧ a / 4 = f ∧ b / 4 = f := by
    rcases (edge_iff_ends hj).1 E with ⟨c, d⟩ | ⟨c, d⟩
    · exact ⟨_, _, hk.nx, hk.pv, c, d, by rw [hk.nx_div, fk], by rw [hk.pv_div, fk]⟩
    · exact ⟨_, _, hk.pv, hk.nx, d, c, by rw [hk.pv_div, fk], by rw [hk.nx_div, fk]⟩
  have f1 := walking_here g hu ha pa (hint := 4 * f) (by omega)
  have f2 := walking_here g hw hb pb (hint := a / 4 * 4 / 4 * 4) (by omega)
  have f3 := walking_here g hu ha pa (hint := a / 4 * 4 / 4 * 4) (by omega)
  obtain ⟨K, hK⟩ := edge_joined (limit := limit) walking_right g D.legal hi h4 hu hw f1 f2 f3 (last_search h hi he)
  obtain ⟨K', hK'⟩ := (by_ends limit K).1 _ _ _ _ _ _ _ _ (hK K (le_refl _))
  exact ⟨_, K', hK'⟩

/-- C125.  Without other constraints it returns with any hint. -/
theorem C125_points (h : Points limit m) {u w : Nat} (h4 : 4 ≤ u) (J : m.Joined u w) (hint : Nat) :
    ∃ m' K, ∀ k, K ≤ k → insertEdge limit k m (m.x u) (m.y u) (m.x w) (m.y w) hint = some (m', true) := by
  have r := h.marked.reach
  have g := reach_sound r
  obtain ⟨f, j, U, hj, E⟩ := J.edge
  obtain ⟨i, hi, rfl, rfl, he, M⟩ := joined_spoke r U hj h4 E
  have hu : Pos m (m.p i) (m.x (m.p i)) (m.y (m.p i)) := ⟨g.inv.pl _ hi, rfl, rfl⟩
  have hw : Pos m (m.p (pv i)) (m.x (m.p (pv i))) (m.y (m.p (pv i))) := ⟨g.inv.pl _ hi.pv, rfl, rfl⟩
  have some' : ∀ px py hint, ∃ n, walking m px py hint = some n := by
    intro px py hint
    obtain ⟨n, hn⟩ := C80_walk_ends_partial h px py hint
    exact ⟨n, walking_of (hn _ (le_refl _))⟩
  obtain ⟨n1, f1⟩ := some' (m.x (m.p i)) (m.y (m.p i)) hint
  obtain ⟨n2, f2⟩ := some' (m.x (m.p (pv i))) (m.y (m.p (pv i))) (n1 / 4 * 4)
  obtain ⟨n3, f3⟩ := some' (m.x (m.p i)) (m.y (m.p i)) (n1 / 4 * 4)
  obtain ⟨K, hK⟩ := edge_joined (limit := limit) walking_right g h.marked.legal hi h4 hu hw f1 f2 f3 (last_search r hi he)
  obtain ⟨K', hK'⟩ := (by_ends limit K).1 _ _ _ _ _ _ _ _ (hK K (le_refl _))
  exact ⟨_, K', hK'⟩

/-! ### many edges -/

theorem Drawn.same {es} (d : Drawn m m' es) : m'.size = m.size ∧ m'.x = m.x ∧ m'.y = m.y ∧ m'.p = m.p ∧ m'.e = m.e ∧ m'.fi = m.fi := by
  rw [d.rest]; exact ⟨rfl, rfl, rfl, rfl, rfl, rfl⟩

theorem Drawn.used {es} (d : Drawn m m' es) {f} : Used m' f ↔ Used m f := by unfold Used; rw [d.same.1]

theorem Drawn.corner {es} (d : Drawn m m' es) : m'.corner = m.corner := by
  funext f j; unfold Mesh.corner; rw [d.same.2.2.2.1]

theorem Drawn.edge {es} (d : Drawn m m' es) {f j u w} : m'.Edge f j u w ↔ m.Edge f j u w := by unfold Mesh.Edge; rw [d.corner]

theorem Drawn.joined {es} (d : Drawn m m' es) {u w} : m'.Joined u w ↔ m.Joined u w := by
  unfold Mesh.Joined; simp only [d.used, d.corner]

theorem Drawn.delaunay {es} (d : Drawn m m' es) (D : LocallyDelaunay m) : LocallyDelaunay m' := by
  intro f j U hj hc
  have := D f j (d.used.1 U) hj (by
    by_contra c
    exact (d.on f j (d.used.1 U) hj).2 (.inl c) hc)
  unfold Mesh.circle at *
  rw [d.corner, d.same.2.1, d.same.2.2.1, d.same.2.2.2.1, d.same.2.2.2.2.1]
  exact this

theorem Drawn.trans {m'' es es'} (d : Drawn m m' es) (d' : Drawn m' m'' es') : Drawn m m'' (es ++ es') := by
  refine ⟨?_, fun f j U hj => ?_⟩
  · rw [d'.rest]
    conv => lhs; rw [d.rest]
  · rw [d'.on f j (d.used.2 U) hj, d.on f j U hj]
    simp only [List.mem_append, d.edge]
    constructor
    · rintro ((h | ⟨e, h1, h2⟩) | ⟨e, h1, h2⟩)
      · exact .inl h
      · exact .inr ⟨e, .inl h1, h2⟩
      · exact .inr ⟨e, .inr h1, h2⟩
    · rintro (h | ⟨e, h1 | h1, h2⟩)
      · exact .inl (.inl h)
      · exact .inl (.inr ⟨e, h1, h2⟩)
      · exact .inr ⟨e, h1, h2⟩

/-- C125.  Any number of lines along edges: `insert_edge` for each of them, in any order and with any hints, constrains exactly these
edges. -/
theorem C125_lines (h : Reach limit m) (D : LocallyDelaunay m) {es : List (Nat × Nat)} (J : ∀ e ∈ es, 4 ≤ e.1 ∧ m.Joined e.1 e.2)
    (run : Drawing limit m es m') : Drawn m m' es ∧ Reach limit m' := by
  induction run with
  | none m => exact ⟨⟨rfl, fun f j _ _ => by simp⟩, h⟩
  | @next m m' m'' k u w hint ok es run rest ih =>
    obtain ⟨j4, j⟩ := J (u, w) List.mem_cons_self
    obtain ⟨-, d⟩ := C125_edge h D j4 j run
    obtain ⟨d', r⟩ := ih (.edge h run) (d.delaunay D) fun e he =>
      ⟨(J e (List.mem_cons_of_mem _ he)).1, d.joined.2 (J e (List.mem_cons_of_mem _ he)).2⟩
    exact ⟨d.trans d', r⟩

/-- C125.  And it can be done: with the right hints all calls return. -/
theorem C125_can (h : Reach limit m) (D : LocallyDelaunay m) {es : List (Nat × Nat)} (J : ∀ e ∈ es, 4 ≤ e.1 ∧ m.Joined e.1 e.2) :
    ∃ m', Drawing limit m es m' := by
  induction es generalizing m with
  | nil => exact ⟨m, .none m⟩
  | cons e es ih =>
    obtain ⟨j4, j⟩ := J e List.mem_cons_self
    obtain ⟨f, i, U, hi, E⟩ := j.edge
    obtain ⟨m1, K, hK⟩ := C125_hint h D j4 U hi E
    have run := hK K (le_refl _)
    obtain ⟨-, d⟩ := C125_edge h D j4 j run
    obtain ⟨m2, r⟩ := ih (.edge h run) (d.delaunay D) fun e he =>
      ⟨(J e (List.mem_cons_of_mem _ he)).1, d.joined.2 (J e (List.mem_cons_of_mem _ he)).2⟩
    exact ⟨m2, .next run r⟩

/-! ### a polygon -/

theorem mem_sidesOf {e : Nat × Nat} : e ∈ sidesOf n v ↔ ∃ k, k < n ∧ e = (v k, v (k + 1)) := by
  unfold sidesOf
  simp only [List.mem_map, List.mem_range]
  constructor <;> rintro ⟨k, h, e⟩ <;> exact ⟨k, h, e.symm⟩

/-- C125.  A polygon of edges of a triangulation of points, drawn with `insert_edge`, is the outline: its sides are constrained and no
other edge inside the square is. -/
theorem C125_polygon (h : Points limit m) (h3 : 3 ≤ n) (round : v n = v 0) (inj : ∀ j k, j < n → k < n → v j = v k → j = k)
    (inner : ∀ k, k < n → 4 ≤ v k) (J : ∀ k, k < n → m.Joined (v k) (v (k + 1))) (run : Drawing limit m (sidesOf n v) m') :
    m'.Outline n v ∧ m' = { m with c := m'.c } ∧ Reach limit m' := by
  obtain ⟨d, r⟩ := C125_lines h.marked.reach (C79_locally_delaunay_partial h.marked) (fun e he => by
    obtain ⟨k, hk, rfl⟩ := mem_sidesOf.1 he
    exact ⟨inner k hk, J k hk⟩) run
  refine ⟨⟨h3, round, inj, inner, ?_, ?_⟩, d.rest, r⟩
  · intro k hk
    obtain ⟨f, j, U, hj, E⟩ := (J k hk).edge
    refine ⟨f, j, d.used.2 U, hj, (d.on f j U hj).2 (.inr ⟨_, mem_sidesOf.2 ⟨k, hk, rfl⟩, E⟩), ?_⟩
    rw [d.corner]; exact E
  · intro f j U hj hc he
    have U := d.used.1 U
    rw [d.same.2.2.2.2.1] at he
    rw [d.corner]
    rcases (d.on f j U hj).1 hc with c | ⟨e, he, E⟩
    · exact absurd (h.free _ (U.isE hj) c) he
    · obtain ⟨k, hk, rfl⟩ := mem_sidesOf.1 he
      exact ⟨k, hk, E⟩

/-- C125.  Draw a polygon whose sides have no other vertex in the circles around them, then `fill`: exactly the faces on the side of
the polygon where `fill` starts are painted, and `in_polygon` says which they are. -/
theorem C125_paint (h : Points limit m) (h3 : 3 ≤ n) (round : v n = v 0) (inj : ∀ j k, j < n → k < n → v j = v k → j = k)
    (inner : ∀ k, k < n → 4 ≤ v k ∧ v k < m.size)
    (out : ∀ k w, k < n → w < m.size → w ≠ v k → w ≠ v (k + 1) → m.dist2 (v k) (v (k + 1)) < m.dist2 (v k) w + m.dist2 w (v (k + 1))) :
    (∃ m', Drawing limit m (sidesOf n v) m') ∧
    ∀ m', Drawing limit m (sidesOf n v) m' → ∀ info f (p : V2), (∀ g, Used m g → m.fi g ≠ info) → Used m f → m.Has f p.x p.y →
      Off (m.polygon n v) p.x p.y → ∃ w, inPolygon p (m.polygon n v) = some w ∧ ∃ K, ∀ k, K ≤ k → ∃ m'', fill k m' (4 * f) info = some m'' ∧
        ∀ g (q : V2), Used m g → m.Has g q.x q.y → Off (m.polygon n v) q.x q.y →
          ∃ w', inPolygon q (m.polygon n v) = some w' ∧ (m''.fi g = info ↔ (w' = 0 ↔ w = 0)) := by
  have lt : ∀ k, k ≤ n → v k < m.size := by
    intro k hk
    rcases Nat.lt_or_ge k n with h | h
    · exact (inner k h).2
    · rw [show k = n by omega, round]; exact (inner 0 (by omega)).2
  have J : ∀ k, k < n → m.Joined (v k) (v (k + 1)) := by
    intro k hk
    refine C122_diameter h (lt k hk.le) (lt (k + 1) hk) ?_ fun w hw a b => out k w hk hw a b
    intro e
    rcases Nat.lt_or_ge (k + 1) n with h | h
    · have := inj _ _ hk h e; omega
    · rw [show k + 1 = n by omega, round] at e
      have := inj _ _ hk (by omega) e; omega
  refine ⟨C125_can h.marked.reach (C79_locally_delaunay_partial h.marked) fun e he => ?_, fun m' run info f p clear U hp op => ?_⟩
  · obtain ⟨k, hk, rfl⟩ := mem_sidesOf.1 he
    exact ⟨(inner k hk).1, J k hk⟩
  · obtain ⟨O, e, r⟩ := C125_polygon h h3 round inj (fun k hk => (inner k hk).1) J run
    generalize m'.c = c at e
    subst e
    exact C115_in_polygon r O clear U hp op

/-! ### an example: four points and the square between them -/

/-- the corners of a square -/
def quad1 : Mesh := ((insertPoint 100 60 sample0 (-100) (-100) 0).get (by decide +kernel)).1
def quad2 : Mesh := ((insertPoint 100 60 quad1 (-100) 100 0).get (by decide +kernel)).1
def quad3 : Mesh := ((insertPoint 100 60 quad2 100 100 0).get (by decide +kernel)).1
def quad4 : Mesh := ((insertPoint 100 60 quad3 100 (-100) 0).get (by decide +kernel)).1

theorem quad4_points : Points 100 quad4 := by
  have h1 : Points 100 quad1 := by unfold quad1; exact .point (.reset _) (get_pair _ _)
  have h2 : Points 100 quad2 := by unfold quad2; exact .point h1 (get_pair _ _)
  have h3 : Points 100 quad3 := by unfold quad3; exact .point h2 (get_pair _ _)
  unfold quad4; exact .point h3 (get_pair _ _)

example : Points 100 quad4 ∧ quad4.size = 8 ∧ 3 ≤ 4 ∧ (∀ j k, j < 4 → k < 4 → 4 + j % 4 = 4 + k % 4 → j = k) ∧
    (∀ k w, k < 4 → w < quad4.size → w ≠ 4 + k % 4 → w ≠ 4 + (k + 1) % 4 →
      quad4.dist2 (4 + k % 4) (4 + (k + 1) % 4) < quad4.dist2 (4 + k % 4) w + quad4.dist2 w (4 + (k + 1) % 4)) := by
  have s : quad4.size = 8 := by decide +kernel
  refine ⟨quad4_points, s, by decide, by omega, ?_⟩
  rw [s]
  have : ∀ k, k < 4 → ∀ w, w < 8 → w ≠ 4 + k % 4 → w ≠ 4 + (k + 1) % 4 →
      quad4.dist2 (4 + k % 4) (4 + (k + 1) % 4) < quad4.dist2 (4 + k % 4) w + quad4.dist2 w (4 + (k + 1) % 4) := by decide +kernel
  exact fun k w hk hw => this k hk w hw

-- the drawing of the square
example : ∃ m', Drawing 100 quad4 (sidesOf 4 fun k => 4 + k % 4) m' :=
  (C125_paint quad4_points (n := 4) (v := fun k => 4 + k % 4) (by decide) rfl (fun j k _ _ h => by omega)
    (fun k _ => ⟨by omega, by have s : quad4.size = 8 := by decide +kernel
                              omega⟩) (by
      have s : quad4.size = 8 := by decide +kernel
      rw [s]
      have : ∀ k, k < 4 → ∀ w, w < 8 → w ≠ 4 + k % 4 → w ≠ 4 + (k + 1) % 4 →
        quad4.dist2 (4 + k % 4) (4 + (k + 1) % 4) < quad4.dist2 (4 + k % 4) w + quad4.dist2 w (4 + (k + 1) % 4) := by decide +kernel
      exact fun k w hk hw => this k hk w hw)).1

-- one call, with a hint that has nothing to do with the edge
example : ((insertEdge 100 60 quad4 (-100) (-100) (-100) 100 0).map fun r => (r.2, r.1.size)) = some (true, 8) := by decide +kernel

end CE.Cdt
