import Verif.Model.CdtView
import Verif.Proof.CdtRoute
/-! Enumeration of edges and faces, and the packed storage. -/
namespace CE.Cdt

open CE.Vec

variable {m m' : Mesh} {px py : Int}

/-! ### loops over a view -/

theorem visit_edges (F : Nat) : ∀ d en, en ≤ 4 * F → en % 4 ≠ 3 → 4 * F - en = d → ∀ k, d < k →
    visit edgeNext (4 * F) k en = some ((List.range' en d).filter fun n => n % 4 ≠ 3) := by
  intro d
  induction d using Nat.strong_induction_on with
  | _ d ih =>
    intro en h1 h2 h3 k hk
    obtain ⟨k, rfl⟩ : ∃ k', k = k' + 1 := ⟨k - 1, by omega⟩
    rw [visit]
    by_cases hn : en = 4 * F
    · have : d = 0 := by omega
      rw [if_neg (by simpa using hn), this]; rfl
    rw [if_pos hn]
    simp only [Option.bind_eq_bind]
    by_cases h : en % 4 < 2
    · have e : edgeNext en = en + 1 := by unfold edgeNext; rw [if_pos h]
      obtain ⟨d, rfl⟩ : ∃ d', d = d' + 1 := ⟨d - 1, by omega⟩
      rw [e, ih d (by omega) (en + 1) (by omega) (by omega) (by omega) k (by omega)]
      rw [List.range'_succ, List.filter_cons_of_pos (by simpa using h2)]
      rfl
    · have e : edgeNext en = en + 2 := by unfold edgeNext; rw [if_neg h]
      obtain ⟨d, rfl⟩ : ∃ d', d = d' + 2 := ⟨d - 2, by omega⟩
      rw [e, ih d (by omega) (en + 2) (by omega) (by omega) (by omega) k (by omega)]
      rw [List.range'_succ, List.range'_succ, List.filter_cons_of_pos (by simpa using h2), List.filter_cons_of_neg (by simp; omega)]
      rfl

theorem visit_faces (F : Nat) : ∀ d f, f + d = F → ∀ k, d < k →
    visit faceNext (4 * F) k (4 * f) = some ((List.range' f d).map fun n => 4 * n) := by
  intro d
  induction d with
  | zero =>
    intro f h k hk
    obtain ⟨k, rfl⟩ : ∃ k', k = k' + 1 := ⟨k - 1, by omega⟩
    rw [visit, if_neg (by simp; omega)]; rfl
  | succ d ih =>
    intro f h k hk
    obtain ⟨k, rfl⟩ : ∃ k', k = k' + 1 := ⟨k - 1, by omega⟩
    rw [visit, if_pos (by omega)]
    simp only [Option.bind_eq_bind]
    have e : faceNext (4 * f) = 4 * (f + 1) := by unfold faceNext; ring
    rw [e, ih (f + 1) (by omega) k (by omega), List.range'_succ]
    rfl

/-! ### the number of edges -/

theorem es_filter_card (P : Nat → Bool) :
    (((List.range' 24 (8 * m.size - 24)).filter fun n => n % 4 ≠ 3).filter P).length = (m.es.filter fun i => P i = true).card := by
  rw [← List.toFinset_card_of_nodup (((List.nodup_range' (h := by decide)).filter _).filter _)]
  congr 1
  ext i
  simp only [List.mem_toFinset, List.mem_filter, List.mem_range'_1, Finset.mem_filter, mem_es]
  unfold IsE
  simp only [ne_eq, decide_not, Bool.not_eq_eq_eq_not, Bool.not_true, decide_eq_false_iff_not]
  constructor
  · rintro ⟨⟨h1, h2⟩, h3⟩; exact ⟨by omega, h3⟩
  · rintro ⟨h1, h3⟩; exact ⟨⟨by omega, by omega⟩, h3⟩

theorem es_card' : m.es.card = 3 * (2 * m.size - 6) := by
  unfold Mesh.es
  rw [Finset.card_biUnion]
  · have : ∀ f ∈ Finset.Ico 6 (2 * m.size), ({4 * f, 4 * f + 1, 4 * f + 2} : Finset Nat).card = 3 := by
      intro f _
      rw [Finset.card_insert_of_notMem (by simp), Finset.card_insert_of_notMem (by simp), Finset.card_singleton]
    rw [Finset.sum_congr rfl this]
    simp [mul_comm]
  · intro f _ g _ hfg
    show Disjoint _ _
    rw [Finset.disjoint_left]
    intro a h1 h2
    simp only [Finset.mem_insert, Finset.mem_singleton] at h1 h2
    omega

theorem rim_card (R : Rim m) : (m.es.filter fun i => m.e i = 0).card = 4 := by
  have : (m.es.filter fun i => m.e i = 0).card = sides.toFinset.card := by
    refine Finset.card_bij (fun i _ => m.ends i) ?_ ?_ ?_
    · intro i hi
      rw [Finset.mem_filter, mem_es] at hi
      rw [List.mem_toFinset]
      exact R.mem i hi
    · intro i hi j hj he
      rw [Finset.mem_filter, mem_es] at hi hj
      obtain ⟨k, -, -, u⟩ := R.one _ (R.mem i hi)
      rw [u i hi rfl, u j hj he.symm]
    · intro s hs
      rw [List.mem_toFinset] at hs
      obtain ⟨i, b, e, -⟩ := R.one s hs
      exact ⟨i, by rw [Finset.mem_filter, mem_es]; exact b, e⟩
  rw [this]
  decide

theorem prim_card (h : Inv m) (R : Rim m) : (m.es.filter fun i => m.e i < i).card = 3 * m.size - 7 := by
  have hs := h.sz
  have a : (m.es.filter fun i => m.e i < i).card = (m.es.filter fun i => m.e i = 0).card + (m.es.filter fun i => m.e i ≠ 0 ∧ m.e i < i).card := by
    rw [← Finset.card_union_of_disjoint]
    · congr 1
      ext i
      simp only [Finset.mem_filter, Finset.mem_union, mem_es]
      constructor
      · rintro ⟨h1, h2⟩
        by_cases h0 : m.e i = 0
        · exact Or.inl ⟨h1, h0⟩
        · exact Or.inr ⟨h1, h0, h2⟩
      · rintro (⟨h1, h2⟩ | ⟨h1, -, h2⟩)
        · exact ⟨h1, by rw [h2]; have := h1.pos; omega⟩
        · exact ⟨h1, h2⟩
    · rw [Finset.disjoint_left]
      intro i h1 h2
      rw [Finset.mem_filter] at h1 h2
      exact h2.2.1 h1.2
  have b : (m.es.filter fun i => m.e i ≠ 0 ∧ m.e i < i).card = (m.es.filter fun i => ¬ m.e i < i).card := by
    refine Finset.card_bij (fun i _ => m.e i) ?_ ?_ ?_
    · intro i hi
      rw [Finset.mem_filter, mem_es] at hi
      obtain ⟨t1, t2, -⟩ := h.tw i hi.1 hi.2.1
      rw [Finset.mem_filter, mem_es, t2]
      exact ⟨t1, by omega⟩
    · intro i hi j hj he
      rw [Finset.mem_filter, mem_es] at hi hj
      exact h.tw_inj hi.1 hj.1 hi.2.1 he
    · intro j hj
      rw [Finset.mem_filter, mem_es] at hj
      have h0 : m.e j ≠ 0 := by have := hj.1.pos; omega
      obtain ⟨t1, t2, -⟩ := h.tw j hj.1 h0
      have hne : m.e j ≠ j := fun e => by have := h.other hj.1 h0; rw [e] at this; exact this rfl
      refine ⟨m.e j, ?_, t2⟩
      rw [Finset.mem_filter, mem_es, t2]
      exact ⟨t1, hj.1.pos, by omega⟩
  have c := Finset.card_filter_add_card_filter_not (s := m.es) (fun i => m.e i < i)
  rw [es_card'] at c
  have d := rim_card R
  omega

/-! ### an edge has one face on each side -/

/-- two edges with the same ends in the same order are the same -/
theorem ends_inj (h : Inv m) (R : Rim m) {i j} (hi : IsE m.size i) (hj : IsE m.size j) (e : m.ends i = m.ends j) : i = j := by
  unfold Mesh.ends at e
  rw [Prod.mk.injEq] at e
  obtain ⟨e1, e2⟩ := e
  have ci : ((m.cr (m.p i) (m.p (nx i)) (m.p (pv i)) : Int) : ℚ) < 0 := by exact_mod_cast h.cw i hi
  have cj : ((m.cr (m.p j) (m.p (nx j)) (m.p (pv j)) : Int) : ℚ) < 0 := by exact_mod_cast h.cw j hj
  rw [← e1, ← e2] at cj
  -- a point of the first face close to the middle of the edge
  have aff : ∀ (a b : Nat) (x y x' y' ε : ℚ), m.crQ (x + ε * (x' - x)) (y + ε * (y' - y)) a b =
      m.crQ x y a b + ε * (m.crQ x' y' a b - m.crQ x y a b) := by
    intro a b x y x' y' ε; unfold Mesh.crQ; ring
  obtain ⟨X, hX⟩ : ∃ X : ℚ, X = (m.x (m.p (nx i)) + m.x (m.p (pv i)) : ℚ) / 2 := ⟨_, rfl⟩
  obtain ⟨Y, hY⟩ : ∃ Y : ℚ, Y = (m.y (m.p (nx i)) + m.y (m.p (pv i)) : ℚ) / 2 := ⟨_, rfl⟩
  have m1 : ∀ c, m.crQ X Y c (m.p (nx i)) = ((m.cr c (m.p (nx i)) (m.p (pv i)) : Int) : ℚ) / 2 := by
    intro c; unfold Mesh.crQ Mesh.cr; rw [hX, hY]; push_cast; ring
  have m2 : ∀ c, m.crQ X Y (m.p (pv i)) c = ((m.cr c (m.p (nx i)) (m.p (pv i)) : Int) : ℚ) / 2 := by
    intro c; unfold Mesh.crQ Mesh.cr; rw [hX, hY]; push_cast; ring
  have m3 : m.crQ X Y (m.p (nx i)) (m.p (pv i)) = 0 := by unfold Mesh.crQ; rw [hX, hY]; ring
  have m4 : m.crQ (m.x (m.p i)) (m.y (m.p i)) (m.p (nx i)) (m.p (pv i)) = ((m.cr (m.p i) (m.p (nx i)) (m.p (pv i)) : Int) : ℚ) := by
    unfold Mesh.crQ Mesh.cr; push_cast; ring
  obtain ⟨d1, p1, n1⟩ := near (c := m.crQ X Y (m.p i) (m.p (nx i))) (by rw [m1]; linarith)
    (m.crQ (m.x (m.p i)) (m.y (m.p i)) (m.p i) (m.p (nx i)) - m.crQ X Y (m.p i) (m.p (nx i)))
  obtain ⟨d2, p2, n2⟩ := near (c := m.crQ X Y (m.p (pv i)) (m.p i)) (by rw [m2]; linarith)
    (m.crQ (m.x (m.p i)) (m.y (m.p i)) (m.p (pv i)) (m.p i) - m.crQ X Y (m.p (pv i)) (m.p i))
  obtain ⟨d3, p3, n3⟩ := near (c := m.crQ X Y (m.p j) (m.p (nx i))) (by rw [m1]; linarith)
    (m.crQ (m.x (m.p i)) (m.y (m.p i)) (m.p j) (m.p (nx i)) - m.crQ X Y (m.p j) (m.p (nx i)))
  obtain ⟨d4, p4, n4⟩ := near (c := m.crQ X Y (m.p (pv i)) (m.p j)) (by rw [m2]; linarith)
    (m.crQ (m.x (m.p i)) (m.y (m.p i)) (m.p (pv i)) (m.p j) - m.crQ X Y (m.p (pv i)) (m.p j))
  obtain ⟨ε, e0, l1, l2, l3, l4⟩ : ∃ ε : ℚ, 0 < ε ∧ ε < d1 ∧ ε < d2 ∧ ε < d3 ∧ ε < d4 := by
    refine ⟨min (min d1 d2) (min d3 d4) / 2, by positivity, ?_, ?_, ?_, ?_⟩
    all_goals
      have := lt_min (lt_min p1 p2) (lt_min p3 p4)
      have h1 := min_le_left (min d1 d2) (min d3 d4)
      have h2 := min_le_right (min d1 d2) (min d3 d4)
      have h3 := min_le_left d1 d2
      have h4 := min_le_right d1 d2
      have h5 := min_le_left d3 d4
      have h6 := min_le_right d3 d4
      linarith
  have mid : m.crQ (X + ε * (m.x (m.p i) - X)) (Y + ε * (m.y (m.p i) - Y)) (m.p (nx i)) (m.p (pv i)) < 0 := by
    rw [aff, m3, m4]; nlinarith
  have oi : m.InOpen (X + ε * (m.x (m.p i) - X)) (Y + ε * (m.y (m.p i) - Y)) i := by
    refine ⟨?_, mid, ?_⟩
    · rw [aff]; exact n1 ε e0 l1
    · rw [aff]; exact n2 ε e0 l2
  have oj : m.InOpen (X + ε * (m.x (m.p i) - X)) (Y + ε * (m.y (m.p i) - Y)) j := by
    unfold Mesh.InOpen
    rw [← e1, ← e2]
    refine ⟨?_, mid, ?_⟩
    · rw [aff]; exact n3 ε e0 l3
    · rw [aff]; exact n4 ε e0 l4
  have hf := planar h R hi hj oi oj
  rcases hi.face hj hf with c | c | c
  · exact c.symm
  · exfalso; rw [c, hi.nx_nx] at e1; exact h.ne3 hi e1
  · exfalso; rw [c, hi.pv_pv] at e2; exact h.ne3 hi e2.symm

/-- an edge with the same ends in the opposite order is the twin -/
theorem ends_twin (h : Inv m) (R : Rim m) {i j} (hi : IsE m.size i) (hj : IsE m.size j) (e : m.ends i = ((m.ends j).2, (m.ends j).1)) : m.e i = j := by
  have e' := e
  unfold Mesh.ends at e
  rw [Prod.mk.injEq] at e
  obtain ⟨e1, e2⟩ := e
  simp only at e1 e2
  by_cases h0 : m.e i = 0
  · exfalso
    -- the third corner of the other face would be outside of the square
    have hm := R.mem i ⟨hi, h0⟩
    have cj := h.cw j hj
    have rj := h.rng _ (h.pl _ hj)
    unfold Mesh.cr at cj
    unfold Is16 at rj
    rw [← e1, ← e2] at cj
    unfold sides Mesh.ends at hm
    simp only [List.mem_cons, List.not_mem_nil, or_false, Prod.mk.injEq] at hm
    rcases hm with ⟨a, b⟩ | ⟨a, b⟩ | ⟨a, b⟩ | ⟨a, b⟩
    · rw [a, b, R.xy0.1, R.xy0.2, R.xy1.1, R.xy1.2] at cj; nlinarith
    · rw [a, b, R.xy0.1, R.xy0.2, R.xy2.1, R.xy2.2] at cj; nlinarith
    · rw [a, b, R.xy2.1, R.xy2.2, R.xy3.1, R.xy3.2] at cj; nlinarith
    · rw [a, b, R.xy3.1, R.xy3.2, R.xy1.1, R.xy1.2] at cj; nlinarith
  · obtain ⟨t1, -, -, t4, t5⟩ := h.tw i hi h0
    refine ends_inj h R t1 hj ?_
    unfold Mesh.ends
    rw [t4, t5, ← e1, ← e2]

/-! ### the number of vertices -/

theorem insertAt_size (h : Inv m) {limit k n r} (hr : insertAt limit k m px py n = some (m', r)) :
    m'.size = m.size ∨ (m.size < limit ∧ m'.size = m.size + 1) := by
  have P := insertAt_part h hr
  cases P with
  | out => exact Or.inl rfl
  | vert => exact Or.inl rfl
  | rim => exact Or.inl rfl
  | full => exact Or.inl rfl
  | @face m1 _ u hl hu hu4 hx hy h0 h1 h2 S F => exact Or.inr ⟨hl, by rw [F.coords.1, S.size]⟩
  | @edge m1 _ a b _ hl E hx hy S F hi => exact Or.inr ⟨hl, by rw [F.coords.1, S.size]⟩

theorem constrainEdge_size (h : Inv m) {k en} (hr : constrainEdge k m en = some m') : m'.size = m.size :=
  (constrainEdge_flips h hr).2.2.coords.1

theorem tryFlip_size (h : Inv m) {n d} (hn : IsE m.size n) (hf : m.tryFlip n = some (m', d)) : m'.size = m.size := by
  unfold Mesh.tryFlip at hf
  split at hf
  · rename_i hc
    unfold Mesh.canFlip at hc
    split at hc
    · simp at hc
    · rename_i hc0
      obtain ⟨m1, e1, P, S⟩ := flip_one h hn (by omega)
      rw [e1] at hf
      simp only [Option.map_some, Option.some.injEq, Prod.mk.injEq] at hf
      rw [← hf.1]; exact S.size
  · simp only [Option.some.injEq, Prod.mk.injEq] at hf
    rw [hf.1]

theorem edges_size (limit : Nat) : ∀ k,
    (∀ m m' px py qx qy hint d, Inv m → m.size ≤ max 4 limit → insertEdge limit k m px py qx qy hint = some (m', d) → m'.size ≤ max 4 limit) ∧
    (∀ m m' px py qx qy pn d, Inv m → m.size ≤ max 4 limit → (pn = 0 ∨ IsE m.size pn) → edgeLoop limit k m px py qx qy pn = some (m', d) →
      m'.size ≤ max 4 limit) ∧
    (∀ m m' px py q i pn d, Inv m → m.size ≤ max 4 limit → IsE m.size i → corner limit k m px py q i pn = some (m', d) → m'.size ≤ max 4 limit) ∧
    (∀ m m' px py q a b hint d, Inv m → m.size ≤ max 4 limit → splitConstraint limit k m px py q a b hint = some (m', d) →
      m'.size ≤ max 4 limit) := by
  intro k
  induction k with
  | zero => refine ⟨?_, ?_, ?_, ?_⟩ <;> intros <;> simp_all [insertEdge, edgeLoop, corner, splitConstraint]
  | succ k ih =>
    obtain ⟨ih1, ih2, ih3, ih4⟩ := ih
    have st := edges_steps limit k
    have loc : ∀ {m px py hint r}, Inv m → locateIns k m px py hint = some r → r = 0 ∨ IsE m.size r := by
      intro m px py hint r h hr
      rcases locateIns_spec h hr with e | e
      · exact Or.inl e.1
      · exact Or.inr e.1
    have ins : ∀ {m m' px py n r}, Inv m → m.size ≤ max 4 limit → insertAt limit k m px py n = some (m', r) → m'.size ≤ max 4 limit := by
      intro m m' px py n r h hs hr
      rcases insertAt_size h hr with e | ⟨e, e'⟩
      · rw [e]; exact hs
      · have := le_max_right 4 limit; omega
    refine ⟨?_, ?_, ?_, ?_⟩
    · intro m m' px py qx qy hint d h hs hr
      rw [insertEdge] at hr
      simp only [Option.bind_eq_bind, Option.bind_eq_some_iff] at hr
      obtain ⟨n, -, ⟨m1, pn⟩, e1, hr⟩ := hr
      have S1 := (insertAt_spec h e1).steps
      have s1 := ins h hs e1
      simp only at hr
      split at hr
      · simp only [Option.some.injEq, Prod.mk.injEq] at hr; rw [← hr.1]; exact s1
      split at hr
      · simp only [Option.some.injEq, Prod.mk.injEq] at hr; rw [← hr.1]; exact s1
      simp only [Option.bind_eq_some_iff] at hr
      obtain ⟨n2, -, ⟨m2, qn⟩, e2, hr⟩ := hr
      have h1 := S1.inv h
      have S2 := (insertAt_spec h1 e2).steps
      have s2 := ins h1 s1 e2
      simp only at hr
      split at hr
      · simp only [Option.some.injEq, Prod.mk.injEq] at hr; rw [← hr.1]; exact s2
      simp only [Option.bind_eq_some_iff] at hr
      obtain ⟨pn', e3, hr⟩ := hr
      have h2 := S2.inv h1
      exact ih2 _ _ _ _ _ _ _ _ h2 s2 (loc h2 e3) hr
    · intro m m' px py qx qy pn d h hs hpn hr
      rw [edgeLoop] at hr
      simp only at hr
      split at hr
      · simp only [Option.some.injEq, Prod.mk.injEq] at hr; rw [← hr.1]; exact hs
      split at hr
      · simp at hr
      rename_i hd
      have hp : IsE m.size pn := by
        rcases hpn with e | e
        · exfalso; apply hd; left
          rw [e]
          show V2.mk _ _ = V2.mk _ _
          rw [(h.low (0 / 4 * 4) (by decide) (by decide)).2.1, (h.low (0 / 4 * 4 + 1) (by decide) (by decide)).2.1]
        · exact e
      have B := Cdt.base hp.base (by omega)
      split at hr
      · exact ih3 _ _ _ _ _ _ _ _ h hs B.i0 hr
      split at hr
      · exact ih3 _ _ _ _ _ _ _ _ h hs B.i1 hr
      split at hr
      · exact ih3 _ _ _ _ _ _ _ _ h hs B.i2 hr
      simp at hr
    · intro m m' px py q i pn d h hs hi hr
      rw [corner] at hr
      simp only at hr
      split at hr
      · split at hr
        · simp only [Option.bind_eq_bind, Option.bind_eq_some_iff] at hr
          obtain ⟨m1, e1, pn', e2, hr⟩ := hr
          have h1 := (constrainEdge_steps h e1).inv h
          exact ih2 _ _ _ _ _ _ _ _ h1 (by rw [constrainEdge_size h e1]; exact hs) (loc h1 e2) hr
        · simp only [Option.bind_eq_bind, Option.bind_eq_some_iff] at hr
          obtain ⟨⟨m1, done⟩, e1, hr⟩ := hr
          have h1 := (tryFlip_steps h hi e1).inv h
          have s1 : m1.size ≤ max 4 limit := by rw [tryFlip_size h hi e1]; exact hs
          simp only at hr
          split at hr
          · simp only [Option.bind_eq_some_iff] at hr
            obtain ⟨pn', e2, hr⟩ := hr
            exact ih2 _ _ _ _ _ _ _ _ h1 s1 (loc h1 e2) hr
          · exact ih4 _ _ _ _ _ _ _ _ _ h1 s1 hr
      · exact ih2 _ _ _ _ _ _ _ _ h hs (h.twin hi.pv) hr
    · intro m m' px py q a b hint d h hs hr
      rw [splitConstraint] at hr
      simp only [Option.bind_eq_bind, Option.bind_eq_some_iff] at hr
      obtain ⟨r, -, hr⟩ := hr
      split at hr
      · simp only [Option.some.injEq, Prod.mk.injEq] at hr; rw [← hr.1]; exact hs
      simp only [Option.bind_eq_some_iff] at hr
      obtain ⟨⟨m1, pr⟩, e1, ⟨m2, rq⟩, e2, hr⟩ := hr
      simp only [Option.some.injEq, Prod.mk.injEq] at hr
      have h1 := (st.1 _ _ _ _ _ _ _ _ h e1).inv h
      have s1 := ih1 _ _ _ _ _ _ _ _ h hs e1
      rw [← hr.1]
      exact ih1 _ _ _ _ _ _ _ _ h1 s1 e2

end CE.Cdt
