import Verif.Proof.CdtWalk
import Verif.Proof.CdtSplitLegal
/-! What an insertion does in full, and the constraints of meshes made of points only. -/
namespace CE.Cdt

variable {m m' : Mesh} {px py : Int}

/-- the ways an insertion can go -/
inductive Part (limit : Nat) (m : Mesh) (px py : Int) (n : Nat) : Mesh → Nat → Prop
  | out (hn : n = 0) : Part limit m px py n m 0
  | vert {i} (hi : IsE m.size i) (hx : m.x (m.p i) = px) (hy : m.y (m.p i) = py) (h0 : n / 4 * 4 ≠ 0) : Part limit m px py n m (n / 4 * 4)
  | rim {i} (hi : IsE m.size i) (hf : i / 4 = n / 4) (he : m.e i = 0) (on : m.crP px py (m.p (nx i)) (m.p (pv i)) = 0)
    (h1 : m.crP px py (m.p i) (m.p (nx i)) < 0) (h2 : m.crP px py (m.p (pv i)) (m.p i) < 0) : Part limit m px py n m 0
  | full {i} (hi : IsE m.size i) (hl : limit ≤ m.size) (hin : m.InClosed px py i)
    (hv : ∀ k, IsE m.size k → k / 4 = i / 4 → ¬ (m.x (m.p k) = px ∧ m.y (m.p k) = py)) : Part limit m px py n m 0
  | face {m1 m2 u} (hl : m.size < limit) (hu : IsE m.size u) (hu4 : u % 4 = 0) (hx : Is16 px) (hy : Is16 py)
    (h0 : m.crP px py (m.p (u + 1)) (m.p (u + 2)) < 0) (h1 : m.crP px py (m.p (u + 2)) (m.p u) < 0)
    (h2 : m.crP px py (m.p u) (m.p (u + 1)) < 0) (S : FaceSpec m m1 px py u) (F : Flips m1 m2) : Part limit m px py n m2 (u + 3)
  | edge {m1 m2 a b i} (hl : m.size < limit) (E : OnEdge m px py a b) (hx : Is16 px) (hy : Is16 py) (S : EdgeSpec m m1 px py a b)
    (F : Flips m1 m2) (hi : i ≠ 0) : Part limit m px py n m2 i

theorem face_novert {u} (B : Base m.size u) (h0 : m.crP px py (m.p (u + 1)) (m.p (u + 2)) < 0)
    (h1 : m.crP px py (m.p (u + 2)) (m.p u) < 0) (h2 : m.crP px py (m.p u) (m.p (u + 1)) < 0) :
    ∀ k, IsE m.size k → k / 4 = u / 4 → ¬ (m.x (m.p k) = px ∧ m.y (m.p k) = py) := by
  rintro k hk hf ⟨e1, e2⟩
  rcases B.i0.face hk hf.symm with e | e | e
  · rw [e] at e1 e2; unfold Mesh.crP at h2; rw [e1, e2] at h2; linarith
  · rw [e, B.n0] at e1 e2; unfold Mesh.crP at h2; rw [e1, e2] at h2; linarith
  · rw [e, B.p0] at e1 e2; unfold Mesh.crP at h1; rw [e1, e2] at h1; linarith

theorem edge_novert {a} (ia : IsE m.size a) (a1 : m.crP px py (m.p a) (m.p (nx a)) < 0) (a2 : m.crP px py (m.p (pv a)) (m.p a) < 0) :
    ∀ k, IsE m.size k → k / 4 = a / 4 → ¬ (m.x (m.p k) = px ∧ m.y (m.p k) = py) := by
  rintro k hk hf ⟨e1, e2⟩
  unfold Mesh.crP at a1 a2
  rcases ia.face hk hf.symm with e | e | e <;> rw [e] at e1 e2
  · rw [e1, e2] at a1; linarith
  · rw [e1, e2] at a1; linarith
  · rw [e1, e2] at a2; linarith

theorem insertAt_part (h : Inv m) {limit k n r} (hr : insertAt limit k m px py n = some (m', r)) : Part limit m px py n m' r := by
  by_cases hn : n = 0
  · unfold insertAt at hr
    rw [if_pos hn] at hr
    simp only [Option.some.injEq, Prod.mk.injEq] at hr
    obtain ⟨rfl, rfl⟩ := hr
    exact .out hn
  have hin : (m.edge (n / 4 * 4) && m.inFace px py (n / 4 * 4)) = true := by
    unfold insertAt at hr
    rw [if_neg hn] at hr
    simp only at hr
    by_contra hc
    rw [if_pos hc] at hr
    simp at hr
  rw [Bool.and_eq_true] at hin
  have hu := (edge_iff _ _).1 hin.1
  rw [insertAt_base _ _ _ _ _ _ hu] at hr
  have hu4 : n / 4 * 4 % 4 = 0 := by omega
  have B := base hu hu4
  have hc := (inFace_iff B).1 hin.2
  obtain ⟨rx, ry⟩ := h.range hu hc
  have hs := h.sz
  obtain ⟨j0, j1, j2, j4, j5, j6⟩ := newIs (n := m.size) (by omega)
  cases insertAt_run h hu hu4 hc with
  | vert i hf hx hy run =>
    rw [run] at hr
    simp only [Option.some.injEq, Prod.mk.injEq] at hr
    obtain ⟨rfl, rfl⟩ := hr
    have hi : IsE m.size i := by rcases hf with rfl | rfl | rfl; exacts [B.i0, B.i1, B.i2]
    exact .vert hi hx hy hu.pos
  | face h0 h1 h2 run =>
    rw [run] at hr
    split at hr
    · rename_i hl
      simp only [Option.some.injEq, Prod.mk.injEq] at hr
      obtain ⟨rfl, rfl⟩ := hr
      exact .full hu hl hc (face_novert B h0 h1 h2)
    · rename_i hl
      have S := splitFace_spec h px py hu hu4
      have hi := S.inv h hu hu4 rx ry h0 h1 h2
      have hz := S.size
      rw [Option.bind_eq_some_iff] at hr
      obtain ⟨m3, e3, e4⟩ := hr
      simp only [Option.some.injEq, Prod.mk.injEq] at e4
      obtain ⟨rfl, rfl⟩ := e4
      have F := flips3 hi (by rw [hz]; exact hu.succ) (by rw [hz]; exact j1) (by rw [hz]; exact j6) e3
      exact .face (by omega) hu hu4 rx ry h0 h1 h2 S F
  | rim i hf he on run =>
    rw [run] at hr
    simp only [Option.some.injEq, Prod.mk.injEq] at hr
    obtain ⟨rfl, rfl⟩ := hr
    rcases hf with rfl | rfl | rfl
    · exact .rim B.i0 (by omega) he on.1 on.2.1 on.2.2
    · exact .rim B.i1 (by omega) he on.1 on.2.1 on.2.2
    · exact .rim B.i2 (by omega) he on.1 on.2.1 on.2.2
  | edge i a b hf he hab E run =>
    rw [run] at hr
    split at hr
    · rename_i hl
      simp only [Option.some.injEq, Prod.mk.injEq] at hr
      obtain ⟨rfl, rfl⟩ := hr
      exact .full E.pair.ia hl ⟨E.h1.le, E.on.le, E.h2.le⟩ (edge_novert E.pair.ia E.h1 E.h2)
    · rename_i hl
      have S := splitEdge_spec h px py E.pair
      have hi := S.inv h E.pair rx ry E.h1 E.h2 E.h3 E.h4
      have hz := S.size
      rw [Option.bind_eq_some_iff] at hr
      obtain ⟨m3, e3, e4⟩ := hr
      simp only [Option.some.injEq, Prod.mk.injEq] at e4
      obtain ⟨rfl, rfl⟩ := e4
      have F := flips4 hi (by rw [hz]; exact E.pair.ia.pv.succ) (by rw [hz]; exact j1) (by rw [hz]; exact E.pair.ib.nx.succ)
        (by rw [hz]; exact j6) e3
      refine .edge (by omega) E rx ry S F ?_
      rcases hf with rfl | rfl | rfl
      exacts [B.i0.pos, B.i1.pos, B.i2.pos]

/-! ### no constraints -/

/-- only the outline is constrained -/
def Free (m : Mesh) : Prop := ∀ i, IsE m.size i → m.c i ≠ 0 → m.e i = 0

theorem Free.full (F : Free m) (L : Legal m) : FullLegal m := fun i hi he => by
  by_cases hc : m.c i = 0
  · exact L i hi hc
  · exact absurd (F i hi hc) he

theorem FlipSpec.free {a b} (S : FlipSpec m m' a b) (h : Inv m) (P : Pair m a b) (F : Free m) : Free m' := by
  intro i hi hc
  rw [S.size] at hi
  by_cases c1 : i = a
  · rw [c1, S.c1] at hc; rw [c1, S.e1]; exact F _ P.ib.pv hc
  by_cases c2 : i = b
  · rw [c2, S.c2] at hc; rw [c2, S.e2]; exact F _ P.ia.pv hc
  by_cases c3 : i = pv a
  · rw [c3, S.c3] at hc; exact absurd rfl hc
  by_cases c4 : i = pv b
  · rw [c4, S.c4] at hc; exact absurd rfl hc
  rw [S.c5 i c1 c2 c3 c4] at hc
  have he := F i hi hc
  have no : ∀ {j}, IsE m.size j → i ≠ m.e j := fun hj e => by
    have := (h.tw _ hj (e ▸ hi.pos)).2.1
    rw [← e, he] at this
    exact hj.pos this.symm
  rw [S.e7 i c1 c2 c3 c4 (Or.inr (no P.ia.pv)) (Or.inr (no P.ib.pv))]
  exact he

theorem Flips.free (s : Flips m m') (h : Inv m) (F : Free m) : Free m' := by
  induction s with
  | refl => exact F
  | step P hc hd S r ih => exact ih ((Flips.step P hc hd S (.refl _)).inv h) (S.free h P F)

theorem FaceSpec.free {u} (S : FaceSpec m m' px py u) (h : Inv m) (hu : IsE m.size u) (hu4 : u % 4 = 0) (F : Free m) : Free m' := by
  have B := base hu hu4
  intro i hi hc
  rw [S.size] at hi
  rcases isE_succ hi with ho | e | e | e | e | e | e
  · by_cases c1 : i = u + 1
    · rw [c1, S.cu1] at hc; exact absurd rfl hc
    by_cases c2 : i = u + 2
    · rw [c2, S.cu2] at hc; exact absurd rfl hc
    rw [S.c i ho.2.1 c1 c2] at hc
    have he := F i ho hc
    have no : ∀ {j}, IsE m.size j → i ≠ m.e j := fun hj e => by
      have := (h.tw _ hj (e ▸ ho.pos)).2.1
      rw [← e, he] at this
      exact hj.pos this.symm
    rw [S.e i ho.2.1 c1 c2 (Or.inr (no B.i1)) (Or.inr (no B.i2))]
    exact he
  · rw [e, S.cv0] at hc; exact absurd rfl hc
  · rw [e, S.cv1] at hc; rw [e, S.ev1]; exact F _ B.i1 hc
  · rw [e, S.cv2] at hc; exact absurd rfl hc
  · rw [e, S.cw0] at hc; exact absurd rfl hc
  · rw [e, S.cw1] at hc; exact absurd rfl hc
  · rw [e, S.cw2] at hc; rw [e, S.ew2]; exact F _ B.i2 hc

theorem EdgeSpec.free {a b} (S : EdgeSpec m m' px py a b) (h : Inv m) (P : Pair m a b) (F : Free m) : Free m' := by
  intro i hi hc
  rw [S.size] at hi
  rcases isE_succ hi with ho | e | e | e | e | e | e
  · by_cases c1 : i = nx a
    · rw [c1, S.cna] at hc; exact absurd rfl hc
    by_cases c2 : i = pv b
    · rw [c2, S.cpb] at hc; exact absurd rfl hc
    rw [S.c i ho.2.1 c1 c2] at hc
    have he := F i ho hc
    have no : ∀ {j}, IsE m.size j → i ≠ m.e j := fun hj e => by
      have := (h.tw _ hj (e ▸ ho.pos)).2.1
      rw [← e, he] at this
      exact hj.pos this.symm
    rw [S.e i ho.2.1 c1 c2 (Or.inr (no P.ia.nx)) (Or.inr (no P.ib.pv))]
    exact he
  · rw [e, S.cx0] at hc
    have := F _ P.ia hc
    rw [P.ab] at this
    exact absurd this P.ib.pos
  · rw [e, S.cx1] at hc; rw [e, S.ex1]; exact F _ P.ia.nx hc
  · rw [e, S.cx2] at hc; exact absurd rfl hc
  · rw [e, S.cy0] at hc
    have := F _ P.ib hc
    rw [P.ba] at this
    exact absurd this P.ia.pos
  · rw [e, S.cy1] at hc; exact absurd rfl hc
  · rw [e, S.cy2] at hc; rw [e, S.ey2]; exact F _ P.ib.pv hc

theorem Part.free {limit n r} (p : Part limit m px py n m' r) (h : Inv m) (F : Free m) : Free m' := by
  cases p with
  | out | vert | rim | full => exact F
  | face hl hu hu4 hx hy h0 h1 h2 S Fl => exact Fl.free (S.inv h hu hu4 hx hy h0 h1 h2) (S.free h hu hu4 F)
  | edge hl E hx hy S Fl hi => exact Fl.free (S.inv h E.pair hx hy E.h1 E.h2 E.h3 E.h4) (S.free h E.pair F)

theorem reset_free (m : Mesh) : Free (reset m) := by
  intro i hi hc
  rcases reset_isE hi with rfl | rfl | rfl | rfl | rfl | rfl <;> simp [reset] at hc ⊢

/-! ### only the four corners are on the outline -/

theorem rim_only (h : Inv m) (R : Rim m) (C : Cover m) (D : Distinct m) {v} (hv : v < m.size) (h4 : 4 ≤ v) :
    (-32768 < m.x v ∧ m.x v < 32767) ∧ (-32768 < m.y v ∧ m.y v < 32767) := by
  obtain ⟨rx, ry⟩ := h.rng v hv
  unfold Is16 at rx ry
  obtain ⟨j, hj, ej⟩ := C v hv
  have hs := h.sz
  have key : ∀ s ∈ sides, (∀ i, IsE m.size i → m.ends i = s → m.InClosed (m.x v) (m.y v) i) → m.crP (m.x v) (m.y v) s.1 s.2 ≠ 0 := by
    intro s hs' hin z
    obtain ⟨i, b, e, -⟩ := R.one s hs'
    have hin := hin i b.1 e
    unfold Mesh.ends at e
    have s1 : s.1 < 4 := by unfold sides at hs'; simp only [List.mem_cons, List.not_mem_nil, or_false] at hs'; rcases hs' with rfl | rfl | rfl | rfl <;> decide
    have s2 : s.2 < 4 := by unfold sides at hs'; simp only [List.mem_cons, List.not_mem_nil, or_false] at hs'; rcases hs' with rfl | rfl | rfl | rfl <;> decide
    rw [← ej] at hin
    obtain ⟨k, hk, hf, kx, ky⟩ := clean h R b.1 hj hin
    rw [ej] at kx ky
    have kv : m.p k = v := D _ _ (h.pl _ hk) hv kx ky
    rcases b.1.face hk hf.symm with e' | e' | e'
    · have c := h.cw i b.1
      rw [← e', kv] at c
      rw [← e] at z
      simp only at z
      rw [← e'] at z
      unfold Mesh.crP at z
      unfold Mesh.cr at c
      linarith
    · have : m.p k = s.1 := by rw [e', ← e]
      omega
    · have : m.p k = s.2 := by rw [e', ← e]
      omega
  have r : ∀ {i}, IsE m.size i → (-32768 ≤ m.x (m.p i) ∧ m.x (m.p i) ≤ 32767) ∧ (-32768 ≤ m.y (m.p i) ∧ m.y (m.p i) ≤ 32767) := fun hi => h.rng _ (h.pl _ hi)
  have k1 := key (1, 0) (by decide)
  have k2 := key (0, 2) (by decide)
  have k3 := key (2, 3) (by decide)
  have k4 := key (3, 1) (by decide)
  unfold Mesh.crP Mesh.InClosed Mesh.crP Mesh.ends at k1 k2 k3 k4
  simp only [R.xy0.1, R.xy0.2, R.xy1.1, R.xy1.2, R.xy2.1, R.xy2.2, R.xy3.1, R.xy3.2, Prod.mk.injEq] at k1 k2 k3 k4
  refine ⟨⟨?_, ?_⟩, ?_, ?_⟩
  · by_contra hc
    have hc : m.x v = -32768 := by omega
    refine k2 ?_ (by rw [hc]; ring)
    rintro i hi ⟨e1, e2⟩
    obtain ⟨⟨a1, a2⟩, a3, a4⟩ := r hi
    rw [e1, e2, hc, R.xy0.1, R.xy0.2, R.xy2.1, R.xy2.2]
    refine ⟨?_, by linarith, ?_⟩ <;> nlinarith
  · by_contra hc
    have hc : m.x v = 32767 := by omega
    refine k4 ?_ (by rw [hc]; ring)
    rintro i hi ⟨e1, e2⟩
    obtain ⟨⟨a1, a2⟩, a3, a4⟩ := r hi
    rw [e1, e2, hc, R.xy3.1, R.xy3.2, R.xy1.1, R.xy1.2]
    refine ⟨?_, by linarith, ?_⟩ <;> nlinarith
  · by_contra hc
    have hc : m.y v = -32768 := by omega
    refine k1 ?_ (by rw [hc]; ring)
    rintro i hi ⟨e1, e2⟩
    obtain ⟨⟨a1, a2⟩, a3, a4⟩ := r hi
    rw [e1, e2, hc, R.xy0.1, R.xy0.2, R.xy1.1, R.xy1.2]
    refine ⟨?_, by linarith, ?_⟩ <;> nlinarith
  · by_contra hc
    have hc : m.y v = 32767 := by omega
    refine k3 ?_ (by rw [hc]; ring)
    rintro i hi ⟨e1, e2⟩
    obtain ⟨⟨a1, a2⟩, a3, a4⟩ := r hi
    rw [e1, e2, hc, R.xy2.1, R.xy2.2, R.xy3.1, R.xy3.2]
    refine ⟨?_, by linarith, ?_⟩ <;> nlinarith

/-! ### an insertion -/

theorem Flips.coords (s : Flips m m') : m'.size = m.size ∧ m'.x = m.x ∧ m'.y = m.y := by
  induction s with
  | refl => exact ⟨rfl, rfl, rfl⟩
  | step P hc hd S _ ih => rw [ih.1, ih.2.1, ih.2.2, S.size, S.x, S.y]; exact ⟨rfl, rfl, rfl⟩

theorem insertAt_mono (h : Inv m) {limit k k' n r} (hk : k ≤ k') (hr : insertAt limit k m px py n = some r) :
    insertAt limit k' m px py n = some r := by
  by_cases hn : n = 0
  · unfold insertAt at hr ⊢
    rw [if_pos hn] at hr ⊢
    exact hr
  have hin : (m.edge (n / 4 * 4) && m.inFace px py (n / 4 * 4)) = true := by
    unfold insertAt at hr
    rw [if_neg hn] at hr
    simp only at hr
    by_contra hc
    rw [if_pos hc] at hr
    simp at hr
  rw [Bool.and_eq_true] at hin
  have hu := (edge_iff _ _).1 hin.1
  rw [insertAt_base _ _ _ _ _ _ hu] at hr ⊢
  have hu4 : n / 4 * 4 % 4 = 0 := by omega
  have hc := (inFace_iff (base hu hu4)).1 hin.2
  cases insertAt_run h hu hu4 hc with
  | vert i hf hx hy run => rw [run] at hr ⊢; exact hr
  | rim i hf he on run => rw [run] at hr ⊢; exact hr
  | face h0 h1 h2 run =>
    rw [run] at hr ⊢
    split at hr
    · rename_i hl; rw [if_pos hl]; exact hr
    · rename_i hl
      rw [if_neg hl]
      simp only [Option.bind_eq_some_iff] at hr ⊢
      obtain ⟨m3, ⟨m2, ⟨m1, e1, e2⟩, e3⟩, e4⟩ := hr
      exact ⟨m3, ⟨m2, ⟨m1, flip_mono' hk e1, flip_mono' hk e2⟩, flip_mono' hk e3⟩, e4⟩
  | edge i a b hf he hab E run =>
    rw [run] at hr ⊢
    split at hr
    · rename_i hl; rw [if_pos hl]; exact hr
    · rename_i hl
      rw [if_neg hl]
      simp only [Option.bind_eq_some_iff] at hr ⊢
      obtain ⟨m4, ⟨m3, ⟨m2, ⟨m1, e1, e2⟩, e3⟩, e4⟩, e5⟩ := hr
      exact ⟨m4, ⟨m3, ⟨m2, ⟨m1, flip_mono' hk e1, flip_mono' hk e2⟩, flip_mono' hk e3⟩, flip_mono' hk e4⟩, e5⟩

/-- inserting a point always ends -/
theorem insertPoint_total (h : Inv m) (L : Tame m) (limit : Nat) (px py : Int) (hint : Nat) :
    ∃ K r, ∀ k, K ≤ k → insertPoint limit k m px py hint = some r := by
  obtain ⟨n, hn⟩ := locateIns_total h L px py hint
  have : ∃ K, ∀ k, K ≤ k → ∃ r, insertAt limit k m px py n = some r := by
    rcases locateIns_spec h (hn _ (le_refl _)) with ⟨e, -⟩ | ⟨e, hin⟩
    · refine ⟨0, fun k _ => ⟨(m, 0), ?_⟩⟩
      unfold insertAt; rw [if_pos e]
    · exact insertAt_some h e.base (InClosed.base e hin) limit
  obtain ⟨K, hK⟩ := this
  obtain ⟨r, hr⟩ := hK K (le_refl _)
  refine ⟨max K (6 * m.size), r, fun k hk => ?_⟩
  unfold insertPoint
  simp only [Option.bind_eq_bind, hn k ((le_max_right _ _).trans hk), Option.bind_some]
  exact insertAt_mono h ((le_max_left _ _).trans hk) hr

end CE.Cdt
