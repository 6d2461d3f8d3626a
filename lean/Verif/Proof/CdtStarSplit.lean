import Verif.Proof.CdtStar
/-! The mesh right after a point was placed. -/
namespace CE.Cdt

variable {m m' : Mesh} {px py : Int}

/-- no vertex is strictly inside the circle of a face -/
def Empty (m : Mesh) : Prop := ∀ i, IsE m.size i → ∀ v, v < m.size → 0 ≤ m.dt (m.p i) (m.p (nx i)) (m.p (pv i)) v

theorem FaceSpec.dt {u} (S : FaceSpec m m' px py u) {a b c v : Nat} (ha : a < m.size) (hb : b < m.size) (hc : c < m.size)
    (hv : v < m.size) : m'.dt a b c v = m.dt a b c v := by
  unfold Mesh.dt
  rw [S.x a ha, S.x b hb, S.x c hc, S.x v hv, S.y a ha, S.y b hb, S.y c hc, S.y v hv]

theorem EdgeSpec.dt {e f} (S : EdgeSpec m m' px py e f) {a b c v : Nat} (ha : a < m.size) (hb : b < m.size) (hc : c < m.size)
    (hv : v < m.size) : m'.dt a b c v = m.dt a b c v := by
  unfold Mesh.dt
  rw [S.x a ha, S.x b hb, S.x c hc, S.x v hv, S.y a ha, S.y b hb, S.y c hc, S.y v hv]

theorem FaceSpec.star {u} (S : FaceSpec m m' px py u) (h : Inv m) (h' : Inv m') (D : Empty m) (hu : IsE m.size u) (hu4 : u % 4 = 0)
    (hx : Is16 px) (hy : Is16 py) (h0 : m.crP px py (m.p (u + 1)) (m.p (u + 2)) < 0)
    (h1 : m.crP px py (m.p (u + 2)) (m.p u) < 0) (h2 : m.crP px py (m.p u) (m.p (u + 1)) < 0) :
    Star m' m.size ∧ m'.deg m.size = 3 ∧ ∀ a ∈ [u, 8 * m.size + 1, 8 * m.size + 6], IsE m'.size a ∧ Has m' m.size (a / 4) := by
  have B := base hu hu4
  have N := newFaces m.size
  have hs := h.sz
  obtain ⟨j0, j1, j2, j4, j5, j6⟩ := newIs (n := m.size) (by omega)
  have q1 : m'.p (u + 1) = m.p (u + 1) := S.p _ B.i1.2.1 (by omega)
  have q2 : m'.p (u + 2) = m.p (u + 2) := S.p _ B.i2.2.1 (by omega)
  have l0 := h.pl _ B.i0
  have l1 := h.pl _ B.i1
  have l2 := h.pl _ B.i2
  have crn : ∀ {a b : Nat}, a < m.size → b < m.size → m'.cr m.size a b = m.crP px py a b := fun ha hb =>
    S.crn (i16_eq hx) (i16_eq hy) ha hb
  have cwu := h.cw _ B.i0
  rw [B.n0, B.p0] at cwu
  have old : ∀ v, v < m'.size → v ≠ m.size → 0 ≤ m'.dt (m.p u) (m.p (u + 1)) (m.p (u + 2)) v := by
    intro v hv hn
    rw [S.size] at hv
    have := D u B.i0 v (by omega)
    rw [B.n0, B.p0] at this
    rwa [S.dt l0 l1 l2 (by omega)]
  have inn : m'.dt (m.p u) (m.p (u + 1)) (m.p (u + 2)) m.size ≤ 0 :=
    dt_in (by rw [crn l1 l2]; exact h0.le) (by rw [crn l2 l0]; exact h1.le) (by rw [crn l0 l1]; exact h2.le)
  have cw' : m'.cr (m.p u) (m.p (u + 1)) (m.p (u + 2)) < 0 := by rw [S.cr l0 l1 l2]; exact cwu
  have apart : ∀ {a b}, m'.cr m.size a b < 0 → m'.x m.size ≠ m'.x a ∨ m'.y m.size ≠ m'.y a := by
    intro a b hc
    by_contra hn
    push Not at hn
    unfold Mesh.cr at hc
    rw [hn.1, hn.2] at hc
    simp at hc
  have s0 : Sup m' m.size (m.p u) := sup_new cw' (dt_a _ _ _ _) inn (apart (b := m.p (u + 1)) (by rw [crn l0 l1]; exact h2)) old
  have s1 : Sup m' m.size (m.p (u + 1)) := sup_new cw' (dt_b _ _ _ _) inn (apart (b := m.p (u + 2)) (by rw [crn l1 l2]; exact h0)) old
  have s2 : Sup m' m.size (m.p (u + 2)) := sup_new cw' (dt_c _ _ _ _) inn (apart (b := m.p u) (by rw [crn l2 l0]; exact h1)) old
  have rest : ∀ {i}, IsE m.size i → i / 4 ≠ u / 4 → m'.p i = m.p i := fun hi hne => S.p _ hi.2.1 (fun e => hne (by rw [e]))
  have hU : Has m' m.size (u / 4) := (has_iff (m := m') hu).2 (Or.inl S.pu)
  have hV : Has m' m.size (2 * m.size) := Or.inr (Or.inl (by rw [show 4 * (2 * m.size) + 1 = 8 * m.size + 1 by omega]; exact S.pv1))
  have hW : Has m' m.size (2 * m.size + 1) := Or.inr (Or.inr (by rw [show 4 * (2 * m.size + 1) + 2 = 8 * m.size + 6 by omega]; exact S.pw2))
  refine ⟨⟨?_, ?_⟩, ?_, ?_⟩
  · intro i hi n0 n1 n2 v hv hvn
    rw [S.size] at hi hv
    rcases isE_succ hi with ho | e | e | e | e | e | e
    · by_cases e : i / 4 = u / 4
      · have := (has_iff (m := m') ho).1 (e ▸ hU); tauto
      · have o1 : nx i / 4 ≠ u / 4 := by rw [ho.nx_div]; exact e
        have o2 : pv i / 4 ≠ u / 4 := by rw [ho.pv_div]; exact e
        rw [rest ho e, rest ho.nx o1, rest ho.pv o2, S.dt (h.pl _ ho) (h.pl _ ho.nx) (h.pl _ ho.pv) (by omega)]
        exact D i ho v (by omega)
    · rw [e, N.n0] at n1; exact absurd S.pv1 n1
    · rw [e] at n0; exact absurd S.pv1 n0
    · rw [e, N.p2] at n2; exact absurd S.pv1 n2
    · rw [e, N.p4] at n2; exact absurd S.pw2 n2
    · rw [e, N.n5] at n1; exact absurd S.pw2 n1
    · rw [e] at n0; exact absurd S.pw2 n0
  · intro i hi hn
    rw [S.size] at hi
    rcases isE_succ hi with ho | e | e | e | e | e | e
    · by_cases e : i / 4 = u / 4
      · rcases B.i0.face ho e.symm with e | e | e
        · rw [e, B.n0, B.p0, q1, q2]; exact ⟨s1, s2⟩
        · rw [e, B.n0, q1] at hn; omega
        · rw [e, B.p0, q2] at hn; omega
      · rw [rest ho e] at hn; have := h.pl _ ho; omega
    · rw [e, S.pv0] at hn; omega
    · rw [e, N.n1, N.p1, S.pv2, S.pv0]; exact ⟨s2, s0⟩
    · rw [e, S.pv2] at hn; omega
    · rw [e, S.pw0] at hn; omega
    · rw [e, S.pw1] at hn; omega
    · rw [e, N.n6, N.p6, S.pw0, S.pw1]; exact ⟨s0, s1⟩
  · unfold Mesh.deg
    have : (Finset.Ico 6 (2 * m'.size)).filter (Has m' m.size) = {u / 4, 2 * m.size, 2 * m.size + 1} := by
      ext f
      rw [Finset.mem_filter, Finset.mem_Ico, S.size]
      simp only [Finset.mem_insert, Finset.mem_singleton]
      constructor
      · rintro ⟨hf, hh⟩
        by_contra hc
        push Not at hc
        have hi : IsE m.size (4 * f) := by unfold IsE; omega
        have B' := base hi (by omega)
        have hh := (has_iff (m := m') (n := m.size) hi).1 (by rwa [show 4 * f / 4 = f by omega])
        rw [B'.n0, B'.p0, rest B'.i0 (by omega), rest B'.i1 (by omega), rest B'.i2 (by omega)] at hh
        have a0 := h.pl _ B'.i0
        have a1 := h.pl _ B'.i1
        have a2 := h.pl _ B'.i2
        omega
      · have := hu.1
        have := hu.2.1
        rintro (e | e | e) <;> rw [e]
        · exact ⟨by omega, hU⟩
        · exact ⟨by omega, hV⟩
        · exact ⟨by omega, hW⟩
    rw [this]
    have := hu.2.1
    rw [Finset.card_insert_of_notMem (by simp; omega), Finset.card_insert_of_notMem (by simp), Finset.card_singleton]
  · intro a ha
    rw [S.size]
    simp only [List.mem_cons, List.not_mem_nil, or_false] at ha
    rcases ha with rfl | rfl | rfl
    · exact ⟨hu.succ, hU⟩
    · exact ⟨j1, by rw [show (8 * m.size + 1) / 4 = 2 * m.size by omega]; exact hV⟩
    · exact ⟨j6, by rw [show (8 * m.size + 6) / 4 = 2 * m.size + 1 by omega]; exact hW⟩

theorem EdgeSpec.star {a b} (S : EdgeSpec m m' px py a b) (h : Inv m) (h' : Inv m') (D : Empty m) (E : OnEdge m px py a b)
    (hx : Is16 px) (hy : Is16 py) :
    Star m' m.size ∧ m'.deg m.size = 4 ∧
      ∀ i ∈ [pv a, 8 * m.size + 1, nx b, 8 * m.size + 6], IsE m'.size i ∧ Has m' m.size (i / 4) := by
  have P := E.pair
  have N := newFaces m.size
  have hs := h.sz
  have A := P.apart
  obtain ⟨j0, j1, j2, j4, j5, j6⟩ := newIs (n := m.size) (by omega)
  have sp : ∀ {i}, IsE m.size i → i ≠ pv a → i ≠ nx b → m'.p i = m.p i := fun hi => S.p _ hi.2.1
  have ia := P.ia
  have ib := P.ib
  have qa : m'.p a = m.p a := sp ia A.pa.symm A.anb
  have qna : m'.p (nx a) = m.p (nx a) := sp ia.nx A.npa A.nn
  have qb : m'.p b = m.p b := sp ib A.bpa A.nb.symm
  have qpb : m'.p (pv b) = m.p (nx a) := by rw [sp ib.pv A.pp.symm A.npb.symm, P.n2]
  have a0 := h.pl _ ia
  have a1 := h.pl _ ia.nx
  have a2 := h.pl _ ia.pv
  have b0 := h.pl _ ib
  have b1 := h.pl _ ib.nx
  have b2 := h.pl _ ib.pv
  have crn : ∀ {a b : Nat}, a < m.size → b < m.size → m'.cr m.size a b = m.crP px py a b := fun ha hb =>
    S.crn (i16_eq hx) (i16_eq hy) ha hb
  have apart : ∀ {a b}, m'.cr m.size a b < 0 → m'.x m.size ≠ m'.x a ∨ m'.y m.size ≠ m'.y a := by
    intro a b hc
    by_contra hn
    push Not at hn
    unfold Mesh.cr at hc
    rw [hn.1, hn.2] at hc
    simp at hc
  have apart' : ∀ {a b}, m'.cr m.size a b < 0 → m'.x m.size ≠ m'.x b ∨ m'.y m.size ≠ m'.y b := by
    intro a b hc
    by_contra hn
    push Not at hn
    unfold Mesh.cr at hc
    rw [hn.1, hn.2] at hc
    simp at hc
  have old : ∀ {i}, IsE m.size i → ∀ v, v < m'.size → v ≠ m.size → 0 ≤ m'.dt (m.p i) (m.p (nx i)) (m.p (pv i)) v := by
    intro i hi v hv hn
    rw [S.size] at hv
    rw [S.dt (h.pl _ hi) (h.pl _ hi.nx) (h.pl _ hi.pv) (by omega)]
    exact D i hi v (by omega)
  have inA : m'.dt (m.p a) (m.p (nx a)) (m.p (pv a)) m.size ≤ 0 :=
    dt_in (by rw [crn a1 a2]; exact E.on.le) (by rw [crn a2 a0]; exact E.h2.le) (by rw [crn a0 a1]; exact E.h1.le)
  have inB : m'.dt (m.p b) (m.p (nx b)) (m.p (pv b)) m.size ≤ 0 :=
    dt_in (by rw [crn b1 b2]; exact E.symm.on.le) (by rw [crn b2 b0]; exact E.h4.le) (by rw [crn b0 b1]; exact E.h3.le)
  have cwA : m'.cr (m.p a) (m.p (nx a)) (m.p (pv a)) < 0 := by rw [S.cr a0 a1 a2]; exact h.cw _ ia
  have cwB : m'.cr (m.p b) (m.p (nx b)) (m.p (pv b)) < 0 := by rw [S.cr b0 b1 b2]; exact h.cw _ ib
  have s0 : Sup m' m.size (m.p a) := sup_new cwA (dt_a _ _ _ _) inA (apart (b := m.p (nx a)) (by rw [crn a0 a1]; exact E.h1)) (old ia)
  have s1 : Sup m' m.size (m.p (nx a)) := sup_new cwA (dt_b _ _ _ _) inA (apart' (a := m.p a) (by rw [crn a0 a1]; exact E.h1)) (old ia)
  have s2 : Sup m' m.size (m.p (pv a)) := sup_new cwA (dt_c _ _ _ _) inA (apart (b := m.p a) (by rw [crn a2 a0]; exact E.h2)) (old ia)
  have s3 : Sup m' m.size (m.p b) := sup_new cwB (dt_a _ _ _ _) inB (apart (b := m.p (nx b)) (by rw [crn b0 b1]; exact E.h3)) (old ib)
  have rest : ∀ {i}, IsE m.size i → i / 4 ≠ a / 4 → i / 4 ≠ b / 4 → m'.p i = m.p i := fun hi h1 h2 =>
    sp hi (fun e => h1 (by rw [e, ia.pv_div])) (fun e => h2 (by rw [e, ib.nx_div]))
  have hA : Has m' m.size (a / 4) := (has_iff (m := m') ia).2 (Or.inr (Or.inr S.ppa))
  have hB : Has m' m.size (b / 4) := (has_iff (m := m') ib).2 (Or.inr (Or.inl S.pnb))
  have hV : Has m' m.size (2 * m.size) := Or.inr (Or.inl (by rw [show 4 * (2 * m.size) + 1 = 8 * m.size + 1 by omega]; exact S.px1))
  have hW : Has m' m.size (2 * m.size + 1) := Or.inr (Or.inr (by rw [show 4 * (2 * m.size + 1) + 2 = 8 * m.size + 6 by omega]; exact S.py2))
  refine ⟨⟨?_, ?_⟩, ?_, ?_⟩
  · intro i hi n0 n1 n2 v hv hvn
    rw [S.size] at hi
    rcases isE_succ hi with ho | e | e | e | e | e | e
    · by_cases e : i / 4 = a / 4
      · have := (has_iff (m := m') ho).1 (e ▸ hA); tauto
      · by_cases e' : i / 4 = b / 4
        · have := (has_iff (m := m') ho).1 (e' ▸ hB); tauto
        · rw [rest ho e e', rest ho.nx (out_nx ho e) (out_nx ho e'), rest ho.pv (out_pv ho e) (out_pv ho e')]
          exact old ho v hv hvn
    · rw [e, N.n0] at n1; exact absurd S.px1 n1
    · rw [e] at n0; exact absurd S.px1 n0
    · rw [e, N.p2] at n2; exact absurd S.px1 n2
    · rw [e, N.p4] at n2; exact absurd S.py2 n2
    · rw [e, N.n5] at n1; exact absurd S.py2 n1
    · rw [e] at n0; exact absurd S.py2 n0
  · intro i hi hn
    rw [S.size] at hi
    rcases isE_succ hi with ho | e | e | e | e | e | e
    · rcases P.cases ho with (e | e | e) | (e | e | e) | ⟨f1, f2⟩
      · rw [e, qa] at hn; omega
      · rw [e, qna] at hn; omega
      · rw [e, ia.nx_pv, ia.pv_pv, qa, qna]; exact ⟨s0, s1⟩
      · rw [e, qb] at hn; omega
      · rw [e, ib.nx_nx, ib.pv_nx, qb, qpb]; exact ⟨s1, s3⟩
      · rw [e, qpb] at hn; omega
      · rw [rest ho f1 f2] at hn; have := h.pl _ ho; omega
    · rw [e, S.px0] at hn; omega
    · rw [e, N.n1, N.p1, S.px2, S.px0]; exact ⟨s2, s0⟩
    · rw [e, S.px2] at hn; omega
    · rw [e, S.py0] at hn; omega
    · rw [e, S.py1] at hn; omega
    · rw [e, N.n6, N.p6, S.py0, S.py1, P.n1]; exact ⟨s3, s2⟩
  · unfold Mesh.deg
    have : (Finset.Ico 6 (2 * m'.size)).filter (Has m' m.size) = {a / 4, b / 4, 2 * m.size, 2 * m.size + 1} := by
      ext f
      rw [Finset.mem_filter, Finset.mem_Ico, S.size]
      simp only [Finset.mem_insert, Finset.mem_singleton]
      constructor
      · rintro ⟨hf, hh⟩
        by_contra hc
        push Not at hc
        have hi : IsE m.size (4 * f) := by unfold IsE; omega
        have B' := base hi (by omega)
        have hh := (has_iff (m := m') (n := m.size) hi).1 (by rwa [show 4 * f / 4 = f by omega])
        rw [B'.n0, B'.p0, rest B'.i0 (by omega) (by omega), rest B'.i1 (by omega) (by omega), rest B'.i2 (by omega) (by omega)] at hh
        have a0 := h.pl _ B'.i0
        have a1 := h.pl _ B'.i1
        have a2 := h.pl _ B'.i2
        omega
      · have := ia.1
        have := ia.2.1
        have := ib.1
        have := ib.2.1
        rintro (e | e | e | e) <;> rw [e]
        · exact ⟨by omega, hA⟩
        · exact ⟨by omega, hB⟩
        · exact ⟨by omega, hV⟩
        · exact ⟨by omega, hW⟩
    rw [this]
    have := ia.2.1
    have := ib.2.1
    have := P.face
    rw [Finset.card_insert_of_notMem (by simp; omega), Finset.card_insert_of_notMem (by simp; omega),
      Finset.card_insert_of_notMem (by simp), Finset.card_singleton]
  · intro i hi
    rw [S.size]
    simp only [List.mem_cons, List.not_mem_nil, or_false] at hi
    rcases hi with rfl | rfl | rfl | rfl
    · exact ⟨ia.pv.succ, by rw [ia.pv_div]; exact hA⟩
    · exact ⟨j1, by rw [show (8 * m.size + 1) / 4 = 2 * m.size by omega]; exact hV⟩
    · exact ⟨ib.nx.succ, by rw [ib.nx_div]; exact hB⟩
    · exact ⟨j6, by rw [show (8 * m.size + 6) / 4 = 2 * m.size + 1 by omega]; exact hW⟩

/-! ### where the point goes -/

/-- what `insert_point_at_node` does before the flips -/
inductive Placed (limit : Nat) (m : Mesh) (px py : Int) (n : Nat) : Prop
  | same (r : Nat) (run : placeAt limit m px py n = some (m, [], r)) : Placed limit m px py n
  | face (u : Nat) (hu : IsE m.size u) (hu4 : u % 4 = 0) (h0 : m.crP px py (m.p (u + 1)) (m.p (u + 2)) < 0)
    (h1 : m.crP px py (m.p (u + 2)) (m.p u) < 0) (h2 : m.crP px py (m.p u) (m.p (u + 1)) < 0) (r : Nat)
    (run : placeAt limit m px py n = some (m.splitFace px py u, [u, 8 * m.size + 1, 8 * m.size + 6], r)) : Placed limit m px py n
  | edge (a b : Nat) (E : OnEdge m px py a b) (r : Nat)
    (run : placeAt limit m px py n = some (m.splitEdge px py a b, [pv a, 8 * m.size + 1, nx b, 8 * m.size + 6], r)) :
    Placed limit m px py n

theorem placeAt_edge (h : Inv m) {limit n i e} (hn : n ≠ 0) (hu : IsE m.size (n / 4 * 4)) (hin : m.inFace px py (n / 4 * 4) = true)
    (hi : IsE m.size i) (on : m.crP px py (m.p (nx i)) (m.p (pv i)) = 0)
    (h1 : m.crP px py (m.p i) (m.p (nx i)) < 0) (h2 : m.crP px py (m.p (pv i)) (m.p i) < 0)
    (ce : m.code px py (n / 4 * 4) = e) (c0 : e ≠ 0) (c1 : ¬(e = 1 ∨ e = 2 ∨ e = 4)) (c7 : e ≠ 7)
    (ci : n / 4 * 4 + (if e = 3 then 2 else if e = 5 then 1 else if e = 6 then 0 else 3) = i) : Placed limit m px py n := by
  have run : placeAt limit m px py n = if m.size ≥ limit then some (m, [], 0) else if m.e i = 0 then some (m, [], 0) else
      if m.edge (m.e i) && m.e (m.e i) == i then
        some (m.splitEdge px py (if m.e i < i then m.e i else i) (if m.e i < i then i else m.e i),
          [pv (if m.e i < i then m.e i else i), 8 * m.size + 1, nx (if m.e i < i then i else m.e i), 8 * m.size + 6], i)
      else none := by
    unfold placeAt
    rw [if_neg hn]
    simp only [(edge_iff _ _).2 hu, hin, ce, Bool.and_self, not_true_eq_false, if_false, c0, c1, c7, ci, mul_comm m.size 8]
  by_cases hl : m.size ≥ limit
  · exact .same 0 (by rw [run, if_pos hl])
  by_cases he : m.e i = 0
  · exact .same 0 (by rw [run, if_neg hl, if_pos he])
  have P := h.pair hi he
  have E := onEdge h P on h1 h2
  have hcond : (m.edge (m.e i) && m.e (m.e i) == i) = true := by rw [(edge_iff _ _).2 P.ib, P.ba]; simp
  by_cases hlt : m.e i < i
  · exact .edge (m.e i) i E.symm i (by rw [run]; simp only [if_neg hl, if_pos hlt, if_neg he, if_pos hcond])
  · exact .edge i (m.e i) E i (by rw [run]; simp only [if_neg hl, if_neg hlt, if_neg he, if_pos hcond])

theorem placeAt_run (h : Inv m) {n} (limit : Nat) (hu : IsE m.size (n / 4 * 4)) (hc : m.InClosed px py (n / 4 * 4)) :
    Placed limit m px py n := by
  have hn : n ≠ 0 := fun e => by have := hu.1; omega
  have hu4 : n / 4 * 4 % 4 = 0 := by omega
  have B := base hu hu4
  have hin := (inFace_iff B).2 hc
  have ce := code_eq (m := m) (px := px) (py := py) B
  obtain ⟨w2, w0, w1⟩ := hc
  have s := crP_sum m px py (m.p (n / 4 * 4)) (m.p (nx (n / 4 * 4))) (m.p (pv (n / 4 * 4)))
  have hs := h.cw _ hu
  have vrun : ∀ e, m.code px py (n / 4 * 4) = e → (e = 1 ∨ e = 2 ∨ e = 4) → Placed limit m px py n := by
    intro e c1 c2
    refine .same (n / 4 * 4) ?_
    unfold placeAt
    rw [if_neg hn]
    simp only [(edge_iff _ _).2 hu, hin, c1, Bool.and_self, not_true_eq_false, if_false, c2, if_true]
    rw [if_neg (by omega)]
  by_cases z0 : m.crP px py (m.p (nx (n / 4 * 4))) (m.p (pv (n / 4 * 4))) < 0 <;>
    by_cases z1 : m.crP px py (m.p (pv (n / 4 * 4))) (m.p (n / 4 * 4)) < 0 <;>
    by_cases z2 : m.crP px py (m.p (n / 4 * 4)) (m.p (nx (n / 4 * 4))) < 0 <;> simp only [z0, z1, z2, if_true, if_false] at ce
  · by_cases hl : m.size ≥ limit
    · refine .same 0 ?_
      unfold placeAt
      rw [if_neg hn]
      simp [(edge_iff _ _).2 hu, hin, ce, hl]
    · refine .face _ hu hu4 (by rw [← B.n0, ← B.p0]; exact z0) (by rw [← B.p0]; exact z1) (by rw [← B.n0]; exact z2) (n / 4 * 4 + 3) ?_
      unfold placeAt
      rw [if_neg hn]
      simp [(edge_iff _ _).2 hu, hin, ce, hl, mul_comm m.size 8]
  · refine placeAt_edge h hn hu hin (i := n / 4 * 4 + 2) B.i2 ?_ ?_ ?_ ce (by decide) (by decide) (by decide) rfl
    · rw [B.n2, B.p2, ← B.n0]; omega
    · rw [B.n2, ← B.p0]; exact z1
    · rw [B.p2, ← B.p0, ← B.n0]; exact z0
  · refine placeAt_edge h hn hu hin (i := n / 4 * 4 + 1) B.i1 ?_ ?_ ?_ ce (by decide) (by decide) (by decide) rfl
    · rw [B.n1, B.p1, ← B.p0]; omega
    · rw [B.n1, ← B.p0, ← B.n0]; exact z0
    · rw [B.p1, ← B.n0]; exact z2
  · exact vrun _ ce (by decide)
  · refine placeAt_edge h hn hu hin (i := n / 4 * 4) B.i0 ?_ ?_ ?_ ce (by decide) (by decide) (by decide) rfl
    · omega
    · exact z2
    · exact z1
  · exact vrun _ ce (by decide)
  · exact vrun _ ce (by decide)
  · omega

/-- the insertion, with the number of flips -/
theorem insertAtC_run (h : Inv m) (R : Rim m) (D : Empty m) {n} (limit : Nat) (hu : IsE m.size (n / 4 * 4))
    (hc : m.InClosed px py (n / 4 * 4)) : ∃ m' r c, (∀ k, m.size ≤ k + 2 → insertAtC limit k m px py n = some (m', r, c)) ∧
      (m' = m ∧ c = 0 ∨ m'.size = m.size + 1 ∧ m'.x m.size = px ∧ m'.y m.size = py ∧ Inv m' ∧ Rim m' ∧
        (m'.deg m.size = 3 + c ∨ m'.deg m.size = 4 + c) ∧ m'.deg m.size ≤ m.size) := by
  obtain ⟨rx, ry⟩ := h.range hu hc
  have hs := h.sz
  have fin : ∀ {m1 : Mesh} {as r d}, m1.size = m.size + 1 → Inv m1 → Rim m1 → Star m1 m.size → m1.deg m.size = d → (d = 3 ∨ d = 4) →
      (∀ a ∈ as, IsE m1.size a ∧ Has m1 m.size (a / 4)) → m1.x m.size = px → m1.y m.size = py →
      placeAt limit m px py n = some (m1, as, r) →
      ∃ m' r c, (∀ k, m.size ≤ k + 2 → insertAtC limit k m px py n = some (m', r, c)) ∧
      (m' = m ∧ c = 0 ∨ m'.size = m.size + 1 ∧ m'.x m.size = px ∧ m'.y m.size = py ∧ Inv m' ∧ Rim m' ∧
        (m'.deg m.size = 3 + c ∨ m'.deg m.size = 4 + c) ∧ m'.deg m.size ≤ m.size) := by
    intro m1 as r d hz I1 R1 st hd hd' ha ex ey run
    have bound : ∀ m'', Flips m1 m'' → m''.deg m.size ≤ m.size := fun m'' F => by
      have := deg_le (n := m.size) (F.inv I1) ((F.steps I1).rim I1 R1) (by rw [F.size.1, hz]; omega)
      rw [F.size.1, hz] at this
      omega
    obtain ⟨m2, c, e2, g⟩ := flipsC_grown (m.size - 2) as m1 I1 st ha m.size bound (by omega)
    have F := g.flips
    refine ⟨m2, r, c, fun k hk => ?_, Or.inr ⟨by rw [F.size.1, hz], by rw [F.size.2.1, ex], by rw [F.size.2.2.1, ey], F.inv I1,
      (F.steps I1).rim I1 R1, by have := g.deg; omega, bound _ F⟩⟩
    simp only [insertAtC, run, Option.bind_eq_bind, Option.bind_some, flipsC_mono' (by omega : m.size - 2 ≤ k) e2]
  cases placeAt_run h limit hu hc with
  | same r run => exact ⟨m, r, 0, fun k _ => by simp [insertAtC, run, flipsC], Or.inl ⟨rfl, rfl⟩⟩
  | face u hu hu4 h0 h1 h2 r run =>
    have S := splitFace_spec h px py hu hu4
    have hi := S.inv h hu hu4 rx ry h0 h1 h2
    obtain ⟨s1, s2, s3⟩ := S.star h hi D hu hu4 rx ry h0 h1 h2
    exact fin S.size hi (S.rim h hu hu4 R) s1 s2 (Or.inl rfl) s3 (by rw [S.xn, i16_eq rx]) (by rw [S.yn, i16_eq ry]) run
  | edge a b E r run =>
    have S := splitEdge_spec h px py E.pair
    have hi := S.inv h E.pair rx ry E.h1 E.h2 E.h3 E.h4
    obtain ⟨s1, s2, s3⟩ := S.star h hi D E rx ry
    exact fin S.size hi (S.rim h E.pair R) s1 s2 (Or.inr rfl) s3 (by rw [S.xn, i16_eq rx]) (by rw [S.yn, i16_eq ry]) run

end CE.Cdt
