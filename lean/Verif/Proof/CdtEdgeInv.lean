import Verif.Proof.CdtEdge
/-! Splitting an edge preserves the invariant. -/
namespace CE.Cdt

variable {m m' : Mesh} {a b : Nat} {px py : Int}

theorem EdgeSpec.cr (S : EdgeSpec m m' px py a b) {i j k : Nat} (ha : i < m.size) (hb : j < m.size) (hc : k < m.size) :
    m'.cr i j k = m.cr i j k := by
  unfold Mesh.cr; rw [S.x i ha, S.x j hb, S.x k hc, S.y i ha, S.y j hb, S.y k hc]

theorem EdgeSpec.crn (S : EdgeSpec m m' px py a b) (hx : i16 px = px) (hy : i16 py = py) {i j : Nat} (ha : i < m.size)
    (hb : j < m.size) : m'.cr m.size i j = m.crP px py i j := by
  unfold Mesh.cr Mesh.crP; rw [S.x i ha, S.x j hb, S.y i ha, S.y j hb, S.xn, S.yn, hx, hy]

theorem EdgeSpec.inv (S : EdgeSpec m m' px py a b) (h : Inv m) (P : Pair m a b) (hx : Is16 px) (hy : Is16 py)
    (h1 : m.crP px py (m.p a) (m.p (nx a)) < 0) (h2 : m.crP px py (m.p (pv a)) (m.p a) < 0)
    (h3 : m.crP px py (m.p b) (m.p (nx b)) < 0) (h4 : m.crP px py (m.p (pv b)) (m.p b) < 0) : Inv m' := by
  have N := newFaces m.size
  have hs := h.sz
  have A := P.apart
  obtain ⟨j0, j1, j2, j4, j5, j6⟩ := newIs (n := m.size) (by omega)
  have lt : ∀ {i}, IsE m.size i → i < 8 * m.size := fun h => h.2.1
  have n1 := P.n1
  have n2 := P.n2
  have ia := P.ia
  have ib := P.ib
  have sp : ∀ {i}, IsE m.size i → i ≠ pv a → i ≠ nx b → m'.p i = m.p i := fun hi => S.p _ (lt hi)
  have qa : m'.p a = m.p a := sp ia A.pa.symm A.anb
  have qna : m'.p (nx a) = m.p (nx a) := sp ia.nx A.npa A.nn
  have qb : m'.p b = m.p b := sp ib A.bpa A.nb.symm
  have qpb : m'.p (pv b) = m.p (pv b) := sp ib.pv A.pp.symm A.npb.symm
  have old : ∀ {i}, IsE m.size i → i ≠ nx a → i ≠ pv b → i ≠ m.e (nx a) → i ≠ m.e (pv b) → m'.e i = m.e i :=
    fun hi a b c d => S.e _ (lt hi) a b (Or.inr c) (Or.inr d)
  have oc : ∀ {i}, IsE m.size i → i ≠ nx a → i ≠ pv b → m'.c i = m.c i := fun hi => S.c _ (lt hi)
  have f1 := fun he => P.faceN h he
  have f2 := fun he => P.symm.faceP h he
  have i1 := ia.nx_div
  have i2 := ia.pv_div
  have i3 := ib.nx_div
  have i4 := ib.pv_div
  -- the two twins are outside the two faces
  have w1 : m.e (nx a) ≠ 0 → ∀ {k}, (k / 4 = a / 4 ∨ k / 4 = b / 4) → m.e (nx a) ≠ k := by
    intro he k hk e; obtain ⟨x1, x2⟩ := f1 he; rw [e] at x1 x2; rcases hk with hk | hk <;> contradiction
  have w2 : m.e (pv b) ≠ 0 → ∀ {k}, (k / 4 = a / 4 ∨ k / 4 = b / 4) → m.e (pv b) ≠ k := by
    intro he k hk e; obtain ⟨x1, x2⟩ := f2 he; rw [e] at x1 x2; rcases hk with hk | hk <;> contradiction
  have w1' : ∀ {k}, IsE m.size k → (k / 4 = a / 4 ∨ k / 4 = b / 4) → k ≠ m.e (nx a) :=
    fun hk hf e => w1 (e ▸ hk.pos) hf e.symm
  have w2' : ∀ {k}, IsE m.size k → (k / 4 = a / 4 ∨ k / 4 = b / 4) → k ≠ m.e (pv b) :=
    fun hk hf e => w2 (e ▸ hk.pos) hf e.symm
  have ea : m'.e a = b := by rw [old ia A.na.symm A.apb (w1' ia (Or.inl rfl)) (w2' ia (Or.inl rfl)), P.ab]
  have eb : m'.e b = a := by rw [old ib A.bna A.pb.symm (w1' ib (Or.inr rfl)) (w2' ib (Or.inr rfl)), P.ba]
  have ca : m'.c a = m.c a := oc ia A.na.symm A.apb
  have cb : m'.c b = m.c b := oc ib A.bna A.pb.symm
  have pla := h.pl _ ia
  have plna := h.pl _ ia.nx
  have plpa := h.pl _ ia.pv
  have plb := h.pl _ ib
  have plnb := h.pl _ ib.nx
  have plpb := h.pl _ ib.pv
  constructor
  · rw [S.size]; omega
  · intro v hv
    rw [S.size] at hv
    by_cases hv' : v < m.size
    · rw [S.x v hv', S.y v hv']; exact h.rng v hv'
    · have : v = m.size := by omega
      rw [this, S.xn, S.yn, i16_eq hx, i16_eq hy]; exact ⟨hx, hy⟩
  · intro i hi hi3
    obtain ⟨l1, l2, l3⟩ := h.low i hi hi3
    have hb : i < 8 * m.size := by omega
    have n0 : ∀ k, IsE m.size k → i ≠ k := fun k hk => by have := hk.1; omega
    have n' : ∀ k, IsE m.size k → (i = 0 ∨ i ≠ m.e k) := fun k hk => by
      by_cases h0 : m.e k = 0
      · by_cases hz : i = 0
        · exact Or.inl hz
        · exact Or.inr (by omega)
      · exact Or.inr (by have := (h.tw k hk h0).1.1; omega)
    exact ⟨by rw [S.c _ hb (n0 _ ia.nx) (n0 _ ib.pv)]; exact l1, by rw [S.p _ hb (n0 _ ia.pv) (n0 _ ib.nx)]; exact l2,
      by rw [S.e _ hb (n0 _ ia.nx) (n0 _ ib.pv) (n' _ ia.nx) (n' _ ib.pv)]; exact l3⟩
  · intro i hi
    rw [S.size] at hi ⊢
    rcases isE_succ hi with hi | rfl | rfl | rfl | rfl | rfl | rfl
    · by_cases e : i = pv a
      · rw [e, S.ppa]; omega
      by_cases e' : i = nx b
      · rw [e', S.pnb]; omega
      rw [sp hi e e']; have := h.pl i hi; omega
    · rw [S.px0]; omega
    · rw [S.px1]; omega
    · rw [S.px2]; omega
    · rw [S.py0]; omega
    · rw [S.py1]; omega
    · rw [S.py2]; omega
  · intro i hi
    rw [S.size] at hi
    rcases isE_succ hi with hi | rfl | rfl | rfl | rfl | rfl | rfl
    · by_cases e : i = nx a
      · rw [e, S.cna]; omega
      by_cases e' : i = pv b
      · rw [e', S.cpb]; omega
      rw [oc hi e e']; exact h.cl i hi
    · rw [S.cx0]; exact h.cl _ ia
    · rw [S.cx1]; exact h.cl _ ia.nx
    · rw [S.cx2]; omega
    · rw [S.cy0]; exact h.cl _ ib
    · rw [S.cy1]; omega
    · rw [S.cy2]; exact h.cl _ ib.pv
  · intro i hi he
    rw [S.size] at hi
    rcases isE_succ hi with hi | rfl | rfl | rfl | rfl | rfl | rfl
    · by_cases e1 : i = nx a
      · rw [e1, S.ena] at he; omega
      by_cases e2 : i = pv b
      · rw [e2, S.epb] at he; omega
      by_cases t1 : i = m.e (nx a)
      · have := S.et1 (t1 ▸ hi.pos); rw [← t1, he] at this; omega
      by_cases t2 : i = m.e (pv b)
      · have := S.et2 (t2 ▸ hi.pos); rw [← t2, he] at this; omega
      rw [old hi e1 e2 t1 t2] at he
      rw [oc hi e1 e2]; exact h.bd i hi he
    · rw [S.ex0] at he; omega
    · rw [S.ex1] at he; rw [S.cx1]; exact h.bd _ ia.nx he
    · rw [S.ex2] at he; exact absurd he ia.nx.pos
    · rw [S.ey0] at he; omega
    · rw [S.ey1] at he; exact absurd he ib.pv.pos
    · rw [S.ey2] at he; rw [S.cy2]; exact h.bd _ ib.pv he
  · intro i hi
    show TwOk m' i
    rw [S.size] at hi
    rcases isE_succ hi with hi | rfl | rfl | rfl | rfl | rfl | rfl
    · by_cases e1 : i = nx a
      · rw [e1]; intro _; rw [S.ena]
        refine ⟨by rw [S.size]; exact j2, S.ex2, by rw [S.cx2, S.cna], ?_, ?_⟩
        · rw [N.n2, S.px0, ia.pv_nx, qa]
        · rw [N.p2, S.px1, ia.nx_nx, S.ppa]
      by_cases e2 : i = pv b
      · rw [e2]; intro _; rw [S.epb]
        refine ⟨by rw [S.size]; exact j5, S.ey1, by rw [S.cy1, S.cpb], ?_, ?_⟩
        · rw [N.n5, S.py2, ib.pv_pv, S.pnb]
        · rw [N.p5, S.py0, ib.nx_pv, qb]
      by_cases t1 : i = m.e (nx a)
      · have hne : m.e (nx a) ≠ 0 := t1 ▸ hi.pos
        obtain ⟨s1, s2, s3, s4, s5⟩ := h.tw _ ia.nx hne
        obtain ⟨g1, g2⟩ := f1 hne
        intro _
        rw [t1, S.et1 hne]
        refine ⟨by rw [S.size]; exact j1, S.ex1, by rw [S.cx1, oc s1 (t1 ▸ e1) (t1 ▸ e2), s3], ?_, ?_⟩
        · rw [N.n1, S.px2, sp s1.pv, s5, ia.nx_nx]
          · intro e; exact out_pv s1 g1 (by rw [e, i2])
          · intro e; exact out_pv s1 g2 (by rw [e, i3])
        · rw [N.p1, S.px0, sp s1.nx, s4, ia.pv_nx]
          · intro e; exact out_nx s1 g1 (by rw [e, i2])
          · intro e; exact out_nx s1 g2 (by rw [e, i3])
      by_cases t2 : i = m.e (pv b)
      · have hne : m.e (pv b) ≠ 0 := t2 ▸ hi.pos
        obtain ⟨s1, s2, s3, s4, s5⟩ := h.tw _ ib.pv hne
        obtain ⟨g1, g2⟩ := f2 hne
        intro _
        rw [t2, S.et2 hne]
        refine ⟨by rw [S.size]; exact j6, S.ey2, by rw [S.cy2, oc s1 (t2 ▸ e1) (t2 ▸ e2), s3], ?_, ?_⟩
        · rw [N.n6, S.py0, sp s1.pv, s5, ib.nx_pv]
          · intro e; exact out_pv s1 g2 (by rw [e, i2])
          · intro e; exact out_pv s1 g1 (by rw [e, i3])
        · rw [N.p6, S.py1, sp s1.nx, s4, ib.pv_pv]
          · intro e; exact out_nx s1 g2 (by rw [e, i2])
          · intro e; exact out_nx s1 g1 (by rw [e, i3])
      by_cases ka : i = a
      · rw [ka]; intro _; rw [ea]
        refine ⟨by rw [S.size]; exact ib.succ, eb, by rw [ca, cb, P.cc], ?_, ?_⟩
        · rw [S.pnb, S.ppa]
        · rw [qpb, qna, n2]
      by_cases kb : i = b
      · rw [kb]; intro _; rw [eb]
        refine ⟨by rw [S.size]; exact ia.succ, ea, by rw [ca, cb, P.cc], ?_, ?_⟩
        · rw [qpb, qna, n2]
        · rw [S.pnb, S.ppa]
      intro he
      rw [old hi e1 e2 t1 t2] at he ⊢
      obtain ⟨s1, s2, s3, s4, s5⟩ := h.tw _ hi he
      have y1 : m.e i ≠ nx a := fun e => by rw [e] at s2; exact t1 s2.symm
      have y2 : m.e i ≠ pv b := fun e => by rw [e] at s2; exact t2 s2.symm
      have y3 : m.e i ≠ a := fun e => by rw [e, P.ab] at s2; exact kb s2.symm
      have y4 : m.e i ≠ b := fun e => by rw [e, P.ba] at s2; exact ka s2.symm
      have x1 : m.e i ≠ m.e (nx a) := fun e => e1 (h.tw_inj hi ia.nx he e)
      have x2 : m.e i ≠ m.e (pv b) := fun e => e2 (h.tw_inj hi ib.pv he e)
      refine ⟨by rw [S.size]; exact s1.succ, by rw [old s1 y1 y2 x1 x2, s2], by rw [oc s1 y1 y2, s3, oc hi e1 e2], ?_, ?_⟩
      · rw [sp s1.nx, s4, sp hi.pv]
        · intro e; exact ka (hi.pv_inj ia e)
        · intro e; exact e2 (by have := hi.nx_pv; rw [e, ib.nx_nx] at this; exact this.symm)
        · intro e; exact y1 (by have := s1.pv_nx; rw [e, ia.pv_pv] at this; exact this.symm)
        · intro e; exact y4 (s1.nx_inj ib e)
      · rw [sp s1.pv, s5, sp hi.nx]
        · intro e; exact e1 (by have := hi.pv_nx; rw [e, ia.pv_pv] at this; exact this.symm)
        · intro e; exact kb (hi.nx_inj ib e)
        · intro e; exact y3 (s1.pv_inj ia e)
        · intro e; exact y2 (by have := s1.nx_pv; rw [e, ib.nx_nx] at this; exact this.symm)
    · intro _
      rw [S.ex0]
      refine ⟨by rw [S.size]; exact j4, S.ey0, by rw [S.cy0, S.cx0, P.cc], ?_, ?_⟩
      · rw [N.n4, S.py1, N.p0, S.px2, n1]
      · rw [N.p4, S.py2, N.n0, S.px1]
    · intro he
      rw [S.ex1] at he ⊢
      obtain ⟨s1, s2, s3, s4, s5⟩ := h.tw _ ia.nx he
      obtain ⟨g1, g2⟩ := f1 he
      refine ⟨by rw [S.size]; exact s1.succ, S.et1 he,
        by rw [S.cx1, oc s1 (w1 he (Or.inl i1)) (w1 he (Or.inr i4)), s3], ?_, ?_⟩
      · rw [N.p1, S.px0, sp s1.nx, s4, ia.pv_nx]
        · intro e; exact out_nx s1 g1 (by rw [e, i2])
        · intro e; exact out_nx s1 g2 (by rw [e, i3])
      · rw [N.n1, S.px2, sp s1.pv, s5, ia.nx_nx]
        · intro e; exact out_pv s1 g1 (by rw [e, i2])
        · intro e; exact out_pv s1 g2 (by rw [e, i3])
    · intro _
      rw [S.ex2]
      refine ⟨by rw [S.size]; exact ia.nx.succ, S.ena, by rw [S.cx2, S.cna], ?_, ?_⟩
      · rw [N.p2, S.px1, ia.nx_nx, S.ppa]
      · rw [N.n2, S.px0, ia.pv_nx, qa]
    · intro _
      rw [S.ey0]
      refine ⟨by rw [S.size]; exact j0, S.ex0, by rw [S.cy0, S.cx0, P.cc], ?_, ?_⟩
      · rw [N.p4, S.py2, N.n0, S.px1]
      · rw [N.n4, S.py1, N.p0, S.px2, n1]
    · intro _
      rw [S.ey1]
      refine ⟨by rw [S.size]; exact ib.pv.succ, S.epb, by rw [S.cy1, S.cpb], ?_, ?_⟩
      · rw [N.p5, S.py0, ib.nx_pv, qb]
      · rw [N.n5, S.py2, ib.pv_pv, S.pnb]
    · intro he
      rw [S.ey2] at he ⊢
      obtain ⟨s1, s2, s3, s4, s5⟩ := h.tw _ ib.pv he
      obtain ⟨g1, g2⟩ := f2 he
      refine ⟨by rw [S.size]; exact s1.succ, S.et2 he,
        by rw [S.cy2, oc s1 (w2 he (Or.inl i1)) (w2 he (Or.inr i4)), s3], ?_, ?_⟩
      · rw [N.p6, S.py1, sp s1.nx, s4, ib.pv_pv]
        · intro e; exact out_nx s1 g2 (by rw [e, i2])
        · intro e; exact out_nx s1 g1 (by rw [e, i3])
      · rw [N.n6, S.py0, sp s1.pv, s5, ib.nx_pv]
        · intro e; exact out_pv s1 g2 (by rw [e, i2])
        · intro e; exact out_pv s1 g1 (by rw [e, i3])
  · have e1 : m'.cr m.size (m.p a) (m.p (nx a)) < 0 := by rw [S.crn (i16_eq hx) (i16_eq hy) pla plna]; exact h1
    have e2 : m'.cr m.size (m.p (pv a)) (m.p a) < 0 := by rw [S.crn (i16_eq hx) (i16_eq hy) plpa pla]; exact h2
    have e3 : m'.cr m.size (m.p b) (m.p (nx b)) < 0 := by rw [S.crn (i16_eq hx) (i16_eq hy) plb plnb]; exact h3
    have e4 : m'.cr m.size (m.p (pv b)) (m.p b) < 0 := by rw [S.crn (i16_eq hx) (i16_eq hy) plpb plb]; exact h4
    intro i hi
    rw [S.size] at hi
    rcases isE_succ hi with hi | rfl | rfl | rfl | rfl | rfl | rfl
    · rcases P.cases hi with (rfl | rfl | rfl) | (rfl | rfl | rfl) | ⟨c, d⟩
      · rw [qa, qna, S.ppa, cr_rot']; exact e1
      · rw [ia.nx_nx, ia.pv_nx, qa, qna, S.ppa, cr_rot]; exact e1
      · rw [ia.nx_pv, ia.pv_pv, qa, qna, S.ppa]; exact e1
      · rw [qb, qpb, S.pnb, cr_rot]; exact e4
      · rw [ib.nx_nx, ib.pv_nx, qb, qpb, S.pnb]; exact e4
      · rw [ib.nx_pv, ib.pv_pv, qb, qpb, S.pnb, cr_rot']; exact e4
      · have k : ∀ {i}, i / 4 ≠ a / 4 → i / 4 ≠ b / 4 → i ≠ pv a ∧ i ≠ nx b :=
          fun c d => ⟨fun e => c (by rw [e, i2]), fun e => d (by rw [e, i3])⟩
        rw [sp hi (k c d).1 (k c d).2, sp hi.nx (k (out_nx hi c) (out_nx hi d)).1 (k (out_nx hi c) (out_nx hi d)).2,
          sp hi.pv (k (out_pv hi c) (out_pv hi d)).1 (k (out_pv hi c) (out_pv hi d)).2,
          S.cr (h.pl _ hi) (h.pl _ hi.nx) (h.pl _ hi.pv)]
        exact h.cw i hi
    · rw [N.n0, N.p0, S.px0, S.px1, S.px2, cr_rot]; exact e2
    · rw [N.n1, N.p1, S.px0, S.px1, S.px2]; exact e2
    · rw [N.n2, N.p2, S.px0, S.px1, S.px2, cr_rot']; exact e2
    · rw [N.n4, N.p4, S.py0, S.py1, S.py2, cr_rot']; exact e3
    · rw [N.n5, N.p5, S.py0, S.py1, S.py2, cr_rot]; exact e3
    · rw [N.n6, N.p6, S.py0, S.py1, S.py2]; exact e3

end CE.Cdt
