import Verif.Proof.CdtFlip
/-! Flips preserve the invariant. -/
namespace CE.Cdt

/-- all the places are different -/
structure Apart (a b : Nat) : Prop where
  ab : a ≠ b
  anb : a ≠ nx b
  apb : a ≠ pv b
  bna : b ≠ nx a
  bpa : b ≠ pv a
  nn : nx a ≠ nx b
  np : nx a ≠ pv b
  pn : pv a ≠ nx b
  pp : pv a ≠ pv b
  na : nx a ≠ a
  pa : pv a ≠ a
  npa : nx a ≠ pv a
  nb : nx b ≠ b
  pb : pv b ≠ b
  npb : nx b ≠ pv b

theorem Pair.apart {m a b} (P : Pair m a b) : Apart a b := by
  have i1 := P.ia.nx_div
  have i2 := P.ia.pv_div
  have i3 := P.ib.nx_div
  have i4 := P.ib.pv_div
  have hf := P.face
  exact ⟨fun e => hf (by rw [e]), fun e => hf (by rw [← i3, ← e]), fun e => hf (by rw [← i4, ← e]),
    fun e => hf (by rw [← i1, ← e]), fun e => hf (by rw [← i2, ← e]), fun e => hf (by rw [← i1, ← i3, ← e]),
    fun e => hf (by rw [← i1, ← i4, ← e]), fun e => hf (by rw [← i2, ← i3, ← e]), fun e => hf (by rw [← i2, ← i4, ← e]),
    P.ia.nx_ne, P.ia.pv_ne, P.ia.nx_ne_pv, P.ib.nx_ne, P.ib.pv_ne, P.ib.nx_ne_pv⟩

variable {m m' : Mesh} {a b : Nat}

theorem FlipSpec.pa (S : FlipSpec m m' a b) (P : Pair m a b) : m'.p a = m.p a :=
  S.p3 _ P.apart.na.symm P.apart.anb
theorem FlipSpec.ppa (S : FlipSpec m m' a b) (P : Pair m a b) : m'.p (pv a) = m.p (pv a) :=
  S.p3 _ P.apart.npa.symm P.apart.pn
theorem FlipSpec.pout (S : FlipSpec m m' a b) (P : Pair m a b) {i} (ha : i / 4 ≠ a / 4) (hb : i / 4 ≠ b / 4) : m'.p i = m.p i :=
  S.p3 _ (fun e => ha (by rw [e, P.ia.nx_div])) (fun e => hb (by rw [e, P.ib.nx_div]))
theorem FlipSpec.cr (S : FlipSpec m m' a b) (u v w : Nat) : m'.cr u v w = m.cr u v w := by
  unfold Mesh.cr; rw [S.x, S.y]

theorem out_nx {s i k : Nat} (hi : IsE s i) (h : i / 4 ≠ k) : nx i / 4 ≠ k := by rw [hi.nx_div]; exact h
theorem out_pv {s i k : Nat} (hi : IsE s i) (h : i / 4 ≠ k) : pv i / 4 ≠ k := by rw [hi.pv_div]; exact h

/-- the statement about twins for one edge -/
def TwOk (m : Mesh) (i : Nat) : Prop :=
  m.e i ≠ 0 → IsE m.size (m.e i) ∧ m.e (m.e i) = i ∧ m.c (m.e i) = m.c i ∧
    m.p (nx (m.e i)) = m.p (pv i) ∧ m.p (pv (m.e i)) = m.p (nx i)

theorem Inv.tw_inj (h : Inv m) {i j} (hi : IsE m.size i) (hj : IsE m.size j) (he : m.e i ≠ 0) (e : m.e i = m.e j) : i = j := by
  have h1 := (h.tw i hi he).2.1
  have h2 := (h.tw j hj (e ▸ he)).2.1
  rw [← h1, e, h2]

theorem FlipSpec.tw_a (S : FlipSpec m m' a b) (h : Inv m) (P : Pair m a b) : TwOk m' a := by
  intro he
  rw [S.e1] at he ⊢
  obtain ⟨t1, t2, t3, t4, t5⟩ := h.tw _ P.ib.pv he
  obtain ⟨f1, f2⟩ := P.symm.faceP h he
  refine ⟨by rw [S.size]; exact t1, S.e5 he, ?_, ?_, ?_⟩
  · rw [S.c1, ← t3]
    exact S.c5 _ (fun e => f2 (by rw [e])) (fun e => f1 (by rw [e])) (fun e => f2 (by rw [e, P.ia.pv_div]))
      (fun e => f1 (by rw [e, P.ib.pv_div]))
  · rw [S.pout P (out_nx t1 f2) (out_nx t1 f1), t4, S.ppa P, P.ib.pv_pv, P.n1]
  · rw [S.pout P (out_pv t1 f2) (out_pv t1 f1), t5, S.p1, P.ib.nx_pv]

theorem FlipSpec.tw_na (S : FlipSpec m m' a b) (h : Inv m) (P : Pair m a b) : TwOk m' (nx a) := by
  intro he
  have A := P.apart
  have hn : ∀ k, IsE m.size k → k ≠ nx a → (nx a = 0 ∨ nx a ≠ m.e k) ∨ m.e k = nx a := by
    intro k _ _; by_cases e : m.e k = nx a
    · exact Or.inr e
    · exact Or.inl (Or.inr fun e' => e e'.symm)
  have x1 : nx a ≠ m.e (pv a) := by
    intro e
    have h0 : m.e (pv a) ≠ 0 := e ▸ P.ia.nx.pos
    obtain ⟨f1, _⟩ := P.faceP h h0
    exact f1 (by rw [← e, P.ia.nx_div])
  have x2 : nx a ≠ m.e (pv b) := by
    intro e
    have h0 : m.e (pv b) ≠ 0 := e ▸ P.ia.nx.pos
    obtain ⟨_, f1⟩ := P.symm.faceP h h0
    exact f1 (by rw [← e, P.ia.nx_div])
  have e1 : m'.e (nx a) = m.e (nx a) := S.e7 _ A.na A.bna.symm A.npa A.np (Or.inr x1) (Or.inr x2)
  rw [e1] at he ⊢
  obtain ⟨t1, t2, t3, t4, t5⟩ := h.tw _ P.ia.nx he
  obtain ⟨f1, f2⟩ := P.faceN h he
  have o1 : m.e (nx a) ≠ a := fun e => f1 (by rw [e])
  have o2 : m.e (nx a) ≠ b := fun e => f2 (by rw [e])
  have o3 : m.e (nx a) ≠ pv a := fun e => f1 (by rw [e, P.ia.pv_div])
  have o4 : m.e (nx a) ≠ pv b := fun e => f2 (by rw [e, P.ib.pv_div])
  refine ⟨by rw [S.size]; exact t1, ?_, ?_, ?_, ?_⟩
  · rw [S.e7 _ o1 o2 o3 o4 (Or.inr fun e => A.npa (h.tw_inj P.ia.nx P.ia.pv he e))
      (Or.inr fun e => A.np (h.tw_inj P.ia.nx P.ib.pv he e)), t2]
  · rw [S.c5 _ o1 o2 o3 o4, t3, S.c5 _ A.na A.bna.symm A.npa A.np]
  · rw [S.pout P (out_nx t1 f1) (out_nx t1 f2), t4, P.ia.pv_nx, S.pa P]
  · rw [S.pout P (out_pv t1 f1) (out_pv t1 f2), t5, P.ia.nx_nx, S.ppa P]

theorem FlipSpec.tw_pa (S : FlipSpec m m' a b) (P : Pair m a b) : TwOk m' (pv a) := by
  intro _
  rw [S.e3]
  refine ⟨by rw [S.size]; exact P.ib.pv, S.e4, by rw [S.c4, S.c3], ?_, ?_⟩
  · rw [P.ib.nx_pv, P.ia.pv_pv, S.p1, S.symm.pa P.symm]
  · rw [P.ib.pv_pv, P.ia.nx_pv, S.p2, S.pa P]

theorem FlipSpec.tw_u (S : FlipSpec m m' a b) (h : Inv m) (P : Pair m a b) (hu : m.e (pv a) ≠ 0) : TwOk m' (m.e (pv a)) := by
  intro _
  rw [S.e6 hu]
  obtain ⟨t1, t2, t3, t4, t5⟩ := h.tw _ P.ia.pv hu
  obtain ⟨f1, f2⟩ := P.faceP h hu
  refine ⟨by rw [S.size]; exact P.ib, S.e2, ?_, ?_, ?_⟩
  · rw [S.c2, S.c5 _ (fun e => f1 (by rw [e])) (fun e => f2 (by rw [e])) (fun e => f1 (by rw [e, P.ia.pv_div]))
      (fun e => f2 (by rw [e, P.ib.pv_div])), t3]
  · rw [S.p2, S.pout P (out_pv t1 f1) (out_pv t1 f2), t5, P.ia.nx_pv]
  · rw [S.symm.ppa P.symm, S.pout P (out_nx t1 f1) (out_nx t1 f2), t4, P.ia.pv_pv, P.n2]

theorem FlipSpec.tw_out (S : FlipSpec m m' a b) (h : Inv m) (P : Pair m a b) {i} (hi : IsE m.size i)
    (fa : i / 4 ≠ a / 4) (fb : i / 4 ≠ b / 4) (hu : i ≠ m.e (pv a)) (hv : i ≠ m.e (pv b)) : TwOk m' i := by
  intro he
  have A := P.apart
  have o1 : i ≠ a := fun e => fa (by rw [e])
  have o2 : i ≠ b := fun e => fb (by rw [e])
  have o3 : i ≠ pv a := fun e => fa (by rw [e, P.ia.pv_div])
  have o4 : i ≠ pv b := fun e => fb (by rw [e, P.ib.pv_div])
  have e1 := S.e7 _ o1 o2 o3 o4 (Or.inr hu) (Or.inr hv)
  rw [e1] at he ⊢
  obtain ⟨t1, t2, t3, t4, t5⟩ := h.tw _ hi he
  have q1 : m.e i ≠ a := by intro e; rw [e, P.ab] at t2; exact o2 t2.symm
  have q2 : m.e i ≠ b := by intro e; rw [e, P.ba] at t2; exact o1 t2.symm
  have q3 : m.e i ≠ pv a := by intro e; rw [e] at t2; exact hu t2.symm
  have q4 : m.e i ≠ pv b := by intro e; rw [e] at t2; exact hv t2.symm
  refine ⟨by rw [S.size]; exact t1, ?_, ?_, ?_, ?_⟩
  · rw [S.e7 _ q1 q2 q3 q4 (Or.inr fun e => o3 (h.tw_inj hi P.ia.pv he e)) (Or.inr fun e => o4 (h.tw_inj hi P.ib.pv he e)), t2]
  · rw [S.c5 _ q1 q2 q3 q4, t3, S.c5 _ o1 o2 o3 o4]
  · rw [S.p3 _ (fun e => q1 (t1.nx_inj P.ia e)) (fun e => q2 (t1.nx_inj P.ib e)), t4, S.pout P (out_pv hi fa) (out_pv hi fb)]
  · rw [S.p3 (pv (m.e i)), t5, S.pout P (out_nx hi fa) (out_nx hi fb)]
    · intro e
      exact q3 (t1.pv_inj P.ia.pv (by rw [e, P.ia.pv_pv]))
    · intro e
      exact q4 (t1.pv_inj P.ib.pv (by rw [e, P.ib.pv_pv]))

/-- every edge is in one of these places -/
theorem Pair.cases (P : Pair m a b) {i} (hi : IsE m.size i) :
    (i = a ∨ i = nx a ∨ i = pv a) ∨ (i = b ∨ i = nx b ∨ i = pv b) ∨ (i / 4 ≠ a / 4 ∧ i / 4 ≠ b / 4) := by
  by_cases h1 : i / 4 = a / 4
  · exact Or.inl (P.ia.face hi h1.symm)
  · by_cases h2 : i / 4 = b / 4
    · exact Or.inr (Or.inl (P.ib.face hi h2.symm))
    · exact Or.inr (Or.inr ⟨h1, h2⟩)

theorem FlipSpec.inv (S : FlipSpec m m' a b) (h : Inv m) (P : Pair m a b)
    (h1 : m.cr (m.p a) (m.p b) (m.p (pv a)) < 0) (h2 : m.cr (m.p b) (m.p a) (m.p (pv b)) < 0) : Inv m' := by
  have A := P.apart
  have B := P.symm.apart
  have z0 : ∀ i, IsE m.size i → IsE m'.size i := fun i hi => by rw [S.size]; exact hi
  have p_a := S.pa P
  have p_b := S.symm.pa P.symm
  have p_pa := S.ppa P
  have p_pb := S.symm.ppa P.symm
  have cla : ∀ {a b}, FlipSpec m m' a b → Pair m a b → ∀ i, (i = a ∨ i = nx a ∨ i = pv a) → m'.c i ≤ 1 := by
    intro a b S P i hi
    have A := P.apart
    rcases hi with e | e | e <;> rw [e]
    · rw [S.c1]; exact h.cl _ P.ib.pv
    · rw [S.c5 _ A.na A.bna.symm A.npa A.np]; exact h.cl _ P.ia.nx
    · rw [S.c3]; omega
  have pla : ∀ {a b}, FlipSpec m m' a b → Pair m a b → ∀ i, (i = a ∨ i = nx a ∨ i = pv a) → m'.p i < m.size := by
    intro a b S P i hi
    rcases hi with e | e | e <;> rw [e]
    · rw [S.pa P]; exact h.pl _ P.ia
    · rw [S.p1]; exact h.pl _ P.ib
    · rw [S.ppa P]; exact h.pl _ P.ia.pv
  have bda : ∀ {a b}, FlipSpec m m' a b → Pair m a b → ∀ i, (i = a ∨ i = nx a ∨ i = pv a) → m'.e i = 0 → m'.c i = 1 := by
    intro a b S P i hi he
    have A := P.apart
    rcases hi with e | e | e <;> rw [e] at he ⊢
    · rw [S.e1] at he; rw [S.c1]; exact h.bd _ P.ib.pv he
    · have x1 : nx a ≠ m.e (pv a) := by
        intro e
        have h0 : m.e (pv a) ≠ 0 := e ▸ P.ia.nx.pos
        exact (P.faceP h h0).1 (by rw [← e, P.ia.nx_div])
      have x2 : nx a ≠ m.e (pv b) := by
        intro e
        have h0 : m.e (pv b) ≠ 0 := e ▸ P.ia.nx.pos
        exact (P.symm.faceP h h0).2 (by rw [← e, P.ia.nx_div])
      rw [S.e7 _ A.na A.bna.symm A.npa A.np (Or.inr x1) (Or.inr x2)] at he
      rw [S.c5 _ A.na A.bna.symm A.npa A.np]; exact h.bd _ P.ia.nx he
    · rw [S.e3] at he; exact absurd he P.ib.pv.pos
  have twa : ∀ {a b}, FlipSpec m m' a b → Pair m a b → ∀ i, (i = a ∨ i = nx a ∨ i = pv a) → TwOk m' i := by
    intro a b S P i hi
    rcases hi with e | e | e <;> rw [e]
    · exact S.tw_a h P
    · exact S.tw_na h P
    · exact S.tw_pa P
  have cwa : ∀ {a b}, FlipSpec m m' a b → Pair m a b → m.cr (m.p a) (m.p b) (m.p (pv a)) < 0 →
      ∀ i, (i = a ∨ i = nx a ∨ i = pv a) → m'.cr (m'.p i) (m'.p (nx i)) (m'.p (pv i)) < 0 := by
    intro a b S P h1 i hi
    have : m'.cr (m'.p a) (m'.p (nx a)) (m'.p (pv a)) < 0 := by rw [S.cr, S.pa P, S.p1, S.ppa P]; exact h1
    rcases hi with e | e | e <;> rw [e]
    · exact this
    · rw [P.ia.nx_nx, P.ia.pv_nx, ← cr_rot]; exact this
    · rw [P.ia.nx_pv, P.ia.pv_pv, ← cr_rot']; exact this
  constructor
  · rw [S.size]; exact h.sz
  · rw [S.size, S.x, S.y]; exact h.rng
  · intro i hi hi3
    obtain ⟨l1, l2, l3⟩ := h.low i hi hi3
    have n : ∀ k, IsE m.size k → i ≠ k := fun k hk => by have := hk.1; omega
    have n' : ∀ k, IsE m.size k → (i = 0 ∨ i ≠ m.e k) := fun k hk => by
      by_cases h0 : m.e k = 0
      · by_cases hz : i = 0
        · exact Or.inl hz
        · exact Or.inr (by omega)
      · exact Or.inr (n _ (h.tw k hk h0).1)
    refine ⟨?_, ?_, ?_⟩
    · rw [S.c5 _ (n _ P.ia) (n _ P.ib) (n _ P.ia.pv) (n _ P.ib.pv)]; exact l1
    · rw [S.p3 _ (n _ P.ia.nx) (n _ P.ib.nx)]; exact l2
    · rw [S.e7 _ (n _ P.ia) (n _ P.ib) (n _ P.ia.pv) (n _ P.ib.pv) (n' _ P.ia.pv) (n' _ P.ib.pv)]; exact l3
  · intro i hi
    rw [S.size] at hi ⊢
    rcases P.cases hi with c | c | ⟨c, d⟩
    · exact pla S P i c
    · exact pla S.symm P.symm i c
    · rw [S.pout P c d]; exact h.pl i hi
  · intro i hi
    rw [S.size] at hi
    rcases P.cases hi with c | c | ⟨c, d⟩
    · exact cla S P i c
    · exact cla S.symm P.symm i c
    · rw [S.c5 _ (fun e => c (by rw [e])) (fun e => d (by rw [e])) (fun e => c (by rw [e, P.ia.pv_div]))
        (fun e => d (by rw [e, P.ib.pv_div]))]; exact h.cl i hi
  · intro i hi
    rw [S.size] at hi
    rcases P.cases hi with c | c | ⟨c, d⟩
    · exact bda S P i c
    · exact bda S.symm P.symm i c
    · intro he
      have o1 : i ≠ a := fun e => c (by rw [e])
      have o2 : i ≠ b := fun e => d (by rw [e])
      have o3 : i ≠ pv a := fun e => c (by rw [e, P.ia.pv_div])
      have o4 : i ≠ pv b := fun e => d (by rw [e, P.ib.pv_div])
      by_cases hu : i = m.e (pv a)
      · have := S.e6 (hu ▸ hi.pos); rw [← hu, he] at this; exact absurd this.symm P.ib.pos
      by_cases hv : i = m.e (pv b)
      · have := S.e5 (hv ▸ hi.pos); rw [← hv, he] at this; exact absurd this.symm P.ia.pos
      rw [S.e7 _ o1 o2 o3 o4 (Or.inr hu) (Or.inr hv)] at he
      rw [S.c5 _ o1 o2 o3 o4]
      exact h.bd i hi he
  · intro i hi
    rw [S.size] at hi
    show TwOk m' i
    rcases P.cases hi with c | c | ⟨c, d⟩
    · exact twa S P i c
    · exact twa S.symm P.symm i c
    · by_cases hu : i = m.e (pv a)
      · rw [hu]; exact S.tw_u h P (hu ▸ hi.pos)
      by_cases hv : i = m.e (pv b)
      · rw [hv]; exact S.symm.tw_u h P.symm (hv ▸ hi.pos)
      exact S.tw_out h P hi c d hu hv
  · intro i hi
    rw [S.size] at hi
    rcases P.cases hi with c | c | ⟨c, d⟩
    · exact cwa S P h1 i c
    · exact cwa S.symm P.symm h2 i c
    · rw [S.cr, S.pout P c d, S.pout P (out_nx hi c) (out_nx hi d), S.pout P (out_pv hi c) (out_pv hi d)]
      exact h.cw i hi

end CE.Cdt
