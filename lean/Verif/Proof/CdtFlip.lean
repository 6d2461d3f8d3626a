import Verif.Proof.CdtGeom
/-! Invariant of the mesh and its preservation by flips. -/
set_option linter.unusedSimpArgs false
namespace CE.Cdt

/-- an edge of a mesh with `s` vertices -/
def IsE (s i : Nat) : Prop := 24 ≤ i ∧ i < 8 * s ∧ i % 4 ≠ 3

theorem edge_iff (m : Mesh) (i : Nat) : m.edge i = true ↔ IsE m.size i := by
  unfold Mesh.edge IsE; simp [and_assoc]

theorem IsE.nx {s i : Nat} (h : IsE s i) : IsE s (nx i) := by unfold IsE Cdt.nx at *; split <;> omega
theorem IsE.pv {s i : Nat} (h : IsE s i) : IsE s (pv i) := by unfold IsE Cdt.pv at *; split <;> omega
theorem IsE.nx_nx {s i : Nat} (h : IsE s i) : Cdt.nx (Cdt.nx i) = Cdt.pv i := by
  unfold IsE at h; unfold Cdt.nx Cdt.pv; split <;> split <;> split <;> omega
theorem IsE.pv_pv {s i : Nat} (h : IsE s i) : Cdt.pv (Cdt.pv i) = Cdt.nx i := by
  unfold IsE at h; unfold Cdt.nx Cdt.pv; split <;> split <;> split <;> omega
theorem IsE.nx_pv {s i : Nat} (h : IsE s i) : Cdt.nx (Cdt.pv i) = i := by
  unfold IsE at h; unfold Cdt.nx Cdt.pv; split <;> split <;> omega
theorem IsE.pv_nx {s i : Nat} (h : IsE s i) : Cdt.pv (Cdt.nx i) = i := by
  unfold IsE at h; unfold Cdt.nx Cdt.pv; split <;> split <;> omega
theorem IsE.nx_ne {s i : Nat} (h : IsE s i) : Cdt.nx i ≠ i := by
  unfold IsE at h; unfold Cdt.nx; split <;> omega
theorem IsE.pv_ne {s i : Nat} (h : IsE s i) : Cdt.pv i ≠ i := by
  unfold IsE at h; unfold Cdt.pv; split <;> omega
theorem IsE.nx_ne_pv {s i : Nat} (h : IsE s i) : Cdt.nx i ≠ Cdt.pv i := by
  unfold IsE at h; unfold Cdt.nx Cdt.pv; split <;> split <;> omega
theorem IsE.nx_div {s i : Nat} (h : IsE s i) : Cdt.nx i / 4 = i / 4 := by
  unfold IsE at h; unfold Cdt.nx; split <;> omega
theorem IsE.pv_div {s i : Nat} (h : IsE s i) : Cdt.pv i / 4 = i / 4 := by
  unfold IsE at h; unfold Cdt.pv; split <;> omega
theorem IsE.nx_inj {s i j : Nat} (h : IsE s i) (h' : IsE s j) (e : Cdt.nx i = Cdt.nx j) : i = j := by
  rw [← h.pv_nx, e, h'.pv_nx]
theorem IsE.pv_inj {s i j : Nat} (h : IsE s i) (h' : IsE s j) (e : Cdt.pv i = Cdt.pv j) : i = j := by
  rw [← h.nx_pv, e, h'.nx_pv]
theorem IsE.face {s i j : Nat} (h : IsE s i) (h' : IsE s j) (e : i / 4 = j / 4) : j = i ∨ j = Cdt.nx i ∨ j = Cdt.pv i := by
  unfold IsE at h h'; unfold Cdt.nx Cdt.pv; split <;> split <;> omega
theorem IsE.pos {s i : Nat} (h : IsE s i) : i ≠ 0 := by unfold IsE at h; omega

theorem cr_rot (m : Mesh) (a b c : Nat) : m.cr a b c = m.cr b c a := by unfold Mesh.cr; ring
theorem cr_rot' (m : Mesh) (a b c : Nat) : m.cr a b c = m.cr c a b := by unfold Mesh.cr; ring
theorem cr_swap (m : Mesh) (a b c : Nat) : m.cr a c b = - m.cr a b c := by unfold Mesh.cr; ring
theorem cr_aab (m : Mesh) (a b : Nat) : m.cr a a b = 0 := by unfold Mesh.cr; ring
theorem cr_abb (m : Mesh) (a b : Nat) : m.cr a b b = 0 := by unfold Mesh.cr; ring
theorem cr_aba (m : Mesh) (a b : Nat) : m.cr a b a = 0 := by unfold Mesh.cr; ring

/-- the invariant -/
structure Inv (m : Mesh) : Prop where
  sz : 4 ≤ m.size
  rng : ∀ v, v < m.size → Is16 (m.x v) ∧ Is16 (m.y v)
  low : ∀ i, i < 24 → i % 4 ≠ 3 → m.c i = 1 ∧ m.p i = 0 ∧ m.e i = 0
  pl : ∀ i, IsE m.size i → m.p i < m.size
  cl : ∀ i, IsE m.size i → m.c i ≤ 1
  bd : ∀ i, IsE m.size i → m.e i = 0 → m.c i = 1
  tw : ∀ i, IsE m.size i → m.e i ≠ 0 → IsE m.size (m.e i) ∧ m.e (m.e i) = i ∧ m.c (m.e i) = m.c i ∧
    m.p (nx (m.e i)) = m.p (pv i) ∧ m.p (pv (m.e i)) = m.p (nx i)
  cw : ∀ i, IsE m.size i → m.cr (m.p i) (m.p (nx i)) (m.p (pv i)) < 0

theorem Inv.ne1 {m : Mesh} (h : Inv m) {i} (hi : IsE m.size i) : m.p i ≠ m.p (nx i) := by
  intro e; have := h.cw i hi; rw [← e, cr_aab] at this; omega
theorem Inv.ne2 {m : Mesh} (h : Inv m) {i} (hi : IsE m.size i) : m.p i ≠ m.p (pv i) := by
  intro e; have := h.cw i hi; rw [← e, cr_aba] at this; omega
theorem Inv.ne3 {m : Mesh} (h : Inv m) {i} (hi : IsE m.size i) : m.p (nx i) ≠ m.p (pv i) := by
  intro e; have := h.cw i hi; rw [← e, cr_abb] at this; omega

theorem Inv.free {m : Mesh} (h : Inv m) {i} (hi : IsE m.size i) (hc : m.c i = 0) : m.e i ≠ 0 := by
  intro e; have := h.bd i hi e; omega

/-- the twin is in another face -/
theorem Inv.other {m : Mesh} (h : Inv m) {i} (hi : IsE m.size i) (he : m.e i ≠ 0) : m.e i / 4 ≠ i / 4 := by
  intro hf
  obtain ⟨t1, t2, -, t4, t5⟩ := h.tw i hi he
  rcases hi.face t1 hf.symm with e | e | e <;> rw [e] at t4 t5
  · exact h.ne3 hi t4
  · rw [hi.pv_nx] at t5; exact h.ne1 hi t5
  · rw [hi.nx_pv] at t4; exact h.ne2 hi t4

/-- two faces share at most one edge -/
theorem Inv.share {m : Mesh} (h : Inv m) {i} (hi : IsE m.size i) (he : m.e i ≠ 0) (he' : m.e (nx i) ≠ 0) :
    m.e (nx i) / 4 ≠ m.e i / 4 := by
  intro hf
  obtain ⟨t1, t2, -, t4, t5⟩ := h.tw i hi he
  obtain ⟨s1, s2, -, s4, s5⟩ := h.tw (nx i) hi.nx he'
  rw [hi.pv_nx] at s4
  rw [hi.nx_nx] at s5
  rcases t1.face s1 hf.symm with e | e | e <;> rw [e] at s2 s4 s5
  · rw [t2] at s2; exact hi.nx_ne s2.symm
  · rw [t1.nx_nx, t5] at s4; exact h.ne1 hi s4.symm
  · rw [t1.pv_pv, t4] at s5
    rw [t1.nx_pv] at s4
    have a := h.cw i hi
    have b := h.cw _ t1
    rw [s4, t4, t5, cr_swap] at b
    omega

theorem Inv.share' {m : Mesh} (h : Inv m) {i} (hi : IsE m.size i) (he : m.e i ≠ 0) (he' : m.e (pv i) ≠ 0) :
    m.e (pv i) / 4 ≠ m.e i / 4 := by
  have := h.share hi.pv he' (by rw [hi.nx_pv]; exact he)
  rw [hi.nx_pv] at this
  exact fun e => this e.symm

/-- what a flip of `a` with twin `b` does to the links -/
structure FlipSpec (m m' : Mesh) (a b : Nat) : Prop where
  size : m'.size = m.size
  x : m'.x = m.x
  y : m'.y = m.y
  fi : m'.fi = m.fi
  p1 : m'.p (nx a) = m.p b
  p2 : m'.p (nx b) = m.p a
  p3 : ∀ i, i ≠ nx a → i ≠ nx b → m'.p i = m.p i
  e1 : m'.e a = m.e (pv b)
  e2 : m'.e b = m.e (pv a)
  e3 : m'.e (pv a) = pv b
  e4 : m'.e (pv b) = pv a
  e5 : m.e (pv b) ≠ 0 → m'.e (m.e (pv b)) = a
  e6 : m.e (pv a) ≠ 0 → m'.e (m.e (pv a)) = b
  e7 : ∀ i, i ≠ a → i ≠ b → i ≠ pv a → i ≠ pv b → (i = 0 ∨ i ≠ m.e (pv a)) → (i = 0 ∨ i ≠ m.e (pv b)) → m'.e i = m.e i
  c1 : m'.c a = m.c (pv b)
  c2 : m'.c b = m.c (pv a)
  c3 : m'.c (pv a) = 0
  c4 : m'.c (pv b) = 0
  c5 : ∀ i, i ≠ a → i ≠ b → i ≠ pv a → i ≠ pv b → m'.c i = m.c i

theorem FlipSpec.symm {m m' a b} (h : FlipSpec m m' a b) : FlipSpec m m' b a where
  size := h.size
  x := h.x
  y := h.y
  fi := h.fi
  p1 := h.p2
  p2 := h.p1
  p3 i a b := h.p3 i b a
  e1 := h.e2
  e2 := h.e1
  e3 := h.e4
  e4 := h.e3
  e5 := h.e6
  e6 := h.e5
  e7 i a b c d e f := h.e7 i b a d c f e
  c1 := h.c2
  c2 := h.c1
  c3 := h.c4
  c4 := h.c3
  c5 i a b c d := h.c5 i b a d c

/-- the situation of a flip -/
structure Pair (m : Mesh) (a b : Nat) : Prop where
  ia : IsE m.size a
  ib : IsE m.size b
  ab : m.e a = b
  ba : m.e b = a
  n1 : m.p (nx b) = m.p (pv a)
  n2 : m.p (pv b) = m.p (nx a)
  face : b / 4 ≠ a / 4
  cc : m.c b = m.c a

theorem Inv.pair {m : Mesh} (h : Inv m) {a} (ha : IsE m.size a) (he : m.e a ≠ 0) : Pair m a (m.e a) := by
  obtain ⟨t1, t2, t3, t4, t5⟩ := h.tw a ha he
  exact ⟨ha, t1, rfl, t2, t4, t5, h.other ha he, t3⟩

theorem Pair.symm {m a b} (h : Pair m a b) : Pair m b a where
  ia := h.ib
  ib := h.ia
  ab := h.ba
  ba := h.ab
  n1 := h.n2.symm
  n2 := h.n1.symm
  face := Ne.symm h.face
  cc := h.cc.symm

/-- where the twin of the edge after `a` lies -/
theorem Pair.faceN {m a b} (h : Inv m) (P : Pair m a b) (he : m.e (nx a) ≠ 0) :
    m.e (nx a) / 4 ≠ a / 4 ∧ m.e (nx a) / 4 ≠ b / 4 := by
  constructor
  · have := h.other P.ia.nx he; rwa [P.ia.nx_div] at this
  · have := h.share P.ia (by rw [P.ab]; exact P.ib.pos) he; rwa [P.ab] at this

theorem Pair.faceP {m a b} (h : Inv m) (P : Pair m a b) (he : m.e (pv a) ≠ 0) :
    m.e (pv a) / 4 ≠ a / 4 ∧ m.e (pv a) / 4 ≠ b / 4 := by
  constructor
  · have := h.other P.ia.pv he; rwa [P.ia.pv_div] at this
  · have := h.share' P.ia (by rw [P.ab]; exact P.ib.pos) he; rwa [P.ab] at this

theorem doFlip_spec {m : Mesh} (h : Inv m) {a b} (P : Pair m a b) (hc : m.c a = 0) :
    ∃ m', m.doFlip a = some m' ∧ FlipSpec m m' a b := by
  have hab := P.ab
  have hba := P.ba
  unfold Mesh.doFlip
  simp only [hab, (edge_iff _ _).2 P.ia, (edge_iff _ _).2 P.ib, hba, P.cc, hc, Bool.true_and, Bool.and_true, beq_self_eq_true, if_true]
  refine ⟨_, rfl, ?_⟩
  -- everything is in its own place
  have i1 := P.ia.nx_div
  have i2 := P.ia.pv_div
  have i3 := P.ib.nx_div
  have i4 := P.ib.pv_div
  have hf := P.face
  have d1 : a ≠ b := fun e => hf (by rw [e])
  have d2 : a ≠ nx b := fun e => hf (by rw [← i3, ← e])
  have d3 : a ≠ pv b := fun e => hf (by rw [← i4, ← e])
  have d4 : b ≠ nx a := fun e => hf (by rw [← i1, ← e])
  have d5 : b ≠ pv a := fun e => hf (by rw [← i2, ← e])
  have d6 : nx a ≠ nx b := fun e => hf (by rw [← i1, ← i3, ← e])
  have d7 : nx a ≠ pv b := fun e => hf (by rw [← i1, ← i4, ← e])
  have d8 : pv a ≠ nx b := fun e => hf (by rw [← i2, ← i3, ← e])
  have d9 : pv a ≠ pv b := fun e => hf (by rw [← i2, ← i4, ← e])
  have e1 := P.ia.nx_ne
  have e2 := P.ia.pv_ne
  have e3 := P.ia.nx_ne_pv
  have e4 := P.ib.nx_ne
  have e5 := P.ib.pv_ne
  have e6 := P.ib.nx_ne_pv
  have fu : m.e (pv a) ≠ 0 → m.e (pv a) ≠ a ∧ m.e (pv a) ≠ b ∧ m.e (pv a) ≠ pv a ∧ m.e (pv a) ≠ pv b := by
    intro he
    obtain ⟨f1, f2⟩ := P.faceP h he
    exact ⟨fun e => f1 (by rw [e]), fun e => f2 (by rw [e]), fun e => f1 (by rw [e, i2]), fun e => f2 (by rw [e, i4])⟩
  have fv : m.e (pv b) ≠ 0 → m.e (pv b) ≠ a ∧ m.e (pv b) ≠ b ∧ m.e (pv b) ≠ pv a ∧ m.e (pv b) ≠ pv b := by
    intro he
    obtain ⟨f1, f2⟩ := P.symm.faceP h he
    exact ⟨fun e => f2 (by rw [e]), fun e => f1 (by rw [e]), fun e => f2 (by rw [e, i2]), fun e => f1 (by rw [e, i4])⟩
  have fuv : m.e (pv a) ≠ 0 → m.e (pv b) ≠ 0 → m.e (pv a) ≠ m.e (pv b) := by
    intro h1 h2 e
    have a1 := (h.tw _ P.ia.pv h1).2.1
    have a2 := (h.tw _ P.ib.pv h2).2.1
    rw [e, a2] at a1
    exact d9 a1.symm
  have np : pv a ≠ 0 := P.ia.pv.pos
  have np' : pv b ≠ 0 := P.ib.pv.pos
  have n0 : a ≠ 0 := P.ia.pos
  have n0' : b ≠ 0 := P.ib.pos
  by_cases hu : m.e (pv a) = 0 <;> by_cases hv : m.e (pv b) = 0
  · constructor
    all_goals
      first
      | rfl
      | (intro i h1 h2 h3 h4 h5 h6
         simp [Mesh.setP, Mesh.setE, Mesh.setE', Mesh.setC, upd, hu, hv, h1, h2, h3, h4, d1, d1.symm, d2, d2.symm, d3, d3.symm, d4, d4.symm, d5, d5.symm, d6, d6.symm, d7, d7.symm, d8, d8.symm, d9, d9.symm, e1, e1.symm, e2, e2.symm, e3, e3.symm, e4, e4.symm, e5, e5.symm, e6, e6.symm, np, np.symm, np', np'.symm, n0, n0.symm, n0', n0'.symm]
         done)
      | (intro i; intros; simp_all [Mesh.setP, Mesh.setE, Mesh.setE', Mesh.setC, upd]; done)
      | (simp [Mesh.setP, Mesh.setE, Mesh.setE', Mesh.setC, upd, hu, hv, d1, d1.symm, d2, d2.symm, d3, d3.symm, d4, d4.symm, d5, d5.symm, d6, d6.symm, d7, d7.symm, d8, d8.symm, d9, d9.symm, e1, e1.symm, e2, e2.symm, e3, e3.symm, e4, e4.symm, e5, e5.symm, e6, e6.symm, np, np.symm, np', np'.symm, n0, n0.symm, n0', n0'.symm]; done)
  · obtain ⟨fv1, fv2, fv3, fv4⟩ := fv hv
    constructor
    all_goals
      first
      | rfl
      | (intro i h1 h2 h3 h4 h5 h6
         have h6 : i ≠ m.e (pv b) := h6.elim (fun e => e ▸ Ne.symm hv) id
         simp [Mesh.setP, Mesh.setE, Mesh.setE', Mesh.setC, upd, hu, hv, h1, h2, h3, h4, h6, d1, d1.symm, d2, d2.symm, d3, d3.symm, d4, d4.symm, d5, d5.symm, d6, d6.symm, d7, d7.symm, d8, d8.symm, d9, d9.symm, e1, e1.symm, e2, e2.symm, e3, e3.symm, e4, e4.symm, e5, e5.symm, e6, e6.symm, np, np.symm, np', np'.symm, n0, n0.symm, n0', n0'.symm, fv1, fv1.symm, fv2, fv2.symm, fv3, fv3.symm, fv4, fv4.symm]
         done)
      | (intro i; intros; simp_all [Mesh.setP, Mesh.setE, Mesh.setE', Mesh.setC, upd]; done)
      | (simp [Mesh.setP, Mesh.setE, Mesh.setE', Mesh.setC, upd, hu, hv, d1, d1.symm, d2, d2.symm, d3, d3.symm, d4, d4.symm, d5, d5.symm, d6, d6.symm, d7, d7.symm, d8, d8.symm, d9, d9.symm, e1, e1.symm, e2, e2.symm, e3, e3.symm, e4, e4.symm, e5, e5.symm, e6, e6.symm, np, np.symm, np', np'.symm, n0, n0.symm, n0', n0'.symm, fv1, fv1.symm, fv2, fv2.symm, fv3, fv3.symm, fv4, fv4.symm]; done)
  · obtain ⟨fu1, fu2, fu3, fu4⟩ := fu hu
    constructor
    all_goals
      first
      | rfl
      | (intro i h1 h2 h3 h4 h5 h6
         have h5 : i ≠ m.e (pv a) := h5.elim (fun e => e ▸ Ne.symm hu) id
         simp [Mesh.setP, Mesh.setE, Mesh.setE', Mesh.setC, upd, hu, hv, h1, h2, h3, h4, h5, d1, d1.symm, d2, d2.symm, d3, d3.symm, d4, d4.symm, d5, d5.symm, d6, d6.symm, d7, d7.symm, d8, d8.symm, d9, d9.symm, e1, e1.symm, e2, e2.symm, e3, e3.symm, e4, e4.symm, e5, e5.symm, e6, e6.symm, np, np.symm, np', np'.symm, n0, n0.symm, n0', n0'.symm, fu1, fu1.symm, fu2, fu2.symm, fu3, fu3.symm, fu4, fu4.symm]
         done)
      | (intro i; intros; simp_all [Mesh.setP, Mesh.setE, Mesh.setE', Mesh.setC, upd]; done)
      | (simp [Mesh.setP, Mesh.setE, Mesh.setE', Mesh.setC, upd, hu, hv, d1, d1.symm, d2, d2.symm, d3, d3.symm, d4, d4.symm, d5, d5.symm, d6, d6.symm, d7, d7.symm, d8, d8.symm, d9, d9.symm, e1, e1.symm, e2, e2.symm, e3, e3.symm, e4, e4.symm, e5, e5.symm, e6, e6.symm, np, np.symm, np', np'.symm, n0, n0.symm, n0', n0'.symm, fu1, fu1.symm, fu2, fu2.symm, fu3, fu3.symm, fu4, fu4.symm]; done)
  · obtain ⟨fu1, fu2, fu3, fu4⟩ := fu hu
    obtain ⟨fv1, fv2, fv3, fv4⟩ := fv hv
    have fuv := fuv hu hv
    constructor
    all_goals
      first
      | rfl
      | (intro i h1 h2 h3 h4 h5 h6
         have h5 : i ≠ m.e (pv a) := h5.elim (fun e => e ▸ Ne.symm hu) id
         have h6 : i ≠ m.e (pv b) := h6.elim (fun e => e ▸ Ne.symm hv) id
         simp [Mesh.setP, Mesh.setE, Mesh.setE', Mesh.setC, upd, hu, hv, h1, h2, h3, h4, h5, h6, d1, d1.symm, d2, d2.symm, d3, d3.symm, d4, d4.symm, d5, d5.symm, d6, d6.symm, d7, d7.symm, d8, d8.symm, d9, d9.symm, e1, e1.symm, e2, e2.symm, e3, e3.symm, e4, e4.symm, e5, e5.symm, e6, e6.symm, np, np.symm, np', np'.symm, n0, n0.symm, n0', n0'.symm, fu1, fu1.symm, fu2, fu2.symm, fu3, fu3.symm, fu4, fu4.symm, fv1, fv1.symm, fv2, fv2.symm, fv3, fv3.symm, fv4, fv4.symm, fuv, fuv.symm]
         done)
      | (intro i; intros; simp_all [Mesh.setP, Mesh.setE, Mesh.setE', Mesh.setC, upd]; done)
      | (simp [Mesh.setP, Mesh.setE, Mesh.setE', Mesh.setC, upd, hu, hv, d1, d1.symm, d2, d2.symm, d3, d3.symm, d4, d4.symm, d5, d5.symm, d6, d6.symm, d7, d7.symm, d8, d8.symm, d9, d9.symm, e1, e1.symm, e2, e2.symm, e3, e3.symm, e4, e4.symm, e5, e5.symm, e6, e6.symm, np, np.symm, np', np'.symm, n0, n0.symm, n0', n0'.symm, fu1, fu1.symm, fu2, fu2.symm, fu3, fu3.symm, fu4, fu4.symm, fv1, fv1.symm, fv2, fv2.symm, fv3, fv3.symm, fv4, fv4.symm, fuv, fuv.symm]; done)

end CE.Cdt
