import Verif.Proof.CdtSplitInv
/-! Splitting an edge: what it does to the arrays. -/
namespace CE.Cdt

/-- what splitting the edge `a` with twin `b` does -/
structure EdgeSpec (m m' : Mesh) (px py : Int) (a b : Nat) : Prop where
  size : m'.size = m.size + 1
  x : ∀ i, i < m.size → m'.x i = m.x i
  y : ∀ i, i < m.size → m'.y i = m.y i
  xn : m'.x m.size = i16 px
  yn : m'.y m.size = i16 py
  f : ∀ i, i < 2 * m.size → m'.fi i = m.fi i
  f1 : m'.fi (2 * m.size) = m.fi (a / 4)
  f2 : m'.fi (2 * m.size + 1) = m.fi (b / 4)
  p : ∀ i, i < 8 * m.size → i ≠ pv a → i ≠ nx b → m'.p i = m.p i
  ppa : m'.p (pv a) = m.size
  pnb : m'.p (nx b) = m.size
  px0 : m'.p (8 * m.size) = m.p a
  px1 : m'.p (8 * m.size + 1) = m.size
  px2 : m'.p (8 * m.size + 2) = m.p (pv a)
  py0 : m'.p (8 * m.size + 4) = m.p b
  py1 : m'.p (8 * m.size + 5) = m.p (nx b)
  py2 : m'.p (8 * m.size + 6) = m.size
  e : ∀ i, i < 8 * m.size → i ≠ nx a → i ≠ pv b → (i = 0 ∨ i ≠ m.e (nx a)) → (i = 0 ∨ i ≠ m.e (pv b)) → m'.e i = m.e i
  ena : m'.e (nx a) = 8 * m.size + 2
  epb : m'.e (pv b) = 8 * m.size + 5
  ex0 : m'.e (8 * m.size) = 8 * m.size + 4
  ex1 : m'.e (8 * m.size + 1) = m.e (nx a)
  ex2 : m'.e (8 * m.size + 2) = nx a
  ey0 : m'.e (8 * m.size + 4) = 8 * m.size
  ey1 : m'.e (8 * m.size + 5) = pv b
  ey2 : m'.e (8 * m.size + 6) = m.e (pv b)
  et1 : m.e (nx a) ≠ 0 → m'.e (m.e (nx a)) = 8 * m.size + 1
  et2 : m.e (pv b) ≠ 0 → m'.e (m.e (pv b)) = 8 * m.size + 6
  c : ∀ i, i < 8 * m.size → i ≠ nx a → i ≠ pv b → m'.c i = m.c i
  cna : m'.c (nx a) = 0
  cpb : m'.c (pv b) = 0
  cx0 : m'.c (8 * m.size) = m.c a
  cx1 : m'.c (8 * m.size + 1) = m.c (nx a)
  cx2 : m'.c (8 * m.size + 2) = 0
  cy0 : m'.c (8 * m.size + 4) = m.c b
  cy1 : m'.c (8 * m.size + 5) = 0
  cy2 : m'.c (8 * m.size + 6) = m.c (pv b)

theorem edgeX_size (m : Mesh) (px pn a) : (m.edgeX px pn a).size = m.size := by
  unfold Mesh.edgeX Mesh.setE'; simp only; split <;> rfl
theorem edgeY_size (m : Mesh) (px pn a) : (m.edgeY px pn a).size = m.size := by
  unfold Mesh.edgeY Mesh.setE'; simp only; split <;> rfl

/-- the fields after `edgeX` -/
theorem edgeX_eq (m : Mesh) (px : Int) (pn a : Nat) (ha : a < 8 * pn) (h1 : nx a < 8 * pn) (h2 : pv a < 8 * pn) :
    (m.edgeX px pn a).x = upd m.x pn (i16 px) ∧ (m.edgeX px pn a).y = m.y ∧
    (m.edgeX px pn a).fi = upd m.fi (2 * pn) (m.fi (a / 4)) ∧
    (m.edgeX px pn a).p = upd (upd (upd (upd m.p (8 * pn) (m.p a)) (8 * pn + 1) pn) (8 * pn + 2) (m.p (pv a))) (pv a) pn ∧
    (m.edgeX px pn a).c = upd (upd (upd (upd m.c (8 * pn) (m.c a)) (8 * pn + 1) (m.c (nx a))) (8 * pn + 2) 0) (nx a) 0 ∧
    (m.edgeX px pn a).e = upd (upd (if m.e (nx a) ≠ 0 then
      upd (upd (upd m.e (8 * pn) (8 * pn + 4)) (8 * pn + 1) (m.e (nx a))) (m.e (nx a)) (8 * pn + 1) else
      upd (upd m.e (8 * pn) (8 * pn + 4)) (8 * pn + 1) (m.e (nx a))) (8 * pn + 2) (nx a)) (nx a) (8 * pn + 2) := by
  unfold Mesh.edgeX
  generalize nx a = u1 at *
  generalize pv a = u2 at *
  simp (disch := omega) only [Mesh.setP, Mesh.setE, Mesh.setE', Mesh.setC, Mesh.setX, Mesh.setY, Mesh.setFi, upd_ne, upd_eq]
  split <;> simp (disch := omega) only [upd_ne, upd_eq, and_self]

/-- the fields after `edgeY` -/
theorem edgeY_eq (m : Mesh) (py : Int) (pn b : Nat) (hb : b < 8 * pn) (h1 : nx b < 8 * pn) (h2 : pv b < 8 * pn) :
    (m.edgeY py pn b).x = m.x ∧ (m.edgeY py pn b).y = upd m.y pn (i16 py) ∧
    (m.edgeY py pn b).fi = upd m.fi (2 * pn + 1) (m.fi (b / 4)) ∧
    (m.edgeY py pn b).p = upd (upd (upd (upd m.p (8 * pn + 4) (m.p b)) (8 * pn + 4 + 1) (m.p (nx b))) (8 * pn + 4 + 2) pn) (nx b) pn ∧
    (m.edgeY py pn b).c = upd (upd (upd (upd m.c (8 * pn + 4) (m.c b)) (8 * pn + 4 + 1) 0) (8 * pn + 4 + 2) (m.c (pv b))) (pv b) 0 ∧
    (m.edgeY py pn b).e = upd (if m.e (pv b) ≠ 0 then
      upd (upd (upd (upd m.e (8 * pn + 4) (8 * pn)) (8 * pn + 4 + 1) (pv b)) (8 * pn + 4 + 2) (m.e (pv b))) (m.e (pv b)) (8 * pn + 4 + 2)
      else upd (upd (upd m.e (8 * pn + 4) (8 * pn)) (8 * pn + 4 + 1) (pv b)) (8 * pn + 4 + 2) (m.e (pv b))) (pv b) (8 * pn + 4 + 1) := by
  unfold Mesh.edgeY
  generalize nx b = v1 at *
  generalize pv b = v2 at *
  simp (disch := omega) only [Mesh.setP, Mesh.setE, Mesh.setE', Mesh.setC, Mesh.setX, Mesh.setY, Mesh.setFi, upd_ne, upd_eq]
  split <;> simp (disch := omega) only [upd_ne, upd_eq, and_self]

theorem upd_old {α} {m : Nat → α} {n k j : Nat} {x : α} (h : j < 8 * n) : upd m (8 * n + k) x j = m j := upd_ne (by omega)
theorem upd_old0 {α} {m : Nat → α} {n j : Nat} {x : α} (h : j < 8 * n) : upd m (8 * n) x j = m j := upd_ne (by omega)
theorem upd_new {α} {m : Nat → α} {n k j : Nat} {x : α} (h : j < 8 * n) : upd m j x (8 * n + k) = m (8 * n + k) := upd_ne (by omega)
theorem upd_new0 {α} {m : Nat → α} {n j : Nat} {x : α} (h : j < 8 * n) : upd m j x (8 * n) = m (8 * n) := upd_ne (by omega)
theorem upd_self {α} {m : Nat → α} {j : Nat} {x : α} : upd m j x j = x := upd_eq rfl
theorem upd_ne' {α} {m : Nat → α} {i j : Nat} {x : α} (h : i ≠ j) : upd m i x j = m j := upd_ne (Ne.symm h)
theorem upd_nn {α} {m : Nat → α} {n k l : Nat} {x : α} (h : k ≠ l) : upd m (8 * n + k) x (8 * n + l) = m (8 * n + l) := upd_ne (by omega)
theorem upd_0n {α} {m : Nat → α} {n l : Nat} {x : α} (h : 0 ≠ l) : upd m (8 * n) x (8 * n + l) = m (8 * n + l) := upd_ne (by omega)
theorem upd_n0 {α} {m : Nat → α} {n k : Nat} {x : α} (h : k ≠ 0) : upd m (8 * n + k) x (8 * n) = m (8 * n) := upd_ne (by omega)

set_option maxHeartbeats 1000000 in
theorem splitEdge_spec {m : Mesh} (h : Inv m) (px py : Int) {a b} (P : Pair m a b) :
    EdgeSpec m (m.splitEdge px py a b) px py a b := by
  have A := P.apart
  have k1 : m.e (nx a) ≠ 0 → m.e (nx a) < 8 * m.size ∧ m.e (nx a) ≠ nx a ∧ m.e (nx a) ≠ pv b := fun he =>
    ⟨(h.tw _ P.ia.nx he).1.2.1, fun e => (P.faceN h he).1 (by rw [e, P.ia.nx_div]), fun e => (P.faceN h he).2 (by rw [e, P.ib.pv_div])⟩
  have k2 : m.e (pv b) ≠ 0 → m.e (pv b) < 8 * m.size ∧ m.e (pv b) ≠ nx a ∧ m.e (pv b) ≠ pv b := fun he =>
    ⟨(h.tw _ P.ib.pv he).1.2.1, fun e => (P.symm.faceP h he).2 (by rw [e, P.ia.nx_div]), fun e => (P.symm.faceP h he).1 (by rw [e, P.ib.pv_div])⟩
  have k12 : m.e (nx a) ≠ 0 → m.e (pv b) ≠ 0 → m.e (nx a) ≠ m.e (pv b) := fun he _ e => A.np (h.tw_inj P.ia.nx P.ib.pv he e)
  have a0 := P.ia.2.1
  have a1 := P.ia.nx.2.1
  have a2 := P.ia.pv.2.1
  have b0 := P.ib.2.1
  have b1 := P.ib.nx.2.1
  have b2 := P.ib.pv.2.1
  obtain ⟨vx, vy, vf, vp, vc, ve⟩ := edgeX_eq { m with size := m.size + 1 } px m.size a a0 a1 a2
  obtain ⟨wx, wy, wf, wp, wc, we⟩ := edgeY_eq (Mesh.edgeX { m with size := m.size + 1 } px m.size a) py m.size b b0 b1 b2
  unfold Mesh.splitEdge
  simp only at vx vy vf vp vc ve
  have da : a / 4 < 2 * m.size := by omega
  have db : b / 4 < 2 * m.size := by omega
  obtain ⟨q1, q2, q3, q4, q5, q6, q7, q8, q9, r1, r2, r3, r4, r5, r6⟩ := A
  have z0 := P.ia.nx.pos
  have z3 := P.ib.pv.pos
  clear P h
  rw [show 8 * m.size + 4 + 1 = 8 * m.size + 5 from rfl, show 8 * m.size + 4 + 2 = 8 * m.size + 6 from rfl] at we wp wc
  have xs : ∀ i, i < m.size → (upd m.x m.size (i16 px)) i = m.x i := fun i hi => upd_ne (by omega)
  have ys : ∀ i, i < m.size → (upd m.y m.size (i16 py)) i = m.y i := fun i hi => upd_ne (by omega)
  by_cases z1 : m.e (nx a) = 0 <;> by_cases z2 : m.e (pv b) = 0
  · simp only [z1, z2, ne_eq, not_true_eq_false, not_false_eq_true, if_true, if_false] at ve
    have r2 : (Mesh.edgeX { m with size := m.size + 1 } px m.size a).e (pv b) = m.e (pv b) := by
      rw [ve]; simp (disch := first | assumption | decide) only [upd_ne, upd_ne', upd_old, upd_old0]
    simp only [r2, z2, ne_eq, not_true_eq_false, not_false_eq_true, if_true, if_false] at we
    constructor
    case x => intro i hi; simp only [wx, vx]; exact xs i hi
    case y => intro i hi; simp only [wy, vy]; exact ys i hi
    case f => intro i hi; simp only [wf, vf]; rw [upd_ne (by omega), upd_ne (by omega)]
    case f1 => simp only [wf, vf]; rw [upd_ne (by omega), upd_self]
    case f2 => simp only [wf, vf]; rw [upd_self, upd_ne (by omega)]
    case e =>
      intro i hi h1 h2 h3 h4
      skip
      skip
      simp only [we, ve]
      simp (disch := first | assumption | decide) only [upd_self, upd_ne, upd_ne', upd_old, upd_old0]
    all_goals
      simp only [wx, wy, wf, wp, wc, we, vx, vy, vf, vp, vc, ve, edgeY_size, edgeX_size]
      try intros
      try simp (disch := first | assumption | decide) only [upd_self, upd_ne, upd_ne', upd_old, upd_old0, upd_new, upd_new0, upd_nn, upd_0n, upd_n0]
      try (first | (symm; assumption) | contradiction)
  · obtain ⟨g4, g5, g6⟩ := k2 z2
    simp only [z1, z2, ne_eq, not_true_eq_false, not_false_eq_true, if_true, if_false] at ve
    have r2 : (Mesh.edgeX { m with size := m.size + 1 } px m.size a).e (pv b) = m.e (pv b) := by
      rw [ve]; simp (disch := first | assumption | decide) only [upd_ne, upd_ne', upd_old, upd_old0]
    simp only [r2, z2, ne_eq, not_true_eq_false, not_false_eq_true, if_true, if_false] at we
    constructor
    case x => intro i hi; simp only [wx, vx]; exact xs i hi
    case y => intro i hi; simp only [wy, vy]; exact ys i hi
    case f => intro i hi; simp only [wf, vf]; rw [upd_ne (by omega), upd_ne (by omega)]
    case f1 => simp only [wf, vf]; rw [upd_ne (by omega), upd_self]
    case f2 => simp only [wf, vf]; rw [upd_self, upd_ne (by omega)]
    case e =>
      intro i hi h1 h2 h3 h4
      skip
      have h4' : i ≠ m.e (pv b) := h4.elim (fun e => e ▸ Ne.symm z2) id
      simp only [we, ve]
      simp (disch := first | assumption | decide) only [upd_self, upd_ne, upd_ne', upd_old, upd_old0]
    all_goals
      simp only [wx, wy, wf, wp, wc, we, vx, vy, vf, vp, vc, ve, edgeY_size, edgeX_size]
      try intros
      try simp (disch := first | assumption | decide) only [upd_self, upd_ne, upd_ne', upd_old, upd_old0, upd_new, upd_new0, upd_nn, upd_0n, upd_n0]
      try (first | (symm; assumption) | contradiction)
  · obtain ⟨g1, g2, g3⟩ := k1 z1
    simp only [z1, z2, ne_eq, not_true_eq_false, not_false_eq_true, if_true, if_false] at ve
    have r2 : (Mesh.edgeX { m with size := m.size + 1 } px m.size a).e (pv b) = m.e (pv b) := by
      rw [ve]; simp (disch := first | assumption | decide) only [upd_ne, upd_ne', upd_old, upd_old0]
    simp only [r2, z2, ne_eq, not_true_eq_false, not_false_eq_true, if_true, if_false] at we
    constructor
    case x => intro i hi; simp only [wx, vx]; exact xs i hi
    case y => intro i hi; simp only [wy, vy]; exact ys i hi
    case f => intro i hi; simp only [wf, vf]; rw [upd_ne (by omega), upd_ne (by omega)]
    case f1 => simp only [wf, vf]; rw [upd_ne (by omega), upd_self]
    case f2 => simp only [wf, vf]; rw [upd_self, upd_ne (by omega)]
    case e =>
      intro i hi h1 h2 h3 h4
      have h3' : i ≠ m.e (nx a) := h3.elim (fun e => e ▸ Ne.symm z1) id
      skip
      simp only [we, ve]
      simp (disch := first | assumption | decide) only [upd_self, upd_ne, upd_ne', upd_old, upd_old0]
    all_goals
      simp only [wx, wy, wf, wp, wc, we, vx, vy, vf, vp, vc, ve, edgeY_size, edgeX_size]
      try intros
      try simp (disch := first | assumption | decide) only [upd_self, upd_ne, upd_ne', upd_old, upd_old0, upd_new, upd_new0, upd_nn, upd_0n, upd_n0]
      try (first | (symm; assumption) | contradiction)
  · obtain ⟨g1, g2, g3⟩ := k1 z1
    obtain ⟨g4, g5, g6⟩ := k2 z2
    have g7 := k12 z1 z2
    simp only [z1, z2, ne_eq, not_true_eq_false, not_false_eq_true, if_true, if_false] at ve
    have r2 : (Mesh.edgeX { m with size := m.size + 1 } px m.size a).e (pv b) = m.e (pv b) := by
      rw [ve]; simp (disch := first | assumption | decide) only [upd_ne, upd_ne', upd_old, upd_old0]
    simp only [r2, z2, ne_eq, not_true_eq_false, not_false_eq_true, if_true, if_false] at we
    constructor
    case x => intro i hi; simp only [wx, vx]; exact xs i hi
    case y => intro i hi; simp only [wy, vy]; exact ys i hi
    case f => intro i hi; simp only [wf, vf]; rw [upd_ne (by omega), upd_ne (by omega)]
    case f1 => simp only [wf, vf]; rw [upd_ne (by omega), upd_self]
    case f2 => simp only [wf, vf]; rw [upd_self, upd_ne (by omega)]
    case e =>
      intro i hi h1 h2 h3 h4
      have h3' : i ≠ m.e (nx a) := h3.elim (fun e => e ▸ Ne.symm z1) id
      have h4' : i ≠ m.e (pv b) := h4.elim (fun e => e ▸ Ne.symm z2) id
      simp only [we, ve]
      simp (disch := first | assumption | decide) only [upd_self, upd_ne, upd_ne', upd_old, upd_old0]
    all_goals
      simp only [wx, wy, wf, wp, wc, we, vx, vy, vf, vp, vc, ve, edgeY_size, edgeX_size]
      try intros
      try simp (disch := first | assumption | decide) only [upd_self, upd_ne, upd_ne', upd_old, upd_old0, upd_new, upd_new0, upd_nn, upd_0n, upd_n0]
      try (first | (symm; assumption) | contradiction)

end CE.Cdt
