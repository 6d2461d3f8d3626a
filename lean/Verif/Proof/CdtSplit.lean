import Verif.Proof.CdtTerm
/-! Splitting a face preserves the invariant. -/
namespace CE.Cdt

theorem upd_eq {α} {m : Nat → α} {i j : Nat} {x : α} (h : j = i) : upd m i x j = x := by simp [upd, h]
theorem upd_ne {α} {m : Nat → α} {i j : Nat} {x : α} (h : j ≠ i) : upd m i x j = m j := by simp [upd, h]

theorem nx0 {b : Nat} (h : b % 4 = 0) : nx b = b + 1 := by unfold nx; rw [if_pos (by omega)]
theorem nx1 {b : Nat} (h : b % 4 = 0) : nx (b + 1) = b + 2 := by unfold nx; rw [if_pos (by omega)]
theorem nx2 {b : Nat} (h : b % 4 = 0) : nx (b + 2) = b := by unfold nx; rw [if_neg (by omega)]; rfl
theorem pv0 {b : Nat} (h : b % 4 = 0) : pv b = b + 2 := by unfold pv; rw [if_neg (by omega)]
theorem pv1 {b : Nat} (h : b % 4 = 0) : pv (b + 1) = b := by unfold pv; rw [if_pos (by omega)]; rfl
theorem pv2 {b : Nat} (h : b % 4 = 0) : pv (b + 2) = b + 1 := by unfold pv; rw [if_pos (by omega)]; rfl

/-- what splitting the face at `u` does -/
structure FaceSpec (m m' : Mesh) (px py : Int) (u : Nat) : Prop where
  size : m'.size = m.size + 1
  x : ∀ i, i < m.size → m'.x i = m.x i
  y : ∀ i, i < m.size → m'.y i = m.y i
  xn : m'.x m.size = i16 px
  yn : m'.y m.size = i16 py
  f : ∀ i, i < 2 * m.size → m'.fi i = m.fi i
  f1 : m'.fi (2 * m.size) = m.fi (u / 4)
  f2 : m'.fi (2 * m.size + 1) = m.fi (u / 4)
  p : ∀ i, i < 8 * m.size → i ≠ u → m'.p i = m.p i
  pu : m'.p u = m.size
  pv0 : m'.p (8 * m.size) = m.p u
  pv1 : m'.p (8 * m.size + 1) = m.size
  pv2 : m'.p (8 * m.size + 2) = m.p (u + 2)
  pw0 : m'.p (8 * m.size + 4) = m.p u
  pw1 : m'.p (8 * m.size + 5) = m.p (u + 1)
  pw2 : m'.p (8 * m.size + 6) = m.size
  e : ∀ i, i < 8 * m.size → i ≠ u + 1 → i ≠ u + 2 → (i = 0 ∨ i ≠ m.e (u + 1)) → (i = 0 ∨ i ≠ m.e (u + 2)) → m'.e i = m.e i
  eu1 : m'.e (u + 1) = 8 * m.size
  eu2 : m'.e (u + 2) = 8 * m.size + 4
  ev0 : m'.e (8 * m.size) = u + 1
  ev1 : m'.e (8 * m.size + 1) = m.e (u + 1)
  ev2 : m'.e (8 * m.size + 2) = 8 * m.size + 5
  ew0 : m'.e (8 * m.size + 4) = u + 2
  ew1 : m'.e (8 * m.size + 5) = 8 * m.size + 2
  ew2 : m'.e (8 * m.size + 6) = m.e (u + 2)
  et1 : m.e (u + 1) ≠ 0 → m'.e (m.e (u + 1)) = 8 * m.size + 1
  et2 : m.e (u + 2) ≠ 0 → m'.e (m.e (u + 2)) = 8 * m.size + 6
  c : ∀ i, i < 8 * m.size → i ≠ u + 1 → i ≠ u + 2 → m'.c i = m.c i
  cu1 : m'.c (u + 1) = 0
  cu2 : m'.c (u + 2) = 0
  cv0 : m'.c (8 * m.size) = 0
  cv1 : m'.c (8 * m.size + 1) = m.c (u + 1)
  cv2 : m'.c (8 * m.size + 2) = 0
  cw0 : m'.c (8 * m.size + 4) = 0
  cw1 : m'.c (8 * m.size + 5) = 0
  cw2 : m'.c (8 * m.size + 6) = m.c (u + 2)

theorem faceV_size (m : Mesh) (px pn u0) : (m.faceV px pn u0).size = m.size := by
  unfold Mesh.faceV Mesh.setE'; simp only; split <;> rfl
theorem faceW_size (m : Mesh) (px pn u0) : (m.faceW px pn u0).size = m.size := by
  unfold Mesh.faceW Mesh.setE'; simp only; split <;> rfl

/-- the fields after `faceV` -/
theorem faceV_eq (m : Mesh) (px : Int) (pn u0 : Nat) (hu : u0 + 2 < 8 * pn) :
    (m.faceV px pn u0).x = upd m.x pn (i16 px) ∧ (m.faceV px pn u0).y = m.y ∧
    (m.faceV px pn u0).fi = upd m.fi (2 * pn) (m.fi (u0 / 4)) ∧
    (m.faceV px pn u0).p = upd (upd (upd m.p (8 * pn) (m.p u0)) (8 * pn + 1) pn) (8 * pn + 2) (m.p (u0 + 2)) ∧
    (m.faceV px pn u0).c = upd (upd (upd m.c (8 * pn) 0) (8 * pn + 1) (m.c (u0 + 1))) (8 * pn + 2) 0 ∧
    (m.faceV px pn u0).e = upd (if m.e (u0 + 1) ≠ 0 then
      upd (upd (upd m.e (8 * pn) (u0 + 1)) (8 * pn + 1) (m.e (u0 + 1))) (m.e (u0 + 1)) (8 * pn + 1) else
      upd (upd m.e (8 * pn) (u0 + 1)) (8 * pn + 1) (m.e (u0 + 1))) (8 * pn + 2) (8 * pn + 4 + 1) := by
  unfold Mesh.faceV
  simp (disch := omega) only [Mesh.setP, Mesh.setE, Mesh.setE', Mesh.setC, Mesh.setX, Mesh.setY, Mesh.setFi, upd_ne, upd_eq]
  split <;> simp (disch := omega) only [upd_ne, upd_eq, and_self]

theorem faceW_eq (m : Mesh) (py : Int) (pn u0 : Nat) (hu : u0 + 2 < 8 * pn) :
    (m.faceW py pn u0).x = m.x ∧ (m.faceW py pn u0).y = upd m.y pn (i16 py) ∧
    (m.faceW py pn u0).fi = upd m.fi (2 * pn + 1) (m.fi (u0 / 4)) ∧
    (m.faceW py pn u0).p = upd (upd (upd m.p (8 * pn + 4) (m.p u0)) (8 * pn + 4 + 1) (m.p (u0 + 1))) (8 * pn + 4 + 2) pn ∧
    (m.faceW py pn u0).c = upd (upd (upd m.c (8 * pn + 4) 0) (8 * pn + 4 + 1) 0) (8 * pn + 4 + 2) (m.c (u0 + 2)) ∧
    (m.faceW py pn u0).e = (if m.e (u0 + 2) ≠ 0 then
      upd (upd (upd (upd m.e (8 * pn + 4) (u0 + 2)) (8 * pn + 4 + 1) (8 * pn + 2)) (8 * pn + 4 + 2) (m.e (u0 + 2)))
        (m.e (u0 + 2)) (8 * pn + 4 + 2) else
      (upd (upd (upd m.e (8 * pn + 4) (u0 + 2)) (8 * pn + 4 + 1) (8 * pn + 2)) (8 * pn + 4 + 2) (m.e (u0 + 2)))) := by
  unfold Mesh.faceW
  simp (disch := omega) only [Mesh.setP, Mesh.setE, Mesh.setE', Mesh.setC, Mesh.setX, Mesh.setY, Mesh.setFi, upd_ne, upd_eq]
  split <;> simp (disch := omega) only [upd_ne, upd_eq, and_self]

set_option maxHeartbeats 2000000 in
theorem splitFace_spec {m : Mesh} (h : Inv m) (px py : Int) {u} (hu : IsE m.size u) (hu4 : u % 4 = 0) :
    FaceSpec m (m.splitFace px py u) px py u := by
  have hb : u + 2 < 8 * m.size := by unfold IsE at hu; omega
  have h24 := hu.1
  have i1 : IsE m.size (u + 1) := by unfold IsE at *; omega
  have i2 : IsE m.size (u + 2) := by unfold IsE at *; omega
  have hs := h.sz
  have k1 : m.e (u + 1) ≠ 0 → m.e (u + 1) < 8 * m.size ∧ m.e (u + 1) / 4 ≠ u / 4 := fun he =>
    ⟨(h.tw _ i1 he).1.2.1, by have := h.other i1 he; omega⟩
  have k2 : m.e (u + 2) ≠ 0 → m.e (u + 2) < 8 * m.size ∧ m.e (u + 2) / 4 ≠ u / 4 := fun he =>
    ⟨(h.tw _ i2 he).1.2.1, by have := h.other i2 he; omega⟩
  have k12 : m.e (u + 1) ≠ 0 → m.e (u + 2) ≠ 0 → m.e (u + 1) ≠ m.e (u + 2) := fun he _ e => by
    have := h.tw_inj i1 i2 he e; omega
  generalize ht1 : m.e (u + 1) = t1 at *
  generalize ht2 : m.e (u + 2) = t2 at *
  have eu1 : m.e (u + 1) = t1 := ht1
  obtain ⟨vx, vy, vf, vp, vc, ve⟩ := faceV_eq { m with size := m.size + 1 } px m.size u hb
  obtain ⟨wx, wy, wf, wp, wc, we⟩ := faceW_eq (Mesh.faceV { m with size := m.size + 1 } px m.size u) py m.size u hb
  unfold Mesh.splitFace
  simp only at vx vy vf vp vc ve
  by_cases z1 : t1 = 0 <;> by_cases z2 : t2 = 0
  all_goals
    simp only [ht1, z1, z2, ne_eq, not_true_eq_false, not_false_eq_true, if_true, if_false] at ve
    have r2 : (Mesh.faceV { m with size := m.size + 1 } px m.size u).e (u + 2) = t2 := by
      rw [ve]; simp (disch := omega) only [upd_ne, ht2]
    simp only [r2, z1, z2, ne_eq, not_true_eq_false, not_false_eq_true, if_true, if_false] at we
    constructor
    all_goals
      simp only [Mesh.faceU, Mesh.setP, Mesh.setE, Mesh.setC, wx, wy, wf, wp, wc, we, vx, vy, vf, vp, vc, ve, faceW_size,
        faceV_size]
      try intros
      try simp (disch := omega) only [upd_eq, upd_ne, ht1, ht2]
      try omega

end CE.Cdt
