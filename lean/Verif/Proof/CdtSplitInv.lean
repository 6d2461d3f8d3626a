import Verif.Proof.CdtSplit
/-! Splitting a face preserves the invariant. -/
namespace CE.Cdt

/-- the six edges of the two new faces -/
theorem isE_succ {n i : Nat} (h : IsE (n + 1) i) : IsE n i ∨ i = 8 * n ∨ i = 8 * n + 1 ∨ i = 8 * n + 2 ∨ i = 8 * n + 4 ∨
    i = 8 * n + 5 ∨ i = 8 * n + 6 := by unfold IsE at *; omega

theorem IsE.succ {n i : Nat} (h : IsE n i) : IsE (n + 1) i := by unfold IsE at *; omega

/-- next and previous edges in the new faces -/
structure NewFaces (n : Nat) : Prop where
  n0 : nx (8 * n) = 8 * n + 1
  n1 : nx (8 * n + 1) = 8 * n + 2
  n2 : nx (8 * n + 2) = 8 * n
  n4 : nx (8 * n + 4) = 8 * n + 5
  n5 : nx (8 * n + 5) = 8 * n + 6
  n6 : nx (8 * n + 6) = 8 * n + 4
  p0 : pv (8 * n) = 8 * n + 2
  p1 : pv (8 * n + 1) = 8 * n
  p2 : pv (8 * n + 2) = 8 * n + 1
  p4 : pv (8 * n + 4) = 8 * n + 6
  p5 : pv (8 * n + 5) = 8 * n + 4
  p6 : pv (8 * n + 6) = 8 * n + 5

theorem newFaces (n : Nat) : NewFaces n := by
  constructor <;> (first | unfold nx | unfold pv) <;> split <;> omega

theorem newIs {n : Nat} (hn : 3 ≤ n) : IsE (n + 1) (8 * n) ∧ IsE (n + 1) (8 * n + 1) ∧ IsE (n + 1) (8 * n + 2) ∧
    IsE (n + 1) (8 * n + 4) ∧ IsE (n + 1) (8 * n + 5) ∧ IsE (n + 1) (8 * n + 6) := by unfold IsE; omega

variable {m m' : Mesh} {u : Nat} {px py : Int}

/-- cross product of two vertices seen from a point -/
def Mesh.crP (m : Mesh) (px py : Int) (a b : Nat) : Int :=
  (m.x a - px) * (m.y b - py) - (m.y a - py) * (m.x b - px)

theorem FaceSpec.cr (S : FaceSpec m m' px py u) {a b c : Nat} (ha : a < m.size) (hb : b < m.size) (hc : c < m.size) :
    m'.cr a b c = m.cr a b c := by
  unfold Mesh.cr; rw [S.x a ha, S.x b hb, S.x c hc, S.y a ha, S.y b hb, S.y c hc]

theorem FaceSpec.crn (S : FaceSpec m m' px py u) (hx : i16 px = px) (hy : i16 py = py) {a b : Nat} (ha : a < m.size)
    (hb : b < m.size) : m'.cr m.size a b = m.crP px py a b := by
  unfold Mesh.cr Mesh.crP; rw [S.x a ha, S.x b hb, S.y a ha, S.y b hb, S.xn, S.yn, hx, hy]

theorem i16_eq {v : Int} (h : Is16 v) : i16 v = v := by unfold i16; unfold Is16 at h; omega

/-- three edges of a face starting at a multiple of four -/
structure Base (s u : Nat) : Prop where
  u4 : u % 4 = 0
  i0 : IsE s u
  i1 : IsE s (u + 1)
  i2 : IsE s (u + 2)
  n0 : nx u = u + 1
  n1 : nx (u + 1) = u + 2
  n2 : nx (u + 2) = u
  p0 : pv u = u + 2
  p1 : pv (u + 1) = u
  p2 : pv (u + 2) = u + 1

theorem base {s u : Nat} (h : IsE s u) (h4 : u % 4 = 0) : Base s u :=
  ⟨h4, h, by unfold IsE at *; omega, by unfold IsE at *; omega, nx0 h4, nx1 h4, nx2 h4, pv0 h4, pv1 h4, pv2 h4⟩

theorem FaceSpec.inv (S : FaceSpec m m' px py u) (h : Inv m) (hu : IsE m.size u) (hu4 : u % 4 = 0) (hx : Is16 px) (hy : Is16 py)
    (h0 : m.crP px py (m.p (u + 1)) (m.p (u + 2)) < 0) (h1 : m.crP px py (m.p (u + 2)) (m.p u) < 0)
    (h2 : m.crP px py (m.p u) (m.p (u + 1)) < 0) : Inv m' := by
  have B := base hu hu4
  have N := newFaces m.size
  have hs := h.sz
  obtain ⟨j0, j1, j2, j4, j5, j6⟩ := newIs (n := m.size) (by omega)
  have lt : ∀ {i}, IsE m.size i → i < 8 * m.size := fun h => h.2.1
  have pu := h.pl _ B.i0
  have pu1 := h.pl _ B.i1
  have pu2 := h.pl _ B.i2
  have qu1 : m'.p (u + 1) = m.p (u + 1) := S.p _ (lt B.i1) (by omega)
  have qu2 : m'.p (u + 2) = m.p (u + 2) := S.p _ (lt B.i2) (by omega)
  have same : ∀ {i}, IsE m.size i → i ≠ u → m'.p i = m.p i := fun hi hn => S.p _ (lt hi) hn
  have kt1 : ∀ {i}, IsE m.size i → i / 4 ≠ u / 4 → i ≠ u ∧ nx i ≠ u ∧ pv i ≠ u ∧ i ≠ u + 1 ∧ i ≠ u + 2 := by
    intro i hi hf
    have a := hi.nx_div; have b := hi.pv_div
    refine ⟨?_, ?_, ?_, ?_, ?_⟩ <;> omega
  have o0 : m.e u ≠ 0 → m.e u / 4 ≠ u / 4 := fun he => h.other hu he
  have o1 : m.e (u + 1) ≠ 0 → m.e (u + 1) / 4 ≠ u / 4 := fun he => by have := h.other B.i1 he; omega
  have o2 : m.e (u + 2) ≠ 0 → m.e (u + 2) / 4 ≠ u / 4 := fun he => by have := h.other B.i2 he; omega
  -- an old edge other than those of the face is a twin or untouched
  have old : ∀ {i}, IsE m.size i → i ≠ u + 1 → i ≠ u + 2 → i ≠ m.e (u + 1) → i ≠ m.e (u + 2) → m'.e i = m.e i :=
    fun hi a b c d => S.e _ (lt hi) a b (Or.inr c) (Or.inr d)
  have ue1 : u ≠ m.e (u + 1) := fun e => o1 (e ▸ hu.pos) (by rw [← e])
  have ue2 : u ≠ m.e (u + 2) := fun e => o2 (e ▸ hu.pos) (by rw [← e])
  have eu : m'.e u = m.e u := old hu (by omega) (by omega) ue1 ue2
  have cu : m'.c u = m.c u := S.c _ (lt hu) (by omega) (by omega)
  have cases : ∀ {i}, IsE m.size i → (i = u ∨ i = u + 1 ∨ i = u + 2) ∨ i / 4 ≠ u / 4 := by
    intro i hi
    by_cases hf : i / 4 = u / 4
    · have := hi.2.2; left; omega
    · exact Or.inr hf
  constructor
  · rw [S.size]; omega
  · intro v hv
    rw [S.size] at hv
    by_cases hv' : v < m.size
    · rw [S.x v hv', S.y v hv']; exact h.rng v hv'
    · have : v = m.size := by omega
      rw [this, S.xn, S.yn, i16_eq hx, i16_eq hy]; exact ⟨hx, hy⟩
  · intro i hi hi3
    obtain ⟨l1, l2, l3⟩ := h.low i hi hi3
    have hge := hu.1
    have hb : i < 8 * m.size := by omega
    have n' : ∀ k, IsE m.size k → (i = 0 ∨ i ≠ m.e k) := fun k hk => by
      by_cases h0 : m.e k = 0
      · by_cases hz : i = 0
        · exact Or.inl hz
        · exact Or.inr (by omega)
      · exact Or.inr (by have := (h.tw k hk h0).1.1; omega)
    exact ⟨by rw [S.c _ hb (by omega) (by omega)]; exact l1, by rw [S.p _ hb (by omega)]; exact l2,
      by rw [S.e _ hb (by omega) (by omega) (n' _ B.i1) (n' _ B.i2)]; exact l3⟩
  · intro i hi
    rw [S.size] at hi ⊢
    rcases isE_succ hi with hi | rfl | rfl | rfl | rfl | rfl | rfl
    · by_cases e : i = u
      · rw [e, S.pu]; omega
      · rw [same hi e]; have := h.pl i hi; omega
    · rw [S.pv0]; omega
    · rw [S.pv1]; omega
    · rw [S.pv2]; omega
    · rw [S.pw0]; omega
    · rw [S.pw1]; omega
    · rw [S.pw2]; omega
  · intro i hi
    rw [S.size] at hi
    rcases isE_succ hi with hi | rfl | rfl | rfl | rfl | rfl | rfl
    · by_cases e : i = u + 1
      · rw [e, S.cu1]; omega
      by_cases e : i = u + 2
      · rw [e, S.cu2]; omega
      rw [S.c i (lt hi) ‹_› ‹_›]; exact h.cl i hi
    · rw [S.cv0]; omega
    · rw [S.cv1]; exact h.cl _ B.i1
    · rw [S.cv2]; omega
    · rw [S.cw0]; omega
    · rw [S.cw1]; omega
    · rw [S.cw2]; exact h.cl _ B.i2
  · intro i hi he
    rw [S.size] at hi
    rcases isE_succ hi with hi | rfl | rfl | rfl | rfl | rfl | rfl
    · by_cases e1 : i = u + 1
      · rw [e1, S.eu1] at he; omega
      by_cases e2 : i = u + 2
      · rw [e2, S.eu2] at he; omega
      by_cases t1 : i = m.e (u + 1)
      · have := S.et1 (t1 ▸ hi.pos); rw [← t1, he] at this; omega
      by_cases t2 : i = m.e (u + 2)
      · have := S.et2 (t2 ▸ hi.pos); rw [← t2, he] at this; omega
      rw [old hi e1 e2 t1 t2] at he
      rw [S.c i (lt hi) e1 e2]; exact h.bd i hi he
    · rw [S.ev0] at he; omega
    · rw [S.ev1] at he; rw [S.cv1]; exact h.bd _ B.i1 he
    · rw [S.ev2] at he; omega
    · rw [S.ew0] at he; omega
    · rw [S.ew1] at he; omega
    · rw [S.ew2] at he; rw [S.cw2]; exact h.bd _ B.i2 he
  · intro i hi
    show TwOk m' i
    rw [S.size] at hi
    rcases isE_succ hi with hi | rfl | rfl | rfl | rfl | rfl | rfl
    · rcases cases hi with (rfl | rfl | rfl) | hf
      · -- the edge that stays
        intro he
        rw [eu] at he ⊢
        obtain ⟨t1, t2, t3, t4, t5⟩ := h.tw _ hu he
        obtain ⟨k0, k1, k2, k3, k4⟩ := kt1 t1 (o0 he)
        have x1 : m.e i ≠ m.e (i + 1) := fun e => by have := h.tw_inj hu B.i1 he e; omega
        have x2 : m.e i ≠ m.e (i + 2) := fun e => by have := h.tw_inj hu B.i2 he e; omega
        refine ⟨by rw [S.size]; exact t1.succ, by rw [old t1 k3 k4 x1 x2, t2], by rw [S.c _ (lt t1) k3 k4, t3, cu], ?_, ?_⟩
        · rw [same t1.nx k1, t4, B.p0, qu2]
        · rw [same t1.pv k2, t5, B.n0, qu1]
      · intro _
        rw [S.eu1]
        refine ⟨by rw [S.size]; exact j0, S.ev0, by rw [S.cv0, S.cu1], ?_, ?_⟩
        · rw [N.n0, S.pv1, B.p1, S.pu]
        · rw [N.p0, S.pv2, B.n1, qu2]
      · intro _
        rw [S.eu2]
        refine ⟨by rw [S.size]; exact j4, S.ew0, by rw [S.cw0, S.cu2], ?_, ?_⟩
        · rw [N.n4, S.pw1, B.p2, qu1]
        · rw [N.p4, S.pw2, B.n2, S.pu]
      · obtain ⟨k0, k1, k2, k3, k4⟩ := kt1 hi hf
        by_cases t1 : i = m.e (u + 1)
        · have hne : m.e (u + 1) ≠ 0 := t1 ▸ hi.pos
          obtain ⟨s1, s2, s3, s4, s5⟩ := h.tw _ B.i1 hne
          rw [← t1] at s3 s4 s5
          intro _
          have := S.et1 hne
          rw [← t1] at this
          rw [this]
          refine ⟨by rw [S.size]; exact j1, by rw [S.ev1, t1], by rw [S.cv1, S.c _ (lt hi) k3 k4, s3], ?_, ?_⟩
          · rw [N.n1, S.pv2, same hi.pv k2, s5, B.n1]
          · rw [N.p1, S.pv0, same hi.nx k1, s4, B.p1]
        by_cases t2 : i = m.e (u + 2)
        · have hne : m.e (u + 2) ≠ 0 := t2 ▸ hi.pos
          obtain ⟨s1, s2, s3, s4, s5⟩ := h.tw _ B.i2 hne
          rw [← t2] at s3 s4 s5
          intro _
          have := S.et2 hne
          rw [← t2] at this
          rw [this]
          refine ⟨by rw [S.size]; exact j6, by rw [S.ew2, t2], by rw [S.cw2, S.c _ (lt hi) k3 k4, s3], ?_, ?_⟩
          · rw [N.n6, S.pw0, same hi.pv k2, s5, B.n2]
          · rw [N.p6, S.pw1, same hi.nx k1, s4, B.p2]
        intro he
        rw [old hi k3 k4 t1 t2] at he ⊢
        obtain ⟨s1, s2, s3, s4, s5⟩ := h.tw _ hi he
        have y1 : m.e i ≠ u + 1 := fun e => by rw [e] at s2; exact t1 s2.symm
        have y2 : m.e i ≠ u + 2 := fun e => by rw [e] at s2; exact t2 s2.symm
        have x1 : m.e i ≠ m.e (u + 1) := fun e => k3 (h.tw_inj hi B.i1 he e)
        have x2 : m.e i ≠ m.e (u + 2) := fun e => k4 (h.tw_inj hi B.i2 he e)
        refine ⟨by rw [S.size]; exact s1.succ, by rw [old s1 y1 y2 x1 x2, s2], by rw [S.c _ (lt s1) y1 y2, s3, S.c _ (lt hi) k3 k4],
          ?_, ?_⟩
        · rw [same s1.nx, s4, same hi.pv k2]
          intro e; exact y2 (by have := s1.pv_nx; rw [e, B.p0] at this; exact this.symm)
        · rw [same s1.pv, s5, same hi.nx k1]
          intro e; exact y1 (by have := s1.nx_pv; rw [e, B.n0] at this; exact this.symm)
    · intro _
      rw [S.ev0]
      refine ⟨by rw [S.size]; exact B.i1.succ, S.eu1, by rw [S.cv0, S.cu1], ?_, ?_⟩
      · rw [B.n1, qu2, N.p0, S.pv2]
      · rw [B.p1, S.pu, N.n0, S.pv1]
    · intro he
      rw [S.ev1] at he ⊢
      obtain ⟨t1, t2, t3, t4, t5⟩ := h.tw _ B.i1 he
      obtain ⟨k0, k1, k2, k3, k4⟩ := kt1 t1 (o1 he)
      refine ⟨by rw [S.size]; exact t1.succ, S.et1 he, by rw [S.c _ (lt t1) k3 k4, t3, S.cv1], ?_, ?_⟩
      · rw [same t1.nx k1, t4, N.p1, S.pv0, B.p1]
      · rw [same t1.pv k2, t5, N.n1, S.pv2, B.n1]
    · intro _
      rw [S.ev2]
      refine ⟨by rw [S.size]; exact j5, S.ew1, by rw [S.cw1, S.cv2], ?_, ?_⟩
      · rw [N.n5, S.pw2, N.p2, S.pv1]
      · rw [N.p5, S.pw0, N.n2, S.pv0]
    · intro _
      rw [S.ew0]
      refine ⟨by rw [S.size]; exact B.i2.succ, S.eu2, by rw [S.cw0, S.cu2], ?_, ?_⟩
      · rw [B.n2, S.pu, N.p4, S.pw2]
      · rw [B.p2, qu1, N.n4, S.pw1]
    · intro _
      rw [S.ew1]
      refine ⟨by rw [S.size]; exact j2, S.ev2, by rw [S.cw1, S.cv2], ?_, ?_⟩
      · rw [N.n2, S.pv0, N.p5, S.pw0]
      · rw [N.p2, S.pv1, N.n5, S.pw2]
    · intro he
      rw [S.ew2] at he ⊢
      obtain ⟨t1, t2, t3, t4, t5⟩ := h.tw _ B.i2 he
      obtain ⟨k0, k1, k2, k3, k4⟩ := kt1 t1 (o2 he)
      refine ⟨by rw [S.size]; exact t1.succ, S.et2 he, by rw [S.c _ (lt t1) k3 k4, t3, S.cw2], ?_, ?_⟩
      · rw [same t1.nx k1, t4, N.p6, S.pw1, B.p2]
      · rw [same t1.pv k2, t5, N.n6, S.pw0, B.n2]
  · have e0 : m'.cr m.size (m.p (u + 1)) (m.p (u + 2)) < 0 := by rw [S.crn (i16_eq hx) (i16_eq hy) pu1 pu2]; exact h0
    have e1 : m'.cr m.size (m.p (u + 2)) (m.p u) < 0 := by rw [S.crn (i16_eq hx) (i16_eq hy) pu2 pu]; exact h1
    have e2 : m'.cr m.size (m.p u) (m.p (u + 1)) < 0 := by rw [S.crn (i16_eq hx) (i16_eq hy) pu pu1]; exact h2
    intro i hi
    rw [S.size] at hi
    rcases isE_succ hi with hi | rfl | rfl | rfl | rfl | rfl | rfl
    · rcases cases hi with (rfl | rfl | rfl) | hf
      · rw [B.n0, B.p0, S.pu, qu1, qu2]; exact e0
      · rw [B.n1, B.p1, S.pu, qu1, qu2, ← cr_rot]; exact e0
      · rw [B.n2, B.p2, S.pu, qu1, qu2, ← cr_rot']; exact e0
      · obtain ⟨k0, k1, k2, k3, k4⟩ := kt1 hi hf
        rw [same hi k0, same hi.nx k1, same hi.pv k2, S.cr (h.pl _ hi) (h.pl _ hi.nx) (h.pl _ hi.pv)]
        exact h.cw i hi
    · rw [N.n0, N.p0, S.pv0, S.pv1, S.pv2, cr_rot]; exact e1
    · rw [N.n1, N.p1, S.pv0, S.pv1, S.pv2]; exact e1
    · rw [N.n2, N.p2, S.pv0, S.pv1, S.pv2, cr_rot']; exact e1
    · rw [N.n4, N.p4, S.pw0, S.pw1, S.pw2, cr_rot']; exact e2
    · rw [N.n5, N.p5, S.pw0, S.pw1, S.pw2, cr_rot]; exact e2
    · rw [N.n6, N.p6, S.pw0, S.pw1, S.pw2]; exact e2

end CE.Cdt
