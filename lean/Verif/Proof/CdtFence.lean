import Verif.Proof.CdtPoints
import Verif.Spec.Fence
/-! Constrained edges persist. -/
namespace CE.Cdt

open Relation

variable {m m' m'' : Mesh} {px py : Int}

/-- a constrained edge of a face, in the direction of the face -/
def Bar (m : Mesh) (u v : Nat) : Prop := ∃ i, IsE m.size i ∧ m.c i ≠ 0 ∧ m.ends i = (u, v)

theorem wall_iff {u v : Nat} : m.Wall u v ↔ Bar m u v ∨ Bar m v u := by
  have e : ∀ f j, j < 3 → m.ends (4 * f + j) = (m.corner f (j + 1), m.corner f (j + 2)) := by
    intro f j hj
    unfold Mesh.ends Mesh.corner nx pv
    congr 2 <;> split <;> omega
  constructor
  · rintro ⟨f, j, uf, hj, hc, h | h⟩
    · exact Or.inl ⟨4 * f + j, by unfold Used at uf; unfold IsE; omega, hc, by rw [e f j hj, h.1, h.2]⟩
    · exact Or.inr ⟨4 * f + j, by unfold Used at uf; unfold IsE; omega, hc, by rw [e f j hj, h.1, h.2]⟩
  · have key : ∀ {a b}, Bar m a b → ∃ f j, Used m f ∧ j < 3 ∧ m.c (4 * f + j) ≠ 0 ∧ m.corner f (j + 1) = a ∧ m.corner f (j + 2) = b := by
      rintro a b ⟨i, hi, hc, he⟩
      have hl : i % 4 < 3 := by unfold IsE at hi; omega
      have hq : 4 * (i / 4) + i % 4 = i := by omega
      have := e (i / 4) (i % 4) hl
      rw [hq, he, Prod.mk.injEq] at this
      exact ⟨i / 4, i % 4, by unfold IsE at hi; unfold Used; omega, hl, by rw [hq]; exact hc, this.1.symm, this.2.symm⟩
    rintro (h | h)
    · obtain ⟨f, j, a, b, c, d⟩ := key h; exact ⟨f, j, a, b, c, Or.inl d⟩
    · obtain ⟨f, j, a, b, c, d⟩ := key h; exact ⟨f, j, a, b, c, Or.inr d⟩

theorem Mesh.Wall.symm {u v : Nat} (h : m.Wall u v) : m.Wall v u := wall_iff.2 (wall_iff.1 h).symm

theorem Bar.lt {u v : Nat} (I : Inv m) (h : Bar m u v) : u < m.size ∧ v < m.size := by
  obtain ⟨i, hi, -, he⟩ := h
  unfold Mesh.ends at he
  rw [Prod.mk.injEq] at he
  rw [← he.1, ← he.2]
  exact ⟨I.pl _ hi.nx, I.pl _ hi.pv⟩

theorem Mesh.Wall.lt {u v : Nat} (I : Inv m) (h : m.Wall u v) : u < m.size ∧ v < m.size := by
  rcases wall_iff.1 h with h | h
  · exact h.lt I
  · exact (h.lt I).symm

/-- an edge that a flip does not turn -/
theorem FlipSpec.bar {a b u v} (S : FlipSpec m m' a b) (P : Pair m a b) (hc : m.c a = 0) (B : Bar m u v) : Bar m' u v := by
  obtain ⟨i, hi, ci, ei⟩ := B
  have A := P.apart
  have ia : i ≠ a := by rintro rfl; exact ci hc
  have ib : i ≠ b := by rintro rfl; exact ci (P.cc.trans hc)
  unfold Bar
  rw [← ei]
  by_cases e1 : i = pv b
  · refine ⟨a, by rw [S.size]; exact P.ia, by rw [S.c1, ← e1]; exact ci, ?_⟩
    rw [e1]
    unfold Mesh.ends
    rw [S.p1, S.ppa P, P.ib.nx_pv, P.ib.pv_pv, P.n1]
  by_cases e2 : i = pv a
  · refine ⟨b, by rw [S.size]; exact P.ib, by rw [S.c2, ← e2]; exact ci, ?_⟩
    rw [e2]
    unfold Mesh.ends
    rw [S.p2, S.symm.ppa P.symm, P.ia.nx_pv, P.ia.pv_pv, P.n2]
  refine ⟨i, by rw [S.size]; exact hi, by rw [S.c5 _ ia ib e2 e1]; exact ci, ?_⟩
  unfold Mesh.ends
  rw [S.p3, S.p3]
  · intro e; exact e2 (hi.pv_inj P.ia.pv (by rw [e, P.ia.pv_pv]))
  · intro e; exact e1 (hi.pv_inj P.ib.pv (by rw [e, P.ib.pv_pv]))
  · intro e; exact ia (hi.nx_inj P.ia e)
  · intro e; exact ib (hi.nx_inj P.ib e)

theorem FaceSpec.bar {u a b} (S : FaceSpec m m' px py u) (h : Inv m) (hu : IsE m.size u) (hu4 : u % 4 = 0) (B : Bar m a b) : Bar m' a b := by
  obtain ⟨i, hi, ci, ei⟩ := B
  have B := base hu hu4
  have N := newFaces m.size
  have hs := h.sz
  obtain ⟨j0, j1, j2, j4, j5, j6⟩ := newIs (n := m.size) (by omega)
  have hb := B.i2.2.1
  have hi' := hi.2.1
  unfold Bar
  rw [← ei]
  by_cases e1 : i = u + 1
  · rw [e1] at ci ⊢
    refine ⟨8 * m.size + 1, by rw [S.size]; exact j1, by rw [S.cv1]; exact ci, ?_⟩
    unfold Mesh.ends
    rw [N.n1, N.p1, S.pv2, S.pv0, B.n1, B.p1]
  by_cases e2 : i = u + 2
  · rw [e2] at ci ⊢
    refine ⟨8 * m.size + 6, by rw [S.size]; exact j6, by rw [S.cw2]; exact ci, ?_⟩
    unfold Mesh.ends
    rw [N.n6, N.p6, S.pw0, S.pw1, B.n2, B.p2]
  refine ⟨i, by rw [S.size]; exact hi.succ, by rw [S.c _ hi' e1 e2]; exact ci, ?_⟩
  unfold Mesh.ends
  rw [S.p _ hi.nx.2.1, S.p _ hi.pv.2.1]
  · intro e; exact e1 (by have := hi.nx_pv; rw [e, B.n0] at this; exact this.symm)
  · intro e; exact e2 (by have := hi.pv_nx; rw [e, B.p0] at this; exact this.symm)

/-- where the new vertex of a split edge is -/
theorem OnEdge.along {a b} (E : OnEdge m px py a b) : ∃ t : ℚ, 0 ≤ t ∧ t ≤ 1 ∧
    (px : ℚ) = m.x (m.p (nx a)) + t * (m.x (m.p (pv a)) - m.x (m.p (nx a))) ∧
    (py : ℚ) = m.y (m.p (nx a)) + t * (m.y (m.p (pv a)) - m.y (m.p (nx a))) := by
  have on := E.on
  have h1 := E.h1
  have h2 := E.h2
  unfold Mesh.crP at on h1 h2
  have on' : ((m.x (m.p (nx a)) : ℚ) - px) * (m.y (m.p (pv a)) - py) - (m.y (m.p (nx a)) - py) * (m.x (m.p (pv a)) - px) = 0 := by
    exact_mod_cast on
  have h1' : ((m.x (m.p a) : ℚ) - px) * (m.y (m.p (nx a)) - py) - (m.y (m.p a) - py) * (m.x (m.p (nx a)) - px) < 0 := by
    exact_mod_cast h1
  have h2' : ((m.x (m.p (pv a)) : ℚ) - px) * (m.y (m.p a) - py) - (m.y (m.p (pv a)) - py) * (m.x (m.p a) - px) < 0 := by
    exact_mod_cast h2
  clear on h1 h2
  generalize (m.x (m.p a) : ℚ) = xa at *
  generalize (m.y (m.p a) : ℚ) = ya at *
  generalize (m.x (m.p (nx a)) : ℚ) = xu at *
  generalize (m.y (m.p (nx a)) : ℚ) = yu at *
  generalize (m.x (m.p (pv a)) : ℚ) = xv at *
  generalize (m.y (m.p (pv a)) : ℚ) = yv at *
  generalize (px : ℚ) = x at *
  generalize (py : ℚ) = y at *
  refine ⟨((xa - x) * (yu - y) - (ya - y) * (xu - x)) / (((xa - x) * (yu - y) - (ya - y) * (xu - x)) + ((xv - x) * (ya - y) - (yv - y) * (xa - x))), ?_, ?_, ?_, ?_⟩
  · exact div_nonneg_of_nonpos h1'.le (by linarith)
  · rw [div_le_one_of_neg (by linarith)]; linarith
  · have hD : ((xa - x) * (yu - y) - (ya - y) * (xu - x)) + ((xv - x) * (ya - y) - (yv - y) * (xa - x)) ≠ 0 := by linarith
    rw [div_mul_eq_mul_div, ← sub_eq_iff_eq_add', eq_div_iff hD]
    linear_combination (xa - x) * on'
  · have hD : ((xa - x) * (yu - y) - (ya - y) * (xu - x)) + ((xv - x) * (ya - y) - (yv - y) * (xa - x)) ≠ 0 := by linarith
    rw [div_mul_eq_mul_div, ← sub_eq_iff_eq_add', eq_div_iff hD]
    linear_combination (ya - y) * on'

theorem EdgeSpec.bar {a b u v} (S : EdgeSpec m m' px py a b) (h : Inv m) (E : OnEdge m px py a b) (hx : Is16 px) (hy : Is16 py)
    (B : Bar m u v) : Bar m' u v ∨ ∃ w, Bar m' u w ∧ Bar m' w v ∧ m'.Along 0 u v w := by
  obtain ⟨i, hi, ci, ei⟩ := B
  have P := E.pair
  have A := P.apart
  have N := newFaces m.size
  have hs := h.sz
  obtain ⟨j0, j1, j2, j4, j5, j6⟩ := newIs (n := m.size) (by omega)
  have hb1 := P.ia.nx.2.1
  have hb2 := P.ib.pv.2.1
  have ia := P.ia
  have ib := P.ib
  have hi' := hi.2.1
  have ei' := ei
  unfold Mesh.ends at ei'
  rw [Prod.mk.injEq] at ei'
  have along : ∀ {c d}, OnEdge m px py c d → i = c → m'.Along 0 u v m.size := by
    rintro c d E rfl
    obtain ⟨t, t0, t1, ex, ey⟩ := E.along
    have hu := h.pl _ hi.nx
    have hv := h.pl _ hi.pv
    rw [ei'.1] at hu ex ey
    rw [ei'.2] at hv ex ey
    refine ⟨t, t0, t1, ?_, ?_⟩
    · rw [S.xn, i16_eq hx, S.x u hu, S.x v hv, ex]; simp
    · rw [S.yn, i16_eq hy, S.y u hu, S.y v hv, ey]; simp
  by_cases e3 : i = a
  · refine Or.inr ⟨m.size, ⟨a, by rw [S.size]; exact ia.succ, ?_, ?_⟩, ⟨8 * m.size, by rw [S.size]; exact j0, ?_, ?_⟩, along E e3⟩
    · rw [S.c _ ia.2.1 A.na.symm A.apb, ← e3]; exact ci
    · unfold Mesh.ends
      rw [S.ppa, S.p _ ia.nx.2.1 A.npa A.nn, ← e3, ei'.1]
    · rw [S.cx0, ← e3]; exact ci
    · unfold Mesh.ends
      rw [N.n0, N.p0, S.px1, S.px2, ← e3, ei'.2]
  by_cases e4 : i = b
  · refine Or.inr ⟨m.size, ⟨8 * m.size + 4, by rw [S.size]; exact j4, ?_, ?_⟩, ⟨b, by rw [S.size]; exact ib.succ, ?_, ?_⟩, along E.symm e4⟩
    · rw [S.cy0, ← e4]; exact ci
    · unfold Mesh.ends
      rw [N.n4, N.p4, S.py1, S.py2, ← e4, ei'.1]
    · rw [S.c _ ib.2.1 A.bna A.pb.symm, ← e4]; exact ci
    · unfold Mesh.ends
      rw [S.pnb, S.p _ ib.pv.2.1 A.pp.symm (fun e => P.symm.apart.npa e.symm), ← e4, ei'.2]
  refine Or.inl ?_
  unfold Bar
  rw [← ei]
  by_cases e1 : i = nx a
  · rw [e1] at ci ⊢
    refine ⟨8 * m.size + 1, by rw [S.size]; exact j1, by rw [S.cx1]; exact ci, ?_⟩
    unfold Mesh.ends
    rw [N.n1, N.p1, S.px2, S.px0, ia.nx_nx, ia.pv_nx]
  by_cases e2 : i = pv b
  · rw [e2] at ci ⊢
    refine ⟨8 * m.size + 6, by rw [S.size]; exact j6, by rw [S.cy2]; exact ci, ?_⟩
    unfold Mesh.ends
    rw [N.n6, N.p6, S.py0, S.py1, ib.nx_pv, ib.pv_pv]
  refine ⟨i, by rw [S.size]; exact hi.succ, by rw [S.c _ hi' e1 e2]; exact ci, ?_⟩
  unfold Mesh.ends
  rw [S.p _ hi.nx.2.1, S.p _ hi.pv.2.1]
  · intro e; exact e3 (hi.pv_inj ia e)
  · intro e; exact e2 (by have := hi.nx_pv; rw [e, ib.nx_nx] at this; exact this.symm)
  · intro e; exact e1 (by have := hi.pv_nx; rw [e, ia.pv_pv] at this; exact this.symm)
  · intro e; exact e4 (hi.nx_inj ib e)

theorem Step.bar (s : Step m m') (h : Inv m) {u v} (B : Bar m u v) : Bar m' u v ∨ ∃ w, Bar m' u w ∧ Bar m' w v ∧ m'.Along 0 u v w := by
  cases s with
  | flip P hc h1 h2 S => exact Or.inl (S.bar P hc B)
  | face hu hu4 hx hy h0 h1 h2 S => exact Or.inl (S.bar h hu hu4 B)
  | edge E hx hy S => exact S.bar h E hx hy B
  | con hi =>
    obtain ⟨i, a, b, c⟩ := B
    refine Or.inl ⟨i, a, ?_, c⟩
    rw [con_c]; split
    · omega
    · exact b
  | info =>
    obtain ⟨i, a, b, c⟩ := B
    exact Or.inl ⟨i, a, b, c⟩

/-! ### segments -/

theorem along_left (m : Mesh) {d : ℚ} (hd : 0 ≤ d) (u v : Nat) : m.Along d u v u := ⟨0, le_refl _, zero_le_one, by simpa using hd, by simpa using hd⟩
theorem along_right (m : Mesh) {d : ℚ} (hd : 0 ≤ d) (u v : Nat) : m.Along d u v v := ⟨1, zero_le_one, le_refl _, by simpa using hd, by simpa using hd⟩

theorem along_zero {u v w : Nat} : m.Along 0 u v w ↔ ∃ t : ℚ, 0 ≤ t ∧ t ≤ 1 ∧ (m.x w : ℚ) = m.x u + t * (m.x v - m.x u) ∧
    (m.y w : ℚ) = m.y u + t * (m.y v - m.y u) := by
  unfold Mesh.Along
  simp only [abs_nonpos_iff, sub_eq_zero]

/-- a point near a piece of a segment is near the segment -/
theorem Mesh.Along.trans {d e : ℚ} {u v a b w : Nat} (ha : m.Along d u v a) (hb : m.Along d u v b) (hw : m.Along e a b w) :
    m.Along (d + e) u v w := by
  obtain ⟨r, r0, r1, rx, ry⟩ := ha
  obtain ⟨s, s0, s1, sx, sy⟩ := hb
  obtain ⟨t, t0, t1, tx, ty⟩ := hw
  have key : ∀ A B U V W : ℚ, |A - (U + r * (V - U))| ≤ d → |B - (U + s * (V - U))| ≤ d → |W - (A + t * (B - A))| ≤ e →
      |W - (U + ((1 - t) * r + t * s) * (V - U))| ≤ d + e := by
    intro A B U V W h1 h2 h3
    rw [abs_le] at *
    have hp : 0 ≤ 1 - t := by linarith
    constructor <;> nlinarith [mul_le_mul_of_nonneg_left h1.1 hp, mul_le_mul_of_nonneg_left h1.2 hp, mul_le_mul_of_nonneg_left h2.1 t0,
      mul_le_mul_of_nonneg_left h2.2 t0]
  refine ⟨(1 - t) * r + t * s, by nlinarith, by nlinarith, key _ _ _ _ _ rx sx tx, key _ _ _ _ _ ry sy ty⟩

theorem Mesh.Along.keep {d : ℚ} {u v w : Nat} (k : ∀ v, v < m.size → m'.x v = m.x v ∧ m'.y v = m.y v) (hu : u < m.size) (hv : v < m.size)
    (hw : w < m.size) (h : m.Along d u v w) : m'.Along d u v w := by
  unfold Mesh.Along at *
  rw [(k u hu).1, (k u hu).2, (k v hv).1, (k v hv).2, (k w hw).1, (k w hw).2]
  exact h

theorem Mesh.Near.keep {u v w : Nat} (k : ∀ v, v < m.size → m'.x v = m.x v ∧ m'.y v = m.y v) (hu : u < m.size) (hv : v < m.size)
    (hw : w < m.size) (h : m.Near u v w) : m'.Near u v w := by
  unfold Mesh.Near at *
  rw [(k u hu).1, (k u hu).2, (k v hv).1, (k v hv).2, (k w hw).1, (k w hw).2]
  exact h

theorem Step.fence (s : Step m m') (h : Inv m) {u v} (hu : u < m.size) (hv : v < m.size) (F : m.Fence u v) : m'.Fence u v := by
  have k := s.keep.2
  have key : ∀ {a b}, Bar m a b → m.Along 0 u v a → m.Along 0 u v b →
      (ReflTransGen (fun a b => m'.Wall a b ∧ m'.Along 0 u v a ∧ m'.Along 0 u v b) a b) ∧
      (ReflTransGen (fun a b => m'.Wall a b ∧ m'.Along 0 u v a ∧ m'.Along 0 u v b) b a) := by
    intro a b B ha hb
    obtain ⟨la, lb⟩ := B.lt h
    have ha' := ha.keep k hu hv la
    have hb' := hb.keep k hu hv lb
    rcases s.bar h B with B' | ⟨w, B1, B2, hw⟩
    · exact ⟨.single ⟨wall_iff.2 (Or.inl B'), ha', hb'⟩, .single ⟨wall_iff.2 (Or.inr B'), hb', ha'⟩⟩
    · have hw' : m'.Along 0 u v w := by have := ha'.trans hb' hw; rwa [add_zero] at this
      exact ⟨.tail (.single ⟨wall_iff.2 (Or.inl B1), ha', hw'⟩) ⟨wall_iff.2 (Or.inl B2), hw', hb'⟩,
        .tail (.single ⟨wall_iff.2 (Or.inr B2), hb', hw'⟩) ⟨wall_iff.2 (Or.inr B1), hw', ha'⟩⟩
  unfold Mesh.Fence at *
  suffices ∀ b, ReflTransGen (fun a b => m.Wall a b ∧ m.Along 0 u v a ∧ m.Along 0 u v b) u b →
      ReflTransGen (fun a b => m'.Wall a b ∧ m'.Along 0 u v a ∧ m'.Along 0 u v b) u b from this v F
  intro b hb
  induction hb with
  | refl => exact .refl
  | tail _ hs ih =>
    obtain ⟨w, ha, hb⟩ := hs
    rcases wall_iff.1 w with w | w
    · exact ih.trans (key w ha hb).1
    · exact ih.trans (key w hb ha).2

theorem Steps.fence (s : Steps m m') (h : Inv m) {u v} (hu : u < m.size) (hv : v < m.size) (F : m.Fence u v) : m'.Fence u v := by
  induction s with
  | refl => exact F
  | step s _ ih => exact ih (s.inv h) (lt_of_lt_of_le hu s.keep.1) (lt_of_lt_of_le hv s.keep.1) (s.fence h hu hv F)

theorem wall_fence {u v} (h : m.Wall u v) : m.Fence u v :=
  .single ⟨h, along_left m (le_refl _) u v, along_right m (le_refl _) u v⟩

theorem Mesh.Fence.lt (I : Inv m) {u v} (h : m.Fence u v) (hu : u < m.size) : v < m.size := by
  unfold Mesh.Fence at h
  suffices ∀ b, ReflTransGen (fun a b => m.Wall a b ∧ m.Along 0 u v a ∧ m.Along 0 u v b) u b → b < m.size from this v h
  intro b hb
  induction hb with
  | refl => exact hu
  | tail _ hs _ => exact (hs.1.lt I).2

theorem Mesh.Route.lt (I : Inv m) {n u v} (h : m.Route n u v) (hu : u < m.size) : v < m.size := by
  induction h with
  | straight h => exact h.lt I hu
  | pass h _ _ ih1 ih2 => exact ih2 (ih1 hu)
  | bend h _ _ ih1 ih2 => exact ih2 (ih1 hu)

theorem Steps.route (s : Steps m m') (I : Inv m) {n u v} (hu : u < m.size) (h : m.Route n u v) : m'.Route n u v := by
  have k := s.keep.2
  induction h with
  | straight h => exact .straight (s.fence I hu (h.lt I hu) h)
  | pass h a b ih1 ih2 =>
    have hw := a.lt I hu
    exact .pass (h.keep k hu (b.lt I hw) hw) (ih1 hu) (ih2 hw)
  | bend h a b ih1 ih2 =>
    have hw := a.lt I hu
    exact .bend (h.keep k hu (b.lt I hw) hw) (ih1 hu) (ih2 hw)

/-- constraining an edge makes a wall -/
theorem constrainEdge_fence (h : Inv m) {k en} (hr : constrainEdge k m en = some m') : m'.Fence (m.p (nx en)) (m.p (pv en)) := by
  obtain ⟨h1, h2, h3⟩ := constrainEdge_flips h hr
  refine (h3.steps h2).fence h2 (h.pl _ h1.nx) (h.pl _ h1.pv) (wall_fence (wall_iff.2 (Or.inl ⟨en, h1, ?_, rfl⟩)))
  rw [con_c, if_pos (Or.inl rfl)]; omega

end CE.Cdt
