import Verif.Proof.CdtInsert
/-! Everything that is done to a mesh is made of a few kinds of steps. -/
namespace CE.Cdt

variable {m m' m'' : Mesh} {px py : Int}

/-- one step -/
inductive Step : Mesh → Mesh → Prop
  | flip {m m' : Mesh} {a b : Nat} (P : Pair m a b) (hc : m.c a = 0) (h1 : m.cr (m.p a) (m.p b) (m.p (pv a)) < 0)
    (h2 : m.cr (m.p b) (m.p a) (m.p (pv b)) < 0) (S : FlipSpec m m' a b) : Step m m'
  | face {m m' : Mesh} {px py : Int} {u : Nat} (hu : IsE m.size u) (hu4 : u % 4 = 0) (hx : Is16 px) (hy : Is16 py)
    (h0 : m.crP px py (m.p (u + 1)) (m.p (u + 2)) < 0) (h1 : m.crP px py (m.p (u + 2)) (m.p u) < 0)
    (h2 : m.crP px py (m.p u) (m.p (u + 1)) < 0) (S : FaceSpec m m' px py u) : Step m m'
  | edge {m m' : Mesh} {px py : Int} {a b : Nat} (E : OnEdge m px py a b) (hx : Is16 px) (hy : Is16 py)
    (S : EdgeSpec m m' px py a b) : Step m m'
  | con {m : Mesh} {i : Nat} (hi : IsE m.size i) : Step m ((m.setC (m.e i) 1).setC i 1)
  | info {m : Mesh} {f v : Nat} : Step m (m.setFi f v)

theorem con_c (m : Mesh) (i j : Nat) : ((m.setC (m.e i) 1).setC i 1).c j = if j = i ∨ j = m.e i then 1 else m.c j := by
  show upd (upd m.c (m.e i) 1) i 1 j = _
  unfold upd; by_cases h1 : j = i <;> by_cases h2 : j = m.e i <;> simp [h1, h2]

theorem con_inv (h : Inv m) {i} (hi : IsE m.size i) : Inv ((m.setC (m.e i) 1).setC i 1) := by
  refine ⟨h.sz, h.rng, ?_, h.pl, ?_, ?_, ?_, h.cw⟩
  · intro j hj hj3
    obtain ⟨l1, l2, l3⟩ := h.low j hj hj3
    exact ⟨by rw [con_c]; split <;> [rfl; exact l1], l2, l3⟩
  · intro j hj; rw [con_c]; split
    · omega
    · exact h.cl j hj
  · intro j hj he; rw [con_c]; split
    · rfl
    · exact h.bd j hj he
  · intro j hj he
    obtain ⟨t1, t2, t3, t4, t5⟩ := h.tw j hj he
    refine ⟨t1, t2, ?_, t4, t5⟩
    show ((m.setC (m.e i) 1).setC i 1).c (m.e j) = _
    rw [con_c, con_c]
    by_cases e1 : j = i
    · rw [e1]; simp
    · by_cases e2 : m.e j = i
      · have : j = m.e i := by rw [← e2, t2]
        rw [if_pos (Or.inl e2), if_pos (Or.inr this)]
      · have x1 : ¬ (m.e j = i ∨ m.e j = m.e i) := by
          rintro (e | e)
          · exact e2 e
          · exact e1 (h.tw_inj hj hi he e)
        have x2 : ¬ (j = i ∨ j = m.e i) := by
          rintro (e | e)
          · exact e1 e
          · have h0 : m.e i ≠ 0 := e ▸ hj.pos
            apply e2; rw [e]; exact (h.tw i hi h0).2.1
        rw [if_neg x1, if_neg x2, t3]

theorem Step.inv (s : Step m m') (h : Inv m) : Inv m' := by
  cases s with
  | flip P hc h1 h2 S => exact S.inv h P h1 h2
  | face hu hu4 hx hy h0 h1 h2 S => exact S.inv h hu hu4 hx hy h0 h1 h2
  | edge E hx hy S => exact S.inv h E.pair hx hy E.h1 E.h2 E.h3 E.h4
  | con hi => exact con_inv h hi
  | info => exact ⟨h.sz, h.rng, h.low, h.pl, h.cl, h.bd, h.tw, h.cw⟩

/-- vertices stay and keep their coordinates -/
theorem Step.keep (s : Step m m') : m.size ≤ m'.size ∧ ∀ v, v < m.size → m'.x v = m.x v ∧ m'.y v = m.y v := by
  cases s with
  | flip P hc h1 h2 S => exact ⟨le_of_eq S.size.symm, fun v _ => ⟨by rw [S.x], by rw [S.y]⟩⟩
  | face hu hu4 hx hy h0 h1 h2 S => exact ⟨by rw [S.size]; omega, fun v hv => ⟨S.x v hv, S.y v hv⟩⟩
  | edge E hx hy S => exact ⟨by rw [S.size]; omega, fun v hv => ⟨S.x v hv, S.y v hv⟩⟩
  | con hi => exact ⟨le_refl _, fun _ _ => ⟨rfl, rfl⟩⟩
  | info => exact ⟨le_refl _, fun _ _ => ⟨rfl, rfl⟩⟩

/-! ### the boundary -/

/-- an edge of the boundary -/
def Bnd (m : Mesh) (i : Nat) : Prop := IsE m.size i ∧ m.e i = 0

/-- the ends of an edge -/
def Mesh.ends (m : Mesh) (i : Nat) : Nat × Nat := (m.p (nx i), m.p (pv i))

/-- the four sides of the square -/
def sides : List (Nat × Nat) := [(1, 0), (0, 2), (2, 3), (3, 1)]

/-- the boundary is the square -/
structure Rim (m : Mesh) : Prop where
  mem : ∀ i, Bnd m i → m.ends i ∈ sides
  one : ∀ s ∈ sides, ∃ i, Bnd m i ∧ m.ends i = s ∧ ∀ j, Bnd m j → m.ends j = s → j = i
  xy0 : m.x 0 = -32768 ∧ m.y 0 = -32768
  xy1 : m.x 1 = 32767 ∧ m.y 1 = -32768
  xy2 : m.x 2 = -32768 ∧ m.y 2 = 32767
  xy3 : m.x 3 = 32767 ∧ m.y 3 = 32767

theorem Rim.of (R : Rim m) (hk : m.size ≤ m'.size ∧ ∀ v, v < m.size → m'.x v = m.x v ∧ m'.y v = m.y v) (hs : 4 ≤ m.size)
    (σ : Nat → Nat) (hσ : ∀ i, σ (σ i) = i) (h1 : ∀ i, Bnd m i → Bnd m' (σ i) ∧ m'.ends (σ i) = m.ends i)
    (h2 : ∀ i, Bnd m' i → Bnd m (σ i)) : Rim m' := by
  have k := hk.2
  refine ⟨?_, ?_, ?_, ?_, ?_, ?_⟩
  · intro i hi
    have b := h2 i hi
    have := (h1 _ b).2
    rw [hσ] at this
    rw [this]; exact R.mem _ b
  · intro s hs
    obtain ⟨i, b, e, u⟩ := R.one s hs
    refine ⟨σ i, (h1 i b).1, by rw [(h1 i b).2, e], fun j bj ej => ?_⟩
    have b' := h2 j bj
    have := (h1 _ b').2
    rw [hσ, ej] at this
    rw [← u _ b' this.symm, hσ]
  · rw [(k 0 (by omega)).1, (k 0 (by omega)).2]; exact R.xy0
  · rw [(k 1 (by omega)).1, (k 1 (by omega)).2]; exact R.xy1
  · rw [(k 2 (by omega)).1, (k 2 (by omega)).2]; exact R.xy2
  · rw [(k 3 (by omega)).1, (k 3 (by omega)).2]; exact R.xy3

/-- exchange `a` with `b` and `c` with `d` -/
def sw (a b c d i : Nat) : Nat := if i = a then b else if i = b then a else if i = c then d else if i = d then c else i

theorem sw_sw {a b c d : Nat} (h1 : a ≠ c) (h2 : a ≠ d) (h3 : b ≠ c) (h4 : b ≠ d) (i : Nat) : sw a b c d (sw a b c d i) = i := by
  unfold sw; split_ifs <;> omega

theorem FlipSpec.rim {a b} (S : FlipSpec m m' a b) (h : Inv m) (P : Pair m a b) (R : Rim m) : Rim m' := by
  have A := P.apart
  refine R.of ⟨le_of_eq S.size.symm, fun v _ => ⟨by rw [S.x], by rw [S.y]⟩⟩ h.sz (sw (pv b) a (pv a) b)
    (sw_sw A.pp.symm A.pb A.pa.symm A.ab) ?_ ?_
  · rintro i ⟨hi, he⟩
    have ia : i ≠ a := by rintro rfl; rw [P.ab] at he; exact P.ib.pos he
    have ib : i ≠ b := by rintro rfl; rw [P.ba] at he; exact P.ia.pos he
    unfold sw
    by_cases e1 : i = pv b
    · rw [if_pos e1]
      rw [e1] at he ⊢
      refine ⟨⟨by rw [S.size]; exact P.ia, by rw [S.e1, he]⟩, ?_⟩
      unfold Mesh.ends
      rw [S.p1, S.ppa P, P.ib.nx_pv, P.ib.pv_pv, P.n1]
    by_cases e2 : i = pv a
    · rw [if_neg e1, if_neg ia, if_pos e2]
      rw [e2] at he ⊢
      refine ⟨⟨by rw [S.size]; exact P.ib, by rw [S.e2, he]⟩, ?_⟩
      unfold Mesh.ends
      rw [S.p2, S.symm.ppa P.symm, P.ia.nx_pv, P.ia.pv_pv, P.n2]
    rw [if_neg e1, if_neg ia, if_neg e2, if_neg ib]
    have t : ∀ k, IsE m.size k → i ≠ m.e k := by
      intro k hk e
      have := (h.tw k hk (e ▸ hi.pos)).2.1
      rw [← e, he] at this; exact hk.pos this.symm
    refine ⟨⟨by rw [S.size]; exact hi, by rw [S.e7 _ ia ib e2 e1 (Or.inr (t _ P.ia.pv)) (Or.inr (t _ P.ib.pv)), he]⟩, ?_⟩
    unfold Mesh.ends
    rw [S.p3, S.p3]
    · intro e; exact e2 (hi.pv_inj P.ia.pv (by rw [e, P.ia.pv_pv]))
    · intro e; exact e1 (hi.pv_inj P.ib.pv (by rw [e, P.ib.pv_pv]))
    · intro e; exact ia (hi.nx_inj P.ia e)
    · intro e; exact ib (hi.nx_inj P.ib e)
  · rintro i ⟨hi, he⟩
    rw [S.size] at hi
    unfold sw
    by_cases e1 : i = pv b
    · rw [e1, S.e4] at he; exact absurd he P.ia.pv.pos
    by_cases e2 : i = a
    · rw [if_neg e1, if_pos e2]; rw [e2, S.e1] at he; exact ⟨P.ib.pv, he⟩
    by_cases e3 : i = pv a
    · rw [e3, S.e3] at he; exact absurd he P.ib.pv.pos
    by_cases e4 : i = b
    · rw [if_neg e1, if_neg e2, if_neg e3, if_pos e4]; rw [e4, S.e2] at he; exact ⟨P.ia.pv, he⟩
    rw [if_neg e1, if_neg e2, if_neg e3, if_neg e4]
    have t1 : i ≠ m.e (pv a) := fun e => by
      have := S.e6 (e ▸ hi.pos); rw [← e, he] at this; exact P.ib.pos this.symm
    have t2 : i ≠ m.e (pv b) := fun e => by
      have := S.e5 (e ▸ hi.pos); rw [← e, he] at this; exact P.ia.pos this.symm
    rw [S.e7 _ e2 e4 e3 e1 (Or.inr t1) (Or.inr t2)] at he
    exact ⟨hi, he⟩

theorem FaceSpec.rim {u} (S : FaceSpec m m' px py u) (h : Inv m) (hu : IsE m.size u) (hu4 : u % 4 = 0) (R : Rim m) : Rim m' := by
  have B := base hu hu4
  have N := newFaces m.size
  have hs := h.sz
  obtain ⟨j0, j1, j2, j4, j5, j6⟩ := newIs (n := m.size) (by omega)
  have hb := B.i2.2.1
  refine R.of ⟨by rw [S.size]; omega, fun v hv => ⟨S.x v hv, S.y v hv⟩⟩ h.sz (sw (u + 1) (8 * m.size + 1) (u + 2) (8 * m.size + 6))
    (sw_sw (by omega) (by omega) (by omega) (by omega)) ?_ ?_
  · rintro i ⟨hi, he⟩
    have hi' := hi.2.1
    unfold sw
    by_cases e1 : i = u + 1
    · rw [if_pos e1]
      rw [e1] at he ⊢
      refine ⟨⟨by rw [S.size]; exact j1, by rw [S.ev1, he]⟩, ?_⟩
      unfold Mesh.ends
      rw [N.n1, N.p1, S.pv2, S.pv0, B.n1, B.p1]
    by_cases e2 : i = u + 2
    · rw [if_neg e1, if_neg (by omega), if_pos e2]
      rw [e2] at he ⊢
      refine ⟨⟨by rw [S.size]; exact j6, by rw [S.ew2, he]⟩, ?_⟩
      unfold Mesh.ends
      rw [N.n6, N.p6, S.pw0, S.pw1, B.n2, B.p2]
    rw [if_neg e1, if_neg (by omega), if_neg e2, if_neg (by omega)]
    have t : ∀ k, IsE m.size k → i ≠ m.e k := by
      intro k hk e
      have := (h.tw k hk (e ▸ hi.pos)).2.1
      rw [← e, he] at this; exact hk.pos this.symm
    refine ⟨⟨by rw [S.size]; exact hi.succ, by rw [S.e _ hi' e1 e2 (Or.inr (t _ B.i1)) (Or.inr (t _ B.i2)), he]⟩, ?_⟩
    unfold Mesh.ends
    rw [S.p _ hi.nx.2.1, S.p _ hi.pv.2.1]
    · intro e; exact e1 (by have := hi.nx_pv; rw [e, B.n0] at this; exact this.symm)
    · intro e; exact e2 (by have := hi.pv_nx; rw [e, B.p0] at this; exact this.symm)
  · rintro i ⟨hi, he⟩
    rw [S.size] at hi
    unfold sw
    rcases isE_succ hi with hi | rfl | rfl | rfl | rfl | rfl | rfl
    · have hi' := hi.2.1
      by_cases e1 : i = u + 1
      · rw [e1, S.eu1] at he; omega
      by_cases e2 : i = u + 2
      · rw [e2, S.eu2] at he; omega
      rw [if_neg e1, if_neg (by omega), if_neg e2, if_neg (by omega)]
      by_cases t1 : i = m.e (u + 1)
      · have := S.et1 (t1 ▸ hi.pos); rw [← t1, he] at this; omega
      by_cases t2 : i = m.e (u + 2)
      · have := S.et2 (t2 ▸ hi.pos); rw [← t2, he] at this; omega
      rw [S.e _ hi' e1 e2 (Or.inr t1) (Or.inr t2)] at he
      exact ⟨hi, he⟩
    · rw [S.ev0] at he; omega
    · rw [if_neg (by omega), if_pos rfl]; rw [S.ev1] at he; exact ⟨B.i1, he⟩
    · rw [S.ev2] at he; omega
    · rw [S.ew0] at he; omega
    · rw [S.ew1] at he; omega
    · rw [if_neg (by omega), if_neg (by omega), if_neg (by omega), if_pos rfl]; rw [S.ew2] at he; exact ⟨B.i2, he⟩

theorem EdgeSpec.rim {a b} (S : EdgeSpec m m' px py a b) (h : Inv m) (P : Pair m a b) (R : Rim m) : Rim m' := by
  have A := P.apart
  have N := newFaces m.size
  have hs := h.sz
  obtain ⟨j0, j1, j2, j4, j5, j6⟩ := newIs (n := m.size) (by omega)
  have hb1 := P.ia.nx.2.1
  have hb2 := P.ib.pv.2.1
  have ia := P.ia
  have ib := P.ib
  refine R.of ⟨by rw [S.size]; omega, fun v hv => ⟨S.x v hv, S.y v hv⟩⟩ h.sz (sw (nx a) (8 * m.size + 1) (pv b) (8 * m.size + 6))
    (sw_sw A.np (by omega) (by omega) (by omega)) ?_ ?_
  · rintro i ⟨hi, he⟩
    have hi' := hi.2.1
    unfold sw
    by_cases e1 : i = nx a
    · rw [if_pos e1]
      rw [e1] at he ⊢
      refine ⟨⟨by rw [S.size]; exact j1, by rw [S.ex1, he]⟩, ?_⟩
      unfold Mesh.ends
      rw [N.n1, N.p1, S.px2, S.px0, ia.nx_nx, ia.pv_nx]
    by_cases e2 : i = pv b
    · rw [if_neg e1, if_neg (by omega), if_pos e2]
      rw [e2] at he ⊢
      refine ⟨⟨by rw [S.size]; exact j6, by rw [S.ey2, he]⟩, ?_⟩
      unfold Mesh.ends
      rw [N.n6, N.p6, S.py0, S.py1, ib.nx_pv, ib.pv_pv]
    rw [if_neg e1, if_neg (by omega), if_neg e2, if_neg (by omega)]
    have t : ∀ k, IsE m.size k → i ≠ m.e k := by
      intro k hk e
      have := (h.tw k hk (e ▸ hi.pos)).2.1
      rw [← e, he] at this; exact hk.pos this.symm
    have n1 : i ≠ a := by rintro rfl; rw [P.ab] at he; exact ib.pos he
    have n2 : i ≠ b := by rintro rfl; rw [P.ba] at he; exact ia.pos he
    refine ⟨⟨by rw [S.size]; exact hi.succ, by rw [S.e _ hi' e1 e2 (Or.inr (t _ ia.nx)) (Or.inr (t _ ib.pv)), he]⟩, ?_⟩
    unfold Mesh.ends
    rw [S.p _ hi.nx.2.1, S.p _ hi.pv.2.1]
    · intro e; exact n1 (hi.pv_inj ia e)
    · intro e; exact e2 (by have := hi.nx_pv; rw [e, ib.nx_nx] at this; exact this.symm)
    · intro e; exact e1 (by have := hi.pv_nx; rw [e, ia.pv_pv] at this; exact this.symm)
    · intro e; exact n2 (hi.nx_inj ib e)
  · rintro i ⟨hi, he⟩
    rw [S.size] at hi
    unfold sw
    rcases isE_succ hi with hi | rfl | rfl | rfl | rfl | rfl | rfl
    · have hi' := hi.2.1
      by_cases e1 : i = nx a
      · rw [e1, S.ena] at he; omega
      by_cases e2 : i = pv b
      · rw [e2, S.epb] at he; omega
      rw [if_neg e1, if_neg (by omega), if_neg e2, if_neg (by omega)]
      by_cases t1 : i = m.e (nx a)
      · have := S.et1 (t1 ▸ hi.pos); rw [← t1, he] at this; omega
      by_cases t2 : i = m.e (pv b)
      · have := S.et2 (t2 ▸ hi.pos); rw [← t2, he] at this; omega
      rw [S.e _ hi' e1 e2 (Or.inr t1) (Or.inr t2)] at he
      exact ⟨hi, he⟩
    · rw [S.ex0] at he; omega
    · rw [if_neg (by omega), if_pos rfl]; rw [S.ex1] at he; exact ⟨ia.nx, he⟩
    · rw [S.ex2] at he; exact absurd he ia.nx.pos
    · rw [S.ey0] at he; omega
    · rw [S.ey1] at he; exact absurd he ib.pv.pos
    · rw [if_neg (by omega), if_neg (by omega), if_neg (by omega), if_pos rfl]; rw [S.ey2] at he; exact ⟨ib.pv, he⟩

theorem Step.rim (s : Step m m') (h : Inv m) (R : Rim m) : Rim m' := by
  cases s with
  | flip P hc h1 h2 S => exact S.rim h P R
  | face hu hu4 hx hy h0 h1 h2 S => exact S.rim h hu hu4 R
  | edge E hx hy S => exact S.rim h E.pair R
  | con hi => exact ⟨R.mem, R.one, R.xy0, R.xy1, R.xy2, R.xy3⟩
  | info => exact ⟨R.mem, R.one, R.xy0, R.xy1, R.xy2, R.xy3⟩

/-- many steps -/
inductive Steps : Mesh → Mesh → Prop
  | refl (m : Mesh) : Steps m m
  | step {m m' m'' : Mesh} (s : Step m m') (h : Steps m' m'') : Steps m m''

theorem Step.steps (s : Step m m') : Steps m m' := .step s (.refl _)

theorem Steps.trans (h : Steps m m') (h' : Steps m' m'') : Steps m m'' := by
  induction h with
  | refl => exact h'
  | step s _ ih => exact .step s (ih h')

theorem Steps.inv (s : Steps m m') (h : Inv m) : Inv m' := by
  induction s with
  | refl => exact h
  | step s _ ih => exact ih (s.inv h)

theorem Steps.rim (s : Steps m m') (h : Inv m) (R : Rim m) : Rim m' := by
  induction s with
  | refl => exact R
  | step s _ ih => exact ih (s.inv h) (s.rim h R)

theorem Steps.keep (s : Steps m m') : m.size ≤ m'.size ∧ ∀ v, v < m.size → m'.x v = m.x v ∧ m'.y v = m.y v := by
  induction s with
  | refl => exact ⟨le_refl _, fun _ _ => ⟨rfl, rfl⟩⟩
  | step s _ ih =>
    obtain ⟨k1, k2⟩ := s.keep
    refine ⟨by omega, fun v hv => ?_⟩
    obtain ⟨x, y⟩ := ih.2 v (by omega)
    obtain ⟨x', y'⟩ := k2 v hv
    exact ⟨x.trans x', y.trans y'⟩

theorem Flips.steps (F : Flips m m') (h : Inv m) : Steps m m' := by
  induction F with
  | refl => exact .refl _
  | step P hc hd S _ ih =>
    obtain ⟨h1, h2⟩ := P.convex h hd
    exact .step (.flip P hc h1 h2 S) (ih (S.inv h P h1 h2))

theorem flip_steps {k m m' a} (h : Inv m) (ha : IsE m.size a ∨ (a % 4 ≠ 3 ∧ m.c a ≠ 0)) (hf : flip k m a = some m') : Steps m m' :=
  (flip_flips h ha hf).steps h

theorem flip_fuel {k : Nat} {m a} (h : Inv m) (ha : IsE m.size a ∨ (a % 4 ≠ 3 ∧ m.c a ≠ 0)) (hk : m.phi < k) :
    ∃ m', flip k m a = some m' ∧ Inv m' ∧ m'.size = m.size ∧ m'.phi ≤ m.phi := by
  obtain ⟨m', e, F⟩ := flip_ends k m h a ha hk
  exact ⟨m', e, F.inv h, F.size.1, F.phi⟩

/-- `try_flip` -/
theorem tryFlip_steps (h : Inv m) {n d} (hn : IsE m.size n) (hf : m.tryFlip n = some (m', d)) : Steps m m' := by
  unfold Mesh.tryFlip at hf
  split at hf
  · rename_i hc
    unfold Mesh.canFlip at hc
    split at hc
    · simp at hc
    · rename_i hc0
      have hc0 : m.c n = 0 := by omega
      obtain ⟨m1, e1, P, S⟩ := flip_one h hn hc0
      rw [e1] at hf
      simp only [Option.map_some, Option.some.injEq, Prod.mk.injEq] at hf
      obtain ⟨rfl, -⟩ := hf
      simp only [Bool.and_eq_true, decide_eq_true_eq] at hc
      refine (Step.flip P hc0 ?_ ?_ S).steps
      · rw [← P.n1]; unfold Mesh.cr; linarith [hc.2]
      · rw [P.n2]; unfold Mesh.cr; linarith [hc.1]
  · simp only [Option.some.injEq, Prod.mk.injEq] at hf
    rw [hf.1]; exact .refl _

/-- `try_flip` always succeeds -/
theorem tryFlip_some (h : Inv m) {n} (hn : IsE m.size n) : ∃ r, m.tryFlip n = some r := by
  unfold Mesh.tryFlip
  split
  · rename_i hc
    unfold Mesh.canFlip at hc
    split at hc
    · simp at hc
    · obtain ⟨m1, e1, P, S⟩ := flip_one h hn (by omega)
      rw [e1]; exact ⟨_, rfl⟩
  · exact ⟨_, rfl⟩

end CE.Cdt
