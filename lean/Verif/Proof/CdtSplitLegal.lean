import Verif.Proof.CdtLegal
import Verif.Proof.CdtLocate
/-! Only the outer edges can be illegal after a split. -/
namespace CE.Cdt

variable {m m' : Mesh} {px py : Int}

/-- which edges of a mesh with a new vertex can be illegal -/
def Only (m : Mesh) (as : List Nat) : Prop := ∀ i, Bad m i → i ∈ as ∨ m.e i ∈ as

theorem FaceSpec.only {u} (S : FaceSpec m m' px py u) (h : Inv m) (h' : Inv m') (L : Legal m) (hu : IsE m.size u) (hu4 : u % 4 = 0)
    (hx : Is16 px) (hy : Is16 py) (h0 : m.crP px py (m.p (u + 1)) (m.p (u + 2)) < 0)
    (h1 : m.crP px py (m.p (u + 2)) (m.p u) < 0) (h2 : m.crP px py (m.p u) (m.p (u + 1)) < 0) :
    Only m' [u, 8 * m.size + 1, 8 * m.size + 6] := by
  have B := base hu hu4
  have N := newFaces m.size
  have hs := h.sz
  obtain ⟨j0, j1, j2, j4, j5, j6⟩ := newIs (n := m.size) (by omega)
  rw [← S.size] at j0 j1 j2 j4 j5 j6
  have up : ∀ {i}, IsE m.size i → IsE m'.size i := fun hi => by rw [S.size]; exact hi.succ
  have q1 : m'.p (u + 1) = m.p (u + 1) := S.p _ B.i1.2.1 (by omega)
  have q2 : m'.p (u + 2) = m.p (u + 2) := S.p _ B.i2.2.1 (by omega)
  have pl0 := h.pl _ B.i0
  have pl1 := h.pl _ B.i1
  have pl2 := h.pl _ B.i2
  have crn : ∀ {a b : Nat}, a < m.size → b < m.size → m'.cr a b m.size = m.crP px py a b := fun ha hb => by
    rw [cr_rot', S.crn (i16_eq hx) (i16_eq hy) ha hb]
  have A1 : 0 ≤ m'.det (u + 1) := by
    by_contra hd
    have P := h'.pair (up B.i1) (by rw [S.eu1]; omega)
    have := (P.convex h' (by omega)).1
    rw [B.p1, q1, S.eu1, S.pv0, S.pu, crn pl1 pl0, crP_swap] at this
    omega
  have A2 : 0 ≤ m'.det (8 * m.size + 2) := by
    by_contra hd
    have P := h'.pair j2 (by rw [S.ev2]; omega)
    have := (P.convex h' (by omega)).1
    rw [N.p2, S.ev2, S.pv2, S.pw1, S.pv1, crn pl2 pl1, crP_swap] at this
    omega
  have A3 : 0 ≤ m'.det (u + 2) := by
    by_contra hd
    have P := h'.pair (up B.i2) (by rw [S.eu2]; omega)
    have := (P.convex h' (by omega)).2
    rw [S.eu2, N.p4, q2, S.pw0, S.pw2, crn pl0 pl2, crP_swap] at this
    omega
  have T1 := det_twin (h'.pair (up B.i1) (by rw [S.eu1]; omega))
  have T2 := det_twin (h'.pair j2 (by rw [S.ev2]; omega))
  have T3 := det_twin (h'.pair (up B.i2) (by rw [S.eu2]; omega))
  rw [S.eu1] at T1
  rw [S.ev2] at T2
  rw [S.eu2] at T3
  rintro i ⟨hi, hc, hd⟩
  simp only [List.mem_cons, List.not_mem_nil, or_false]
  have hi' := hi
  rw [S.size] at hi'
  rcases isE_succ hi' with ho | e | e | e | e | e | e
  · by_cases c0 : i = u
    · exact Or.inl (Or.inl c0)
    by_cases c1 : i = u + 1
    · rw [c1] at hd; omega
    by_cases c2 : i = u + 2
    · rw [c2] at hd; omega
    by_cases c3 : i = m.e (u + 1)
    · right; right; left; rw [c3]; exact S.et1 (c3 ▸ ho.pos)
    by_cases c4 : i = m.e (u + 2)
    · right; right; right; rw [c4]; exact S.et2 (c4 ▸ ho.pos)
    have ee := S.e i ho.2.1 c1 c2 (Or.inr c3) (Or.inr c4)
    by_cases c5 : m.e i = u
    · right; left; rw [ee, c5]
    exfalso
    rw [S.c i ho.2.1 c1 c2] at hc
    have hl := L i ho hc
    have P := h.pair ho (h.free ho hc)
    have out : ∀ {j}, IsE m.size j → j ≠ u → m'.p j = m.p j := fun hj => S.p _ hj.2.1
    have n1 : nx i ≠ u := fun e => c2 (by rw [← ho.pv_nx, e, B.p0])
    have n2 : pv i ≠ u := fun e => c1 (by rw [← ho.nx_pv, e, B.n0])
    have a0 := h.pl _ ho
    have a1 := h.pl _ ho.nx
    have a2 := h.pl _ ho.pv
    have a3 := h.pl _ P.ib
    unfold Mesh.det Mesh.dt at hd hl
    rw [ee, out ho c0, out ho.nx n1, out ho.pv n2, out P.ib c5, S.x _ a0, S.x _ a1, S.x _ a2, S.x _ a3, S.y _ a0, S.y _ a1,
      S.y _ a2, S.y _ a3] at hd
    omega
  · rw [e] at hd; omega
  · exact Or.inl (Or.inr (Or.inl e))
  · rw [e] at hd; omega
  · rw [e] at hd; omega
  · rw [e] at hd; omega
  · exact Or.inl (Or.inr (Or.inr e))

/-- a part of a legal edge is legal -/
theorem half_legal {ax ay bx b_y cx cy nx' ny α β : ℤ} (hα : 0 < α) (hβ : 0 < β)
    (ex : α * (bx - nx') + β * (cx - nx') = 0) (ey : α * (b_y - ny) + β * (cy - ny) = 0)
    (hl : 0 ≤ detE ax ay bx b_y cx cy) :
    (ax * b_y - ay * bx < 0 → 0 ≤ detE ax ay bx b_y nx' ny) ∧ (cx * ay - cy * ax < 0 → 0 ≤ detE ax ay nx' ny cx cy) := by
  have e1 : (α + β) * nx' = α * bx + β * cx := by linarith
  have e2 : (α + β) * ny = α * b_y + β * cy := by linarith
  have hs : 0 < (α + β) * (α + β) := mul_pos (by omega) (by omega)
  have sq : 0 ≤ (cx - bx) * (cx - bx) + (cy - b_y) * (cy - b_y) := add_nonneg (mul_self_nonneg _) (mul_self_nonneg _)
  constructor
  · intro hc
    have k : (α + β) * (α + β) * detE ax ay bx b_y nx' ny = (α + β) * β * detE ax ay bx b_y cx cy -
        α * β * ((cx - bx) * (cx - bx) + (cy - b_y) * (cy - b_y)) * (ax * b_y - ay * bx) := by
      have : (α + β) * (α + β) * detE ax ay bx b_y nx' ny =
          (ax * ax + ay * ay) * (α + β) * (bx * ((α + β) * ny) - b_y * ((α + β) * nx')) +
          (bx * bx + b_y * b_y) * (α + β) * ((α + β) * nx' * ay - (α + β) * ny * ax) +
          ((α + β) * nx' * ((α + β) * nx') + (α + β) * ny * ((α + β) * ny)) * (ax * b_y - ay * bx) := by unfold detE; ring
      rw [this, e1, e2]; unfold detE; ring
    have : 0 ≤ (α + β) * (α + β) * detE ax ay bx b_y nx' ny := by
      rw [k]
      have p1 := mul_nonneg (mul_pos (by omega : 0 < α + β) hβ).le hl
      have p2 := mul_nonneg (mul_nonneg (mul_pos hα hβ).le sq) (by omega : 0 ≤ -(ax * b_y - ay * bx))
      linarith
    exact nonneg_of_mul_nonneg_right this hs
  · intro hc
    have k : (α + β) * (α + β) * detE ax ay nx' ny cx cy = (α + β) * α * detE ax ay bx b_y cx cy -
        α * β * ((cx - bx) * (cx - bx) + (cy - b_y) * (cy - b_y)) * (cx * ay - cy * ax) := by
      have : (α + β) * (α + β) * detE ax ay nx' ny cx cy =
          (ax * ax + ay * ay) * (α + β) * ((α + β) * nx' * cy - (α + β) * ny * cx) +
          ((α + β) * nx' * ((α + β) * nx') + (α + β) * ny * ((α + β) * ny)) * (cx * ay - cy * ax) +
          (cx * cx + cy * cy) * (α + β) * (ax * ((α + β) * ny) - ay * ((α + β) * nx')) := by unfold detE; ring
      rw [this, e1, e2]; unfold detE; ring
    have : 0 ≤ (α + β) * (α + β) * detE ax ay nx' ny cx cy := by
      rw [k]
      have p1 := mul_nonneg (mul_pos (by omega : 0 < α + β) hα).le hl
      have p2 := mul_nonneg (mul_nonneg (mul_pos hα hβ).le sq) (by omega : 0 ≤ -(cx * ay - cy * ax))
      linarith
    exact nonneg_of_mul_nonneg_right this hs

theorem EdgeSpec.only {a b} (S : EdgeSpec m m' px py a b) (h : Inv m) (h' : Inv m') (L : Legal m) (E : OnEdge m px py a b)
    (hx : Is16 px) (hy : Is16 py) : Only m' [pv a, 8 * m.size + 1, nx b, 8 * m.size + 6] := by
  have P := E.pair
  have N := newFaces m.size
  have hs := h.sz
  have A := P.apart
  obtain ⟨j0, j1, j2, j4, j5, j6⟩ := newIs (n := m.size) (by omega)
  rw [← S.size] at j0 j1 j2 j4 j5 j6
  have up : ∀ {i}, IsE m.size i → IsE m'.size i := fun hi => by rw [S.size]; exact hi.succ
  have sp : ∀ {i}, IsE m.size i → i ≠ pv a → i ≠ nx b → m'.p i = m.p i := fun hi => S.p _ hi.2.1
  have ia := P.ia
  have ib := P.ib
  have qa : m'.p a = m.p a := sp ia A.pa.symm A.anb
  have qna : m'.p (nx a) = m.p (nx a) := sp ia.nx A.npa A.nn
  have qb : m'.p b = m.p b := sp ib A.bpa A.nb.symm
  have qpb : m'.p (pv b) = m.p (pv b) := sp ib.pv A.pp.symm A.npb.symm
  have w1 : ∀ {k}, IsE m.size k → (k / 4 = a / 4 ∨ k / 4 = b / 4) → k ≠ m.e (nx a) := fun hk hf e => by
    obtain ⟨x1, x2⟩ := P.faceN h (e ▸ hk.pos); rw [← e] at x1 x2; rcases hf with hf | hf <;> contradiction
  have w2 : ∀ {k}, IsE m.size k → (k / 4 = a / 4 ∨ k / 4 = b / 4) → k ≠ m.e (pv b) := fun hk hf e => by
    obtain ⟨x1, x2⟩ := P.symm.faceP h (e ▸ hk.pos); rw [← e] at x1 x2; rcases hf with hf | hf <;> contradiction
  have ea : m'.e a = b := by
    rw [S.e _ ia.2.1 A.na.symm A.apb (Or.inr (w1 ia (Or.inl rfl))) (Or.inr (w2 ia (Or.inl rfl))), P.ab]
  have pla := h.pl _ ia
  have plna := h.pl _ ia.nx
  have plpa := h.pl _ ia.pv
  have plb := h.pl _ ib
  have plnb := h.pl _ ib.nx
  have plpb := h.pl _ ib.pv
  have crn : ∀ {a b : Nat}, a < m.size → b < m.size → m'.cr a b m.size = m.crP px py a b := fun ha hb => by
    rw [cr_rot', S.crn (i16_eq hx) (i16_eq hy) ha hb]
  have on := E.on
  have A1 : 0 ≤ m'.det (nx a) := by
    by_contra hd
    have P' := h'.pair (up ia.nx) (by rw [S.ena]; omega)
    have := (P'.convex h' (by omega)).2
    rw [S.ena, N.p2, S.px2, S.px1, qna, crn plpa plna, crP_swap, on] at this
    omega
  have A2 : 0 ≤ m'.det (pv b) := by
    by_contra hd
    have P' := h'.pair (up ib.pv) (by rw [S.epb]; omega)
    have := (P'.convex h' (by omega)).1
    rw [S.epb, S.py1, qpb, ib.pv_pv, S.pnb, crn plpb plnb, P.n1, P.n2, on] at this
    omega
  have T1 := det_twin (h'.pair (up ia.nx) (by rw [S.ena]; omega))
  have T2 := det_twin (h'.pair (up ib.pv) (by rw [S.epb]; omega))
  rw [S.ena] at T1
  rw [S.epb] at T2
  have half := fun hc : m.c a = 0 => half_legal (ax := m.x (m.p a) - m.x (m.p b)) (ay := m.y (m.p a) - m.y (m.p b))
      (bx := m.x (m.p (nx a)) - m.x (m.p b)) (b_y := m.y (m.p (nx a)) - m.y (m.p b))
      (cx := m.x (m.p (pv a)) - m.x (m.p b)) (cy := m.y (m.p (pv a)) - m.y (m.p b)) (nx' := px - m.x (m.p b)) (ny := py - m.y (m.p b))
      (α := - m.crP px py (m.p (pv a)) (m.p a)) (β := - m.crP px py (m.p a) (m.p (nx a))) (by have := E.h2; omega) (by have := E.h1; omega)
      (by have := crP_x m px py (m.p a) (m.p (nx a)) (m.p (pv a)); rw [on] at this; linarith)
      (by have := crP_y m px py (m.p a) (m.p (nx a)) (m.p (pv a)); rw [on] at this; linarith)
      (by have := L a ia hc; unfold Mesh.det Mesh.dt at this; rw [P.ab] at this; exact this)
  have A3 : m.c a = 0 → 0 ≤ m'.det a := by
    intro hc
    by_contra hd
    have P' := h'.pair (up ia) (by rw [ea]; exact ib.pos)
    have := (P'.convex h' (by omega)).2
    rw [ea, qa, qb, qpb, P.n2, S.cr plb pla plna] at this
    have k := (half hc).1 (by unfold Mesh.cr at this; linarith)
    apply hd
    unfold Mesh.det Mesh.dt
    rw [ea, qa, qb, qna, S.ppa, S.x _ pla, S.x _ plna, S.x _ plb, S.y _ pla, S.y _ plna, S.y _ plb, S.xn, S.yn, i16_eq hx, i16_eq hy]
    exact k
  have A4 : m.c a = 0 → 0 ≤ m'.det (8 * m.size) := by
    intro hc
    by_contra hd
    have P' := h'.pair j0 (by rw [S.ex0]; omega)
    have := (P'.convex h' (by omega)).1
    rw [S.ex0, N.p0, S.px0, S.py0, S.px2, S.cr pla plb plpa] at this
    have k := (half hc).2 (by unfold Mesh.cr at this; linarith)
    apply hd
    unfold Mesh.det Mesh.dt
    rw [S.ex0, N.n0, N.p0, S.px0, S.px1, S.px2, S.py0, S.x _ pla, S.x _ plpa, S.x _ plb, S.y _ pla, S.y _ plpa, S.y _ plb, S.xn, S.yn,
      i16_eq hx, i16_eq hy]
    exact k
  have T3 := det_twin (h'.pair (up ia) (by rw [ea]; exact ib.pos))
  have T4 := det_twin (h'.pair j0 (by rw [S.ex0]; omega))
  rw [ea] at T3
  rw [S.ex0] at T4
  have cc := P.cc
  rintro i ⟨hi, hc, hd⟩
  simp only [List.mem_cons, List.not_mem_nil, or_false]
  have hi' := hi
  rw [S.size] at hi'
  rcases isE_succ hi' with ho | e | e | e | e | e | e
  · rcases P.cases ho with (e | e | e) | (e | e | e) | ⟨f1, f2⟩
    · rw [e, S.c _ ia.2.1 A.na.symm A.apb] at hc
      have := A3 hc
      rw [e] at hd; omega
    · rw [e] at hd; omega
    · exact Or.inl (Or.inl e)
    · rw [e, S.c _ ib.2.1 A.bna A.pb.symm, cc] at hc
      have := A3 hc
      rw [e] at hd; omega
    · exact Or.inl (Or.inr (Or.inr (Or.inl e)))
    · rw [e] at hd; omega
    · have n1 : i ≠ nx a := fun e => f1 (by rw [e, ia.nx_div])
      have n2 : i ≠ pv b := fun e => f2 (by rw [e, ib.pv_div])
      by_cases c3 : i = m.e (nx a)
      · right; right; left; rw [c3]; exact S.et1 (c3 ▸ ho.pos)
      by_cases c4 : i = m.e (pv b)
      · right; right; right; right; rw [c4]; exact S.et2 (c4 ▸ ho.pos)
      have ee := S.e i ho.2.1 n1 n2 (Or.inr c3) (Or.inr c4)
      by_cases c5 : m.e i = pv a
      · right; left; rw [ee, c5]
      by_cases c6 : m.e i = nx b
      · right; right; right; left; rw [ee, c6]
      exfalso
      rw [S.c i ho.2.1 n1 n2] at hc
      have hl := L i ho hc
      have Pi := h.pair ho (h.free ho hc)
      have k1 : ∀ {j}, j / 4 = i / 4 → j ≠ pv a := fun e' e => f1 (by rw [← e', e, ia.pv_div])
      have k2 : ∀ {j}, j / 4 = i / 4 → j ≠ nx b := fun e' e => f2 (by rw [← e', e, ib.nx_div])
      have a0 := h.pl _ ho
      have a1 := h.pl _ ho.nx
      have a2 := h.pl _ ho.pv
      have a3 := h.pl _ Pi.ib
      unfold Mesh.det Mesh.dt at hd hl
      rw [ee, sp ho (k1 rfl) (k2 rfl), sp ho.nx (k1 ho.nx_div) (k2 ho.nx_div), sp ho.pv (k1 ho.pv_div) (k2 ho.pv_div), sp Pi.ib c5 c6,
        S.x _ a0, S.x _ a1, S.x _ a2, S.x _ a3, S.y _ a0, S.y _ a1, S.y _ a2, S.y _ a3] at hd
      omega
  · rw [e, S.cx0] at hc
    have := A4 hc
    rw [e] at hd; omega
  · exact Or.inl (Or.inr (Or.inl e))
  · rw [e] at hd; omega
  · rw [e, S.cy0, cc] at hc
    have := A4 hc
    rw [e] at hd; omega
  · rw [e] at hd; omega
  · exact Or.inl (Or.inr (Or.inr (Or.inr e)))

theorem Only.run {k as} (O : Only m as) (h : Inv m) (ha : ∀ a ∈ as, IsE m.size a) (hr : runFlips k m as = some m') : Legal m' :=
  runFlips_legal h ha O hr

theorem insertAt_legal (h : Inv m) (L : Legal m) {limit k n r} (hr : insertAt limit k m px py n = some (m', r)) : Legal m' := by
  by_cases hn : n = 0
  · unfold insertAt at hr
    rw [if_pos hn] at hr
    simp only [Option.some.injEq, Prod.mk.injEq] at hr
    rw [← hr.1]; exact L
  have hin : (m.edge (n / 4 * 4) && m.inFace px py (n / 4 * 4)) = true := by
    unfold insertAt at hr
    rw [if_neg hn] at hr
    simp only at hr
    by_contra hc
    rw [if_pos hc] at hr
    simp at hr
  rw [Bool.and_eq_true] at hin
  have hu := (edge_iff _ _).1 hin.1
  rw [insertAt_base _ _ _ _ _ _ hu] at hr
  have hu4 : n / 4 * 4 % 4 = 0 := by omega
  have B := base hu hu4
  have hc := (inFace_iff B).1 hin.2
  obtain ⟨rx, ry⟩ := h.range hu hc
  have hs := h.sz
  obtain ⟨j0, j1, j2, j4, j5, j6⟩ := newIs (n := m.size) (by omega)
  cases insertAt_run h hu hu4 hc with
  | vert i hf hx hy run =>
    rw [run] at hr
    simp only [Option.some.injEq, Prod.mk.injEq] at hr
    rw [← hr.1]; exact L
  | face h0 h1 h2 run =>
    rw [run] at hr
    split at hr
    · simp only [Option.some.injEq, Prod.mk.injEq] at hr
      rw [← hr.1]; exact L
    · have S := splitFace_spec h px py hu hu4
      have hi := S.inv h hu hu4 rx ry h0 h1 h2
      have hz := S.size
      rw [Option.bind_eq_some_iff] at hr
      obtain ⟨m3, e3, e4⟩ := hr
      simp only [Option.some.injEq, Prod.mk.injEq] at e4
      obtain ⟨rfl, rfl⟩ := e4
      refine (S.only h hi L hu hu4 rx ry h0 h1 h2).run (k := k) hi ?_ (by simp only [runFlips]; simpa [Option.bind_assoc] using e3)
      intro x hx
      rw [hz]
      simp only [List.mem_cons, List.not_mem_nil, or_false] at hx
      rcases hx with rfl | rfl | rfl
      exacts [hu.succ, j1, j6]
  | rim i hf he on run =>
    rw [run] at hr
    simp only [Option.some.injEq, Prod.mk.injEq] at hr
    rw [← hr.1]; exact L
  | edge i a b hf he hab E run =>
    rw [run] at hr
    split at hr
    · simp only [Option.some.injEq, Prod.mk.injEq] at hr
      rw [← hr.1]; exact L
    · have S := splitEdge_spec h px py E.pair
      have hi := S.inv h E.pair rx ry E.h1 E.h2 E.h3 E.h4
      have hz := S.size
      rw [Option.bind_eq_some_iff] at hr
      obtain ⟨m3, e3, e4⟩ := hr
      simp only [Option.some.injEq, Prod.mk.injEq] at e4
      obtain ⟨rfl, rfl⟩ := e4
      refine (S.only h hi L E rx ry).run (k := k) hi ?_ (by simp only [runFlips]; simpa [Option.bind_assoc] using e3)
      intro x hx
      rw [hz]
      simp only [List.mem_cons, List.not_mem_nil, or_false] at hx
      rcases hx with rfl | rfl | rfl | rfl
      exacts [E.pair.ia.pv.succ, j1, E.pair.ib.nx.succ, j6]

theorem constrainEdge_legal (h : Inv m) (L : Legal m) {k en} (hr : constrainEdge k m en = some m') : Legal m' := by
  unfold constrainEdge at hr
  split at hr
  · rename_i hen
    have hen := (edge_iff _ _).1 hen
    simp only [Option.bind_eq_bind, Option.bind_eq_some_iff] at hr
    obtain ⟨m1, e1, m2, e2, m3, e3, e4⟩ := hr
    have h0 := con_inv h hen
    have L0 : Legal ((m.setC (m.e en) 1).setC en 1) := by
      intro i hi hc
      rw [con_c] at hc
      split at hc
      · omega
      · exact L i hi hc
    have f1 : Flippable ((m.setC (m.e en) 1).setC en 1) (nx (nx en)) := Or.inl hen.nx.nx
    have F1 := flip_flips h0 f1 e1
    have h1 := F1.inv h0
    have L1 := flip_legal h0 L0 f1 e1
    have f2 : Flippable m1 (nx (nx (nx en))) := Or.inl (F1.isE hen.nx.nx.nx)
    have F2 := flip_flips h1 f2 e2
    have h2 := F2.inv h1
    have L2 := flip_legal h1 L1 f2 e2
    have hen2 : IsE m2.size en := F2.isE (F1.isE hen)
    have t3 : m2.e en = 0 ∨ IsE m2.size (m2.e en) := h2.twin hen2
    have f3 := h2.flippable (a := nx (nx (m2.e en))) (by
      rcases t3 with t | t
      · rw [t]; left; decide
      · exact Or.inr t.nx.nx)
    have F3 := flip_flips h2 f3 e3
    have h3 := F3.inv h2
    have L3 := flip_legal h2 L2 f3 e3
    have f4 := h3.flippable (a := nx (nx (nx (m2.e en)))) (by
      rcases t3 with t | t
      · rw [t]; left; decide
      · exact Or.inr (F3.isE t.nx.nx.nx))
    exact flip_legal h3 L3 f4 e4
  · simp at hr

theorem reset_legal (m : Mesh) : Legal (reset m) := by
  intro i hi hc
  rcases reset_isE hi with rfl | rfl | rfl | rfl | rfl | rfl <;> simp [reset] at hc <;>
    simp [Mesh.det, Mesh.dt, detE, reset, nx, pv]

end CE.Cdt
