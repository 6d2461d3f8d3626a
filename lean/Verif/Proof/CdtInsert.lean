import Verif.Proof.CdtEdgeInv
/-! Inserting a point. -/
namespace CE.Cdt

variable {m m' : Mesh} {px py : Int}

theorem crP_sum (m : Mesh) (px py : Int) (a b c : Nat) :
    m.crP px py b c + m.crP px py c a + m.crP px py a b = m.cr a b c := by unfold Mesh.crP Mesh.cr; ring
theorem crP_x (m : Mesh) (px py : Int) (a b c : Nat) :
    m.crP px py b c * (m.x a - px) + m.crP px py c a * (m.x b - px) + m.crP px py a b * (m.x c - px) = 0 := by
  unfold Mesh.crP; ring
theorem crP_y (m : Mesh) (px py : Int) (a b c : Nat) :
    m.crP px py b c * (m.y a - py) + m.crP px py c a * (m.y b - py) + m.crP px py a b * (m.y c - py) = 0 := by
  unfold Mesh.crP; ring
theorem crP_swap (m : Mesh) (px py : Int) (a b : Nat) : m.crP px py b a = - m.crP px py a b := by unfold Mesh.crP; ring

/-- a weighted mean is between the extremes -/
theorem mean_le {u v w a b c M : Int} (hu : u ≤ 0) (hv : v ≤ 0) (hw : w ≤ 0) (hs : u + v + w < 0)
    (h : u * a + v * b + w * c = 0) (ha : a < M) (hb : b < M) (hc : c < M) : 0 < M := by
  by_contra hM
  have a0 : a ≤ -1 := by omega
  have b0 : b ≤ -1 := by omega
  have c0 : c ≤ -1 := by omega
  nlinarith [mul_nonneg (neg_nonneg.2 hu) (by linarith : 0 ≤ -1 - a), mul_nonneg (neg_nonneg.2 hv) (by linarith : 0 ≤ -1 - b),
    mul_nonneg (neg_nonneg.2 hw) (by linarith : 0 ≤ -1 - c)]

theorem range_of_in {a b c : Nat} (ha : Is16 (m.x a) ∧ Is16 (m.y a)) (hb : Is16 (m.x b) ∧ Is16 (m.y b))
    (hc : Is16 (m.x c) ∧ Is16 (m.y c)) (h0 : m.crP px py b c ≤ 0) (h1 : m.crP px py c a ≤ 0) (h2 : m.crP px py a b ≤ 0)
    (hs : m.cr a b c < 0) : Is16 px ∧ Is16 py := by
  have s := crP_sum m px py a b c
  have kx := crP_x m px py a b c
  have ky := crP_y m px py a b c
  have hs' : m.crP px py b c + m.crP px py c a + m.crP px py a b < 0 := by omega
  unfold Is16 at *
  have x1 := mean_le h0 h1 h2 hs' kx (M := 32768 - px) (by omega) (by omega) (by omega)
  have y1 := mean_le h0 h1 h2 hs' ky (M := 32768 - py) (by omega) (by omega) (by omega)
  have x2 := mean_le h0 h1 h2 hs' (a := px - m.x a) (b := px - m.x b) (c := px - m.x c) (by linarith) (M := 32769 + px)
    (by omega) (by omega) (by omega)
  have y2 := mean_le h0 h1 h2 hs' (a := py - m.y a) (b := py - m.y b) (c := py - m.y c) (by linarith) (M := 32769 + py)
    (by omega) (by omega) (by omega)
  omega

/-- the point is in the face of the edge or on its boundary -/
def Mesh.InClosed (m : Mesh) (px py : Int) (i : Nat) : Prop :=
  m.crP px py (m.p i) (m.p (nx i)) ≤ 0 ∧ m.crP px py (m.p (nx i)) (m.p (pv i)) ≤ 0 ∧ m.crP px py (m.p (pv i)) (m.p i) ≤ 0

theorem InClosed.nx {s i} (hi : IsE s i) (h : m.InClosed px py i) : m.InClosed px py (Cdt.nx i) := by
  unfold Mesh.InClosed at *; rw [hi.nx_nx, hi.pv_nx]; exact ⟨h.2.1, h.2.2, h.1⟩
theorem InClosed.pv {s i} (hi : IsE s i) (h : m.InClosed px py i) : m.InClosed px py (Cdt.pv i) := by
  unfold Mesh.InClosed at *; rw [hi.nx_pv, hi.pv_pv]; exact ⟨h.2.2, h.1, h.2.1⟩

theorem Inv.range (h : Inv m) {i} (hi : IsE m.size i) (hin : m.InClosed px py i) : Is16 px ∧ Is16 py :=
  range_of_in (h.rng _ (h.pl _ hi)) (h.rng _ (h.pl _ hi.nx)) (h.rng _ (h.pl _ hi.pv)) hin.2.1 hin.2.2 hin.1 (h.cw _ hi)

theorem inFace_iff {s u} (B : Base s u) : m.inFace px py u = true ↔ m.InClosed px py u := by
  unfold Mesh.inFace Mesh.InClosed inn Mesh.crP
  rw [B.n0, B.p0]
  simp only [Bool.and_eq_true, decide_eq_true_eq, and_assoc, sub_nonpos]

theorem code_eq {s u} (B : Base s u) : m.code px py u =
    (if m.crP px py (m.p (nx u)) (m.p (pv u)) < 0 then 1 else 0) + (if m.crP px py (m.p (pv u)) (m.p u) < 0 then 2 else 0) +
      (if m.crP px py (m.p u) (m.p (nx u)) < 0 then 4 else 0) := by
  unfold Mesh.code Mesh.crP
  rw [B.n0, B.p0]
  simp only [sub_neg]

/-- the point is strictly between the ends of `a` -/
structure OnEdge (m : Mesh) (px py : Int) (a b : Nat) : Prop where
  pair : Pair m a b
  on : m.crP px py (m.p (nx a)) (m.p (pv a)) = 0
  h1 : m.crP px py (m.p a) (m.p (nx a)) < 0
  h2 : m.crP px py (m.p (pv a)) (m.p a) < 0
  h3 : m.crP px py (m.p b) (m.p (nx b)) < 0
  h4 : m.crP px py (m.p (pv b)) (m.p b) < 0

theorem OnEdge.symm {a b} (h : OnEdge m px py a b) : OnEdge m px py b a where
  pair := h.pair.symm
  on := by rw [h.pair.n1, h.pair.n2, crP_swap, h.on]; rfl
  h1 := h.h3
  h2 := h.h4
  h3 := h.h1
  h4 := h.h2

theorem onEdge (h : Inv m) {a b} (P : Pair m a b) (on : m.crP px py (m.p (nx a)) (m.p (pv a)) = 0)
    (h1 : m.crP px py (m.p a) (m.p (nx a)) < 0) (h2 : m.crP px py (m.p (pv a)) (m.p a) < 0) : OnEdge m px py a b := by
  have c := h.cw _ P.ib
  rw [P.n1, P.n2] at c
  have s := crP_sum m px py (m.p b) (m.p (pv a)) (m.p (nx a))
  have k : m.crP px py (m.p (pv a)) (m.p a) * m.crP px py (m.p (nx a)) (m.p b) =
      m.crP px py (m.p a) (m.p (nx a)) * m.crP px py (m.p b) (m.p (pv a)) := by
    have : m.crP px py (m.p (pv a)) (m.p a) * m.crP px py (m.p (nx a)) (m.p b) -
      m.crP px py (m.p a) (m.p (nx a)) * m.crP px py (m.p b) (m.p (pv a)) =
      - m.crP px py (m.p (nx a)) (m.p (pv a)) * m.crP px py (m.p a) (m.p b) := by unfold Mesh.crP; ring
    rw [on] at this; linarith
  have on' : m.crP px py (m.p (pv a)) (m.p (nx a)) = 0 := by rw [crP_swap, on]; rfl
  have h3 : m.crP px py (m.p b) (m.p (pv a)) < 0 := by
    by_contra h3
    have : m.crP px py (m.p (nx a)) (m.p b) < 0 := by omega
    nlinarith [mul_pos_of_neg_of_neg h2 this, mul_nonneg (by linarith : 0 ≤ -m.crP px py (m.p a) (m.p (nx a))) (by linarith : 0 ≤ m.crP px py (m.p b) (m.p (pv a)))]
  have h4 : m.crP px py (m.p (nx a)) (m.p b) < 0 := by
    by_contra h4
    nlinarith [mul_pos_of_neg_of_neg h1 h3, mul_nonneg (by linarith : 0 ≤ -m.crP px py (m.p (pv a)) (m.p a)) (by linarith : 0 ≤ m.crP px py (m.p (nx a)) (m.p b))]
  exact ⟨P, on, h1, h2, by rw [P.n1]; exact h3, by rw [P.n2]; exact h4⟩

/-- where a point of a face is -/
inductive Where (m : Mesh) (px py : Int) (u : Nat) : Prop
  | vert (i : Nat) (hf : i = u ∨ i = u + 1 ∨ i = u + 2) (hx : m.x (m.p i) = px) (hy : m.y (m.p i) = py)
    (hr : ∀ limit k, insertAt limit k m px py u = some (m, u)) : Where m px py u
  | face (h0 : m.crP px py (m.p (u + 1)) (m.p (u + 2)) < 0) (h1 : m.crP px py (m.p (u + 2)) (m.p u) < 0)
    (h2 : m.crP px py (m.p u) (m.p (u + 1)) < 0)
    (hr : ∀ limit k, insertAt limit k m px py u = if m.size ≥ limit then some (m, 0) else
      (((flip k (m.splitFace px py u) u).bind fun m' => flip k m' (8 * m.size + 1)).bind fun m' =>
        flip k m' (8 * m.size + 6)).bind fun m' => some (m', u + 3)) : Where m px py u
  | rim (i : Nat) (hf : i = u ∨ i = u + 1 ∨ i = u + 2) (he : m.e i = 0) (on : m.crP px py (m.p (nx i)) (m.p (pv i)) = 0 ∧
      m.crP px py (m.p i) (m.p (nx i)) < 0 ∧ m.crP px py (m.p (pv i)) (m.p i) < 0)
    (hr : ∀ limit k, insertAt limit k m px py u = some (m, 0)) : Where m px py u
  | edge (i a b : Nat) (hf : i = u ∨ i = u + 1 ∨ i = u + 2) (he : m.e i ≠ 0)
    (hab : (a = i ∧ b = m.e i) ∨ (a = m.e i ∧ b = i)) (E : OnEdge m px py a b)
    (hr : ∀ limit k, insertAt limit k m px py u = if m.size ≥ limit then some (m, 0) else
      ((((flip k (m.splitEdge px py a b) (pv a)).bind fun m' => flip k m' (8 * m.size + 1)).bind fun m' =>
        flip k m' (nx b)).bind fun m' => flip k m' (8 * m.size + 6)).bind fun m' => some (m', i)) : Where m px py u

theorem vert_of {a b c : Nat} (h0 : m.crP px py b c = 0) (h1 : m.crP px py c a = 0) (hs : m.crP px py a b < 0) :
    m.x c = px ∧ m.y c = py := by
  have kx := crP_x m px py a b c
  have ky := crP_y m px py a b c
  rw [h0, h1] at kx ky
  constructor
  · have : m.crP px py a b * (m.x c - px) = 0 := by linarith
    rcases mul_eq_zero.1 this with e | e <;> omega
  · have : m.crP px py a b * (m.y c - py) = 0 := by linarith
    rcases mul_eq_zero.1 this with e | e <;> omega

theorem insertAt_base (limit k : Nat) (m : Mesh) (px py : Int) (n : Nat) (h : IsE m.size (n / 4 * 4)) :
    insertAt limit k m px py n = insertAt limit k m px py (n / 4 * 4) := by
  have h0 : n ≠ 0 := by have := h.1; omega
  have h1 : n / 4 * 4 ≠ 0 := h.pos
  have h2 : n / 4 * 4 / 4 * 4 = n / 4 * 4 := by omega
  unfold insertAt
  rw [if_neg h0, if_neg h1, h2]

theorem insertAt_edge (h : Inv m) {u i} (hu : IsE m.size u) (hu4 : u % 4 = 0) (hin : m.InClosed px py u)
    (hf : i = u ∨ i = u + 1 ∨ i = u + 2) (on : m.crP px py (m.p (nx i)) (m.p (pv i)) = 0)
    (h1 : m.crP px py (m.p i) (m.p (nx i)) < 0) (h2 : m.crP px py (m.p (pv i)) (m.p i) < 0)
    (hc : ∃ e, m.code px py u = e ∧ e ≠ 0 ∧ ¬(e = 1 ∨ e = 2 ∨ e = 4) ∧ e ≠ 7 ∧
      u + (if e = 3 then 2 else if e = 5 then 1 else if e = 6 then 0 else 3) = i) : Where m px py u := by
  have B := base hu hu4
  have hi : IsE m.size i := by rcases hf with rfl | rfl | rfl; exacts [B.i0, B.i1, B.i2]
  have h4 : u / 4 * 4 = u := by omega
  obtain ⟨e, ce, c0, c1, c7, ci⟩ := hc
  have run : ∀ limit k, insertAt limit k m px py u = if m.size ≥ limit then some (m, 0) else
      if m.e i = 0 then some (m, 0) else
        if m.edge (m.e i) && m.e (m.e i) == i then
          ((((flip k (m.splitEdge px py (if m.e i < i then m.e i else i) (if m.e i < i then i else m.e i))
            (pv (if m.e i < i then m.e i else i))).bind fun m' => flip k m' (8 * m.size + 1)).bind fun m' =>
            flip k m' (nx (if m.e i < i then i else m.e i))).bind fun m' => flip k m' (8 * m.size + 6)).bind fun m' => some (m', i)
        else none := by
    intro limit k
    unfold insertAt
    rw [if_neg hu.pos]
    simp only [h4, (edge_iff _ _).2 hu, (inFace_iff B).2 hin, ce, Bool.and_self, not_true_eq_false, if_false, c0, c1, c7, ci]
    by_cases hl : m.size ≥ limit
    · rw [if_pos hl, if_pos hl]
    · rw [if_neg hl, if_neg hl]
      by_cases he : m.e i = 0
      · rw [if_pos he, if_pos he]
      · rw [if_neg he, if_neg he]
        simp only [mul_comm m.size 8, Option.bind_eq_bind, Option.bind_assoc]
  by_cases he : m.e i = 0
  · exact .rim i hf he ⟨on, h1, h2⟩ fun limit k => by rw [run]; simp [he]
  · have P := h.pair hi he
    have E := onEdge h P on h1 h2
    have hcond : (m.edge (m.e i) && m.e (m.e i) == i) = true := by
      rw [(edge_iff _ _).2 P.ib, P.ba]; simp
    by_cases hl : m.e i < i
    · refine .edge i (m.e i) i hf he (Or.inr ⟨rfl, rfl⟩) E.symm fun limit k => ?_
      rw [run]; simp only [if_pos hl, if_neg he, if_pos hcond]
    · refine .edge i i (m.e i) hf he (Or.inl ⟨rfl, rfl⟩) E fun limit k => ?_
      rw [run]; simp only [if_neg hl, if_neg he, if_pos hcond]

theorem insertAt_run (h : Inv m) {u} (hu : IsE m.size u) (hu4 : u % 4 = 0) (hin : m.InClosed px py u) : Where m px py u := by
  have B := base hu hu4
  have h4 : u / 4 * 4 = u := by omega
  have ce := code_eq (m := m) (px := px) (py := py) B
  obtain ⟨w2, w0, w1⟩ := hin
  have hin : m.InClosed px py u := ⟨w2, w0, w1⟩
  have s := crP_sum m px py (m.p u) (m.p (nx u)) (m.p (pv u))
  have hs := h.cw _ hu
  have vrun : ∀ e, m.code px py u = e → (e = 1 ∨ e = 2 ∨ e = 4) → ∀ limit k, insertAt limit k m px py u = some (m, u) := by
    intro e c1 c2 limit k
    unfold insertAt
    rw [if_neg hu.pos]
    simp only [h4, (edge_iff _ _).2 hu, (inFace_iff B).2 hin, c1, Bool.and_self, not_true_eq_false, if_false, c2, if_true]
    rw [if_neg (by omega)]
  by_cases z0 : m.crP px py (m.p (nx u)) (m.p (pv u)) < 0 <;> by_cases z1 : m.crP px py (m.p (pv u)) (m.p u) < 0 <;>
    by_cases z2 : m.crP px py (m.p u) (m.p (nx u)) < 0 <;> simp only [z0, z1, z2, if_true, if_false] at ce
  · refine .face (by rw [← B.n0, ← B.p0]; exact z0) (by rw [← B.p0]; exact z1) (by rw [← B.n0]; exact z2) fun limit k => ?_
    unfold insertAt
    rw [if_neg hu.pos]
    simp only [h4, (edge_iff _ _).2 hu, (inFace_iff B).2 hin, ce, Bool.and_self, not_true_eq_false, if_false]
    by_cases hl : m.size ≥ limit
    · simp [hl]
    · simp [hl, mul_comm m.size 8, Option.bind_assoc]
  · refine insertAt_edge h hu hu4 hin (i := u + 2) (by omega) ?_ ?_ ?_ ⟨_, ce, by decide, by decide, by decide, rfl⟩
    · rw [B.n2, B.p2, ← B.n0]; omega
    · rw [B.n2, ← B.p0]; exact z1
    · rw [B.p2, ← B.p0, ← B.n0]; exact z0
  · refine insertAt_edge h hu hu4 hin (i := u + 1) (by omega) ?_ ?_ ?_ ⟨_, ce, by decide, by decide, by decide, rfl⟩
    · rw [B.n1, B.p1, ← B.p0]; omega
    · rw [B.n1, ← B.p0, ← B.n0]; exact z0
    · rw [B.p1, ← B.n0]; exact z2
  · obtain ⟨vx, vy⟩ := vert_of (m := m) (px := px) (py := py) (a := m.p (nx u)) (b := m.p (pv u)) (c := m.p u) (by omega) (by omega) z0
    exact .vert u (by omega) vx vy (vrun _ ce (by decide))
  · refine insertAt_edge h hu hu4 hin (i := u) (by omega) ?_ ?_ ?_ ⟨_, ce, by decide, by decide, by decide, rfl⟩
    · omega
    · exact z2
    · exact z1
  · obtain ⟨vx, vy⟩ := vert_of (m := m) (px := px) (py := py) (a := m.p (pv u)) (b := m.p u) (c := m.p (nx u)) (by omega) (by omega) z1
    exact .vert (u + 1) (by omega) (by rw [← B.n0]; exact vx) (by rw [← B.n0]; exact vy) (vrun _ ce (by decide))
  · obtain ⟨vx, vy⟩ := vert_of (m := m) (px := px) (py := py) (a := m.p u) (b := m.p (nx u)) (c := m.p (pv u)) (by omega) (by omega) z2
    exact .vert (u + 2) (by omega) (by rw [← B.p0]; exact vx) (by rw [← B.p0]; exact vy) (vrun _ ce (by decide))
  · omega

end CE.Cdt
