import Verif.Spec.Rough
import Verif.Proof.CdtPoints
import Verif.Proof.CdtWalk
import Verif.Proof.CdtView
import Verif.Props.Cdt
import Mathlib.Algebra.BigOperators.Field
import Mathlib.Tactic.FieldSimp
import Mathlib.Tactic.Linarith
/-! The roughness of the surface over a mesh: it does not grow with in-circle flips, and two Delaunay meshes of the same
places have the same. -/
namespace CE.Cdt

variable {m m' n : Mesh} {F : Int → Int → ℝ} {a b : Nat}

/-- cosine over sine of the angle at the corner of an edge -/
noncomputable def Mesh.cot (m : Mesh) (i : Nat) : ℝ :=
  (((m.x (m.p (nx i)) - m.x (m.p i)) * (m.x (m.p (pv i)) - m.x (m.p i)) + (m.y (m.p (nx i)) - m.y (m.p i)) * (m.y (m.p (pv i)) - m.y (m.p i)) : ℤ) : ℝ) /
    (-(m.cr (m.p i) (m.p (nx i)) (m.p (pv i)) : ℤ) : ℝ)

/-- part of an edge in the roughness -/
noncomputable def Mesh.bump (m : Mesh) (F : Int → Int → ℝ) (i : Nat) : ℝ :=
  m.cot i * (m.height F (m.p (nx i)) - m.height F (m.p (pv i))) ^ 2

/-- part of the face of an edge, twice -/
noncomputable def Mesh.steep (m : Mesh) (F : Int → Int → ℝ) (i : Nat) : ℝ := m.bump F i + m.bump F (nx i) + m.bump F (pv i)

theorem steep_nx {s i} (h : IsE s i) : m.steep F (nx i) = m.steep F i := by
  unfold Mesh.steep; rw [h.nx_nx, h.pv_nx]; ring
theorem steep_pv {s i} (h : IsE s i) : m.steep F (pv i) = m.steep F i := by
  unfold Mesh.steep; rw [h.nx_pv, h.pv_pv]; ring
theorem steep_face {s i} (h : IsE s i) : m.steep F (4 * (i / 4)) = m.steep F i := by
  rcases h.thirds with ⟨e1, e2, e3⟩ | ⟨e1, e2, e3⟩ | ⟨e1, e2, e3⟩
  · rw [← e1]
  · rw [← e3, steep_pv h]
  · rw [← e2, steep_nx h]

/-- numerator of the part of a triangle -/
def num (ax ay bx b_y cx cy f g h : ℝ) : ℝ :=
  ((bx - ax) * (cx - ax) + (b_y - ay) * (cy - ay)) * (g - h) ^ 2 + ((cx - bx) * (ax - bx) + (cy - b_y) * (ay - b_y)) * (h - f) ^ 2 +
    ((ax - cx) * (bx - cx) + (ay - cy) * (b_y - cy)) * (f - g) ^ 2

theorem steep_num {s i} (h : IsE s i) : m.steep F i = num (m.x (m.p i)) (m.y (m.p i)) (m.x (m.p (nx i))) (m.y (m.p (nx i))) (m.x (m.p (pv i))) (m.y (m.p (pv i)))
    (m.height F (m.p i)) (m.height F (m.p (nx i))) (m.height F (m.p (pv i))) / (-(m.cr (m.p i) (m.p (nx i)) (m.p (pv i)) : ℤ) : ℝ) := by
  unfold Mesh.steep Mesh.bump Mesh.cot num
  rw [h.nx_nx, h.pv_nx, h.nx_pv, h.pv_pv, ← cr_rot m (m.p i), ← cr_rot' m (m.p i)]
  push_cast
  ring

/-- the roughness, edge by edge -/
theorem rough_steep (h : Inv m) : m.rough F = (∑ f ∈ Finset.Ico 6 (2 * m.size), m.steep F (4 * f)) / 2 := by
  unfold Mesh.rough
  rw [Finset.sum_div]
  refine Finset.sum_congr rfl fun f hf => ?_
  have hi := isE_face hf
  have B := base hi (by omega)
  have c := h.cw _ hi
  have c' : ((m.cr (m.p (4 * f)) (m.p (4 * f + 1)) (m.p (4 * f + 2)) : ℤ) : ℝ) ≠ 0 := by
    rw [B.n0, B.p0] at c; exact_mod_cast c.ne
  rw [steep_num hi, B.n0, B.p0]
  unfold Mesh.slopeX Mesh.slopeY Mesh.size2 num Mesh.corner Mesh.area
  unfold Mesh.cr at c' ⊢
  simp only [Nat.reduceMod, Nat.add_zero]
  push_cast at c' ⊢
  field_simp
  ring

/-- the identity behind a flip, with the vertex across at the origin and at height 0 -/
theorem flip_num (ax ay ux uy vx vy fa fu fv : ℝ) :
    num ax ay ux uy vx vy fa fu fv * (vx * uy - vy * ux) * (-ax * (vy - ay) - -ay * (vx - ax)) * (ax * uy - ay * ux) +
      num 0 0 vx vy ux uy 0 fv fu * ((ux - ax) * (vy - ay) - (uy - ay) * (vx - ax)) * (-ax * (vy - ay) - -ay * (vx - ax)) * (ax * uy - ay * ux) -
      num ax ay 0 0 vx vy fa 0 fv * ((ux - ax) * (vy - ay) - (uy - ay) * (vx - ax)) * (vx * uy - vy * ux) * (ax * uy - ay * ux) -
      num 0 0 ax ay ux uy 0 fa fu * ((ux - ax) * (vy - ay) - (uy - ay) * (vx - ax)) * (vx * uy - vy * ux) * (-ax * (vy - ay) - -ay * (vx - ax)) =
    ((ax * ax + ay * ay) * (ux * vy - uy * vx) + (ux * ux + uy * uy) * (vx * ay - vy * ax) + (vx * vx + vy * vy) * (ax * uy - ay * ux)) *
      (fa * (vx * uy - vy * ux) - fu * (-ax * (vy - ay) - -ay * (vx - ax)) - fv * (ax * uy - ay * ux)) ^ 2 := by
  unfold num
  ring

theorem num_move (ax ay bx b_y cx cy f g h x y z : ℝ) : num ax ay bx b_y cx cy f g h = num (ax - x) (ay - y) (bx - x) (b_y - y) (cx - x) (cy - y) (f - z) (g - z) (h - z) := by
  unfold num; ring

/-- four faces: the two before a flip and the two after it -/
theorem quarters {n1 n2 n3 n4 d1 d2 d3 d4 d k : ℝ} (h1 : d1 < 0) (h2 : d2 < 0) (h3 : d3 < 0) (h4 : d4 < 0)
    (e : n1 * d2 * d3 * d4 + n2 * d1 * d3 * d4 - n3 * d1 * d2 * d4 - n4 * d1 * d2 * d3 = d * k ^ 2) :
    n3 / -d3 + n4 / -d4 = n1 / -d1 + n2 / -d2 + d * k ^ 2 / (d1 * d2 * d3 * d4) := by
  rw [← e]
  have := h1.ne; have := h2.ne; have := h3.ne; have := h4.ne
  field_simp
  ring

/-- heights that tell all flips -/
def bowl (x y : Int) : ℝ := x * x + y * y

/-- how the roughness changes with a flip -/
theorem FlipSpec.steep (S : FlipSpec m m' a b) (P : Pair m a b) (h : Inv m) (h' : Inv m') :
    ∃ k : ℝ, 0 ≤ k ∧ m'.steep F a + m'.steep F b = m.steep F a + m.steep F b + (m.det a : ℤ) * k ∧ (F = bowl → m.det a ≠ 0 → 0 < k) := by
  have d1 : ((m.cr (m.p a) (m.p (nx a)) (m.p (pv a)) : ℤ) : ℝ) < 0 := by exact_mod_cast h.cw a P.ia
  have d2 : ((m.cr (m.p b) (m.p (pv a)) (m.p (nx a)) : ℤ) : ℝ) < 0 := by
    have := h.cw b P.ib; rw [P.n1, P.n2] at this; exact_mod_cast this
  have d3 : ((m.cr (m.p a) (m.p b) (m.p (pv a)) : ℤ) : ℝ) < 0 := by
    have := h'.cw a (by rw [S.size]; exact P.ia); rw [S.cr, S.pa P, S.p1, S.ppa P] at this; exact_mod_cast this
  have d4 : ((m.cr (m.p b) (m.p a) (m.p (nx a)) : ℤ) : ℝ) < 0 := by
    have := h'.cw b (by rw [S.size]; exact P.ib); rw [S.cr, S.symm.pa P.symm, S.p2, S.symm.ppa P.symm, P.n2] at this; exact_mod_cast this
  have hh : ∀ v, m'.height F v = m.height F v := fun v => by unfold Mesh.height; rw [S.x, S.y]
  rw [steep_num P.ia, steep_num P.ib, steep_num P.ia, steep_num P.ib, S.cr, S.cr, S.pa P, S.p1, S.ppa P, S.symm.pa P.symm, S.p2, S.symm.ppa P.symm, P.n1, P.n2]
  simp only [hh]
  rw [S.x, S.y]
  have D1 : ((m.cr (m.p a) (m.p (nx a)) (m.p (pv a)) : ℤ) : ℝ) = ((m.x (m.p (nx a)) - m.x (m.p b)) - (m.x (m.p a) - m.x (m.p b))) * ((m.y (m.p (pv a)) - m.y (m.p b)) - (m.y (m.p a) - m.y (m.p b))) -
      ((m.y (m.p (nx a)) - m.y (m.p b)) - (m.y (m.p a) - m.y (m.p b))) * ((m.x (m.p (pv a)) - m.x (m.p b)) - (m.x (m.p a) - m.x (m.p b))) := by
    unfold Mesh.cr; push_cast; ring
  have D2 : ((m.cr (m.p b) (m.p (pv a)) (m.p (nx a)) : ℤ) : ℝ) = (m.x (m.p (pv a)) - m.x (m.p b)) * (m.y (m.p (nx a)) - m.y (m.p b)) -
      (m.y (m.p (pv a)) - m.y (m.p b)) * (m.x (m.p (nx a)) - m.x (m.p b)) := by
    unfold Mesh.cr; push_cast; ring
  have D3 : ((m.cr (m.p a) (m.p b) (m.p (pv a)) : ℤ) : ℝ) = -(m.x (m.p a) - m.x (m.p b)) * ((m.y (m.p (pv a)) - m.y (m.p b)) - (m.y (m.p a) - m.y (m.p b))) -
      -(m.y (m.p a) - m.y (m.p b)) * ((m.x (m.p (pv a)) - m.x (m.p b)) - (m.x (m.p a) - m.x (m.p b))) := by
    unfold Mesh.cr; push_cast; ring
  have D4 : ((m.cr (m.p b) (m.p a) (m.p (nx a)) : ℤ) : ℝ) = (m.x (m.p a) - m.x (m.p b)) * (m.y (m.p (nx a)) - m.y (m.p b)) -
      (m.y (m.p a) - m.y (m.p b)) * (m.x (m.p (nx a)) - m.x (m.p b)) := by
    unfold Mesh.cr; push_cast; ring
  have D : ((m.det a : ℤ) : ℝ) = ((m.x (m.p a) - m.x (m.p b)) * (m.x (m.p a) - m.x (m.p b)) + (m.y (m.p a) - m.y (m.p b)) * (m.y (m.p a) - m.y (m.p b))) *
        ((m.x (m.p (nx a)) - m.x (m.p b)) * (m.y (m.p (pv a)) - m.y (m.p b)) - (m.y (m.p (nx a)) - m.y (m.p b)) * (m.x (m.p (pv a)) - m.x (m.p b))) +
      ((m.x (m.p (nx a)) - m.x (m.p b)) * (m.x (m.p (nx a)) - m.x (m.p b)) + (m.y (m.p (nx a)) - m.y (m.p b)) * (m.y (m.p (nx a)) - m.y (m.p b))) *
        ((m.x (m.p (pv a)) - m.x (m.p b)) * (m.y (m.p a) - m.y (m.p b)) - (m.y (m.p (pv a)) - m.y (m.p b)) * (m.x (m.p a) - m.x (m.p b))) +
      ((m.x (m.p (pv a)) - m.x (m.p b)) * (m.x (m.p (pv a)) - m.x (m.p b)) + (m.y (m.p (pv a)) - m.y (m.p b)) * (m.y (m.p (pv a)) - m.y (m.p b))) *
        ((m.x (m.p a) - m.x (m.p b)) * (m.y (m.p (nx a)) - m.y (m.p b)) - (m.y (m.p a) - m.y (m.p b)) * (m.x (m.p (nx a)) - m.x (m.p b))) := by
    unfold Mesh.det Mesh.dt detE; rw [P.ab]; push_cast; ring
  have q := flip_num (m.x (m.p a) - m.x (m.p b)) (m.y (m.p a) - m.y (m.p b)) (m.x (m.p (nx a)) - m.x (m.p b)) (m.y (m.p (nx a)) - m.y (m.p b))
    (m.x (m.p (pv a)) - m.x (m.p b)) (m.y (m.p (pv a)) - m.y (m.p b)) (m.height F (m.p a) - m.height F (m.p b))
    (m.height F (m.p (nx a)) - m.height F (m.p b)) (m.height F (m.p (pv a)) - m.height F (m.p b))
  rw [← D, ← D1, ← D2, ← D3, ← D4] at q
  have mv := fun ax ay bx b_y cx cy f g h => num_move ax ay bx b_y cx cy f g h (m.x (m.p b)) (m.y (m.p b)) (m.height F (m.p b))
  have n1 := mv (m.x (m.p a)) (m.y (m.p a)) (m.x (m.p (nx a))) (m.y (m.p (nx a))) (m.x (m.p (pv a))) (m.y (m.p (pv a)))
    (m.height F (m.p a)) (m.height F (m.p (nx a))) (m.height F (m.p (pv a)))
  have n2 := mv (m.x (m.p b)) (m.y (m.p b)) (m.x (m.p (pv a))) (m.y (m.p (pv a))) (m.x (m.p (nx a))) (m.y (m.p (nx a)))
    (m.height F (m.p b)) (m.height F (m.p (pv a))) (m.height F (m.p (nx a)))
  have n3 := mv (m.x (m.p a)) (m.y (m.p a)) (m.x (m.p b)) (m.y (m.p b)) (m.x (m.p (pv a))) (m.y (m.p (pv a)))
    (m.height F (m.p a)) (m.height F (m.p b)) (m.height F (m.p (pv a)))
  have n4 := mv (m.x (m.p b)) (m.y (m.p b)) (m.x (m.p a)) (m.y (m.p a)) (m.x (m.p (nx a))) (m.y (m.p (nx a)))
    (m.height F (m.p b)) (m.height F (m.p a)) (m.height F (m.p (nx a)))
  rw [sub_self, sub_self, sub_self] at n2 n3 n4
  rw [← n1, ← n2, ← n3, ← n4] at q
  have := quarters d1 d2 d3 d4 q
  have pos := mul_pos (mul_pos_of_neg_of_neg d1 d2) (mul_pos_of_neg_of_neg d3 d4)
  refine ⟨_ ^ 2 / _, ?_, by rw [this, mul_div_assoc], ?_⟩
  · apply div_nonneg (sq_nonneg _)
    linarith
  · intro eF hd
    refine div_pos (sq_pos_of_ne_zero ?_) (by linarith)
    have : ((m.det a : ℤ) : ℝ) ≠ 0 := by exact_mod_cast hd
    rw [D2, D3, D4]
    intro z
    apply this
    rw [D]
    unfold Mesh.height at z
    rw [eF] at z
    unfold bowl at z
    linear_combination -z

/-- a flip of an edge whose opposite vertex is in the circle does not make the surface rougher -/
theorem FlipSpec.rough (S : FlipSpec m m' a b) (P : Pair m a b) (h : Inv m) (hd : m.det a < 0) :
    m'.rough F ≤ m.rough F ∧ (F = bowl → m'.rough F < m.rough F) := by
  have h' := S.inv h P (P.convex h hd).1 (P.convex h hd).2
  obtain ⟨k, hk, e, hb⟩ := S.steep (F := F) P h h'
  have fa := face_mem P.ia
  have fb := face_mem P.ib
  have fb' : b / 4 ∈ (Finset.Ico 6 (2 * m.size)).erase (a / 4) := Finset.mem_erase.2 ⟨P.face, fb⟩
  have sp : ∀ m'' : Mesh, m''.size = m.size → ∑ f ∈ Finset.Ico 6 (2 * m''.size), m''.steep F (4 * f) = m''.steep F a + (m''.steep F b +
      ∑ f ∈ ((Finset.Ico 6 (2 * m.size)).erase (a / 4)).erase (b / 4), m''.steep F (4 * f)) := by
    intro m'' hs
    rw [hs, ← Finset.add_sum_erase _ _ fa, ← Finset.add_sum_erase _ _ fb', steep_face P.ia, steep_face P.ib]
  rw [rough_steep h, rough_steep h', sp m' S.size, sp m rfl]
  have rest : ∑ f ∈ ((Finset.Ico 6 (2 * m.size)).erase (a / 4)).erase (b / 4), m'.steep F (4 * f) =
      ∑ f ∈ ((Finset.Ico 6 (2 * m.size)).erase (a / 4)).erase (b / 4), m.steep F (4 * f) := by
    apply Finset.sum_congr rfl
    intro f hf
    rw [Finset.mem_erase, Finset.mem_erase] at hf
    have hi := isE_face hf.2.2
    have e : 4 * f / 4 = f := by omega
    have n1 : 4 * f / 4 ≠ a / 4 := by rw [e]; exact hf.2.1
    have n2 : 4 * f / 4 ≠ b / 4 := by rw [e]; exact hf.1
    rw [steep_num hi, steep_num hi]
    unfold Mesh.height
    rw [S.cr, S.x, S.y, S.pout P n1 n2, S.pout P (out_nx hi n1) (out_nx hi n2), S.pout P (out_pv hi n1) (out_pv hi n2)]
  rw [rest]
  have hd' : ((m.det a : ℤ) : ℝ) < 0 := by exact_mod_cast hd
  constructor
  · have := mul_nonneg hk (neg_nonneg.2 hd'.le)
    linarith
  · intro eF
    have := mul_pos (hb eF hd.ne) (neg_pos.2 hd')
    linarith

theorem Flips.rough (s : Flips m m') (h : Inv m) : m'.rough F ≤ m.rough F := by
  induction s with
  | refl => exact le_refl _
  | step P hc hd S _ ih =>
    obtain ⟨h1, h2⟩ := P.convex h hd
    exact (ih (S.inv h P h1 h2)).trans (S.rough P h hd).1

/-- in-circle flips make some surface less rough -/
theorem Flips.bowl (s : Flips m m') (h : Inv m) (ne : ¬ Legal m) (L : Legal m') : m'.rough bowl < m.rough bowl := by
  cases s with
  | refl => exact absurd L ne
  | step P hc hd S r =>
    obtain ⟨h1, h2⟩ := P.convex h hd
    exact (r.rough (S.inv h P h1 h2)).trans_lt ((S.rough P h hd).2 rfl)

/-- in-circle flips, while there are any, end at a mesh without -/
theorem lawson (h : Inv m) : ∃ n, Flips m n ∧ Legal n := by
  have go : ∀ k : Nat, ∀ m, Inv m → m.phi < k → ∃ n, Flips m n ∧ Legal n := by
    intro k
    induction k with
    | zero => intro m h hk; have := h.phi_nonneg; omega
    | succ k ih =>
      intro m h hk
      by_cases L : Legal m
      · exact ⟨m, .refl m, L⟩
      unfold Legal at L
      push Not at L
      obtain ⟨i, hi, hc, hd⟩ := L
      obtain ⟨m1, -, P, S⟩ := flip_one h hi hc
      obtain ⟨h1, h2⟩ := P.convex h hd
      have := S.phi P
      obtain ⟨n, F, L⟩ := ih m1 (S.inv h P h1 h2) (by push_cast at hk; omega)
      exact ⟨n, .step P hc hd S F, L⟩
  exact go (m.phi.toNat + 1) m h (by have := h.phi_nonneg; push_cast; omega)

end CE.Cdt
