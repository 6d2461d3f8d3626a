import Verif.Props.Mesh
import Verif.Props.Polygon
/-!
# C138: in_polygon on the boundary

Points on edges and vertices are counted consistently: a triangle counts 0 or its orientation wherever the point is, the
counts of the parts of a polygon add up, and so every point of a triangulated polygon is in exactly one triangle.  The rule
for ties is the opposite of that of the triangle test built from `inside` (C44): the point is displaced the other way.
-/
namespace CE.Vec

/-- contribution of an edge, by the heights of its ends and the cross product -/
theorem crossing_cases (a b : V2) : crossing a b =
    if a.y < 0 ∧ 0 ≤ b.y ∧ a.x * b.y - a.y * b.x < 0 then -1
    else if 0 ≤ a.y ∧ b.y < 0 ∧ 0 < a.x * b.y - a.y * b.x then 1 else 0 := by
  unfold crossing xorNeg
  generalize a.x * b.y - a.y * b.x = X
  by_cases h1 : a.y < 0 <;> by_cases h2 : b.y < 0 <;> rcases lt_trichotomy X 0 with h3 | h3 | h3 <;>
    simp [h1, h2, h3, not_lt_of_gt, not_le_of_gt, le_of_not_gt]

theorem crossing_below {a b : V2} (ha : a.y < 0) (hb : b.y < 0) : crossing a b = 0 := by
  rw [crossing_cases, if_neg (by omega), if_neg (by omega)]

theorem crossing_above {a b : V2} (ha : 0 ≤ a.y) (hb : 0 ≤ b.y) : crossing a b = 0 := by
  rw [crossing_cases, if_neg (by omega), if_neg (by omega)]

theorem crossing_up {a b : V2} (ha : a.y < 0) (hb : 0 ≤ b.y) :
    crossing a b = if a.x * b.y - a.y * b.x < 0 then -1 else 0 := by
  rw [crossing_cases, if_neg (show ¬(0 ≤ a.y ∧ b.y < 0 ∧ 0 < a.x * b.y - a.y * b.x) by omega)]
  simp only [ha, hb, true_and]

theorem crossing_down {a b : V2} (ha : 0 ≤ a.y) (hb : b.y < 0) :
    crossing a b = if 0 < a.x * b.y - a.y * b.x then 1 else 0 := by
  rw [crossing_cases, if_neg (show ¬(a.y < 0 ∧ 0 ≤ b.y ∧ a.x * b.y - a.y * b.x < 0) by omega)]
  simp only [ha, hb, true_and]

/-- count of a triangle around the origin -/
def around (A B C : V2) : Int := crossing C A + crossing A B + crossing B C

theorem cross_y (A B C : V2) : (A.x * B.y - A.y * B.x) * C.y + (B.x * C.y - B.y * C.x) * A.y +
    (C.x * A.y - C.y * A.x) * B.y = 0 := by ring

/-- one corner below and two above, or the reverse: the strict sign of one cross product decides the others -/
theorem sign_far {u v w x y z : Int} (h : u * x + v * y + w * z = 0) (hx : x < 0) (hy : 0 ≤ y) (hz : 0 ≤ z)
    (hv : v ≤ 0) (hw : w ≤ 0) : u ≤ 0 := by
  by_contra hc
  have h1 : u * x < 0 := mul_neg_of_pos_of_neg (by omega) hx
  have h2 := mul_nonpos_of_nonpos_of_nonneg hv hy
  have h3 := mul_nonpos_of_nonpos_of_nonneg hw hz
  omega

theorem sign_far' {u v w x y z : Int} (h : u * x + v * y + w * z = 0) (hx : x < 0) (hy : 0 ≤ y) (hz : 0 ≤ z)
    (hv : 0 ≤ v) (hw : 0 ≤ w) : 0 ≤ u := by
  by_contra hc
  have h1 : 0 < u * x := mul_pos_of_neg_of_neg (by omega) hx
  have h2 := mul_nonneg hv hy
  have h3 := mul_nonneg hw hz
  omega

theorem sign_near {u v w x y z : Int} (h : u * x + v * y + w * z = 0) (hx : 0 ≤ x) (hy : y < 0) (hz : z < 0)
    (hv : v < 0) (hw : w ≤ 0) : u < 0 := by
  by_contra hc
  have h1 : 0 ≤ u * x := mul_nonneg (by omega) hx
  have h2 := mul_pos_of_neg_of_neg hv hy
  have h3 := mul_nonneg_of_nonpos_of_nonpos hw (le_of_lt hz)
  omega

theorem sign_near' {u v w x y z : Int} (h : u * x + v * y + w * z = 0) (hx : 0 ≤ x) (hy : y < 0) (hz : z < 0)
    (hv : 0 ≤ v) (hw : 0 < w) : 0 < u := by
  by_contra hc
  have h1 : u * x ≤ 0 := mul_nonpos_of_nonpos_of_nonneg (by omega) hx
  have h2 := mul_nonpos_of_nonneg_of_nonpos hv (le_of_lt hy)
  have h3 := mul_neg_of_pos_of_neg hw hz
  omega

/-- C alone below -/
theorem around_below {A B C : V2} (hc : C.y < 0) (ha : 0 ≤ A.y) (hb : 0 ≤ B.y) (D : Int)
    (hD : D = (A.x * B.y - A.y * B.x) + (B.x * C.y - B.y * C.x) + (C.x * A.y - C.y * A.x)) :
    around A B C = 0 ∨ (0 < D ∧ around A B C = 1) ∨ (D < 0 ∧ around A B C = -1) := by
  have h := cross_y A B C
  unfold around
  rw [crossing_up hc ha, crossing_above ha hb, crossing_down hb hc]
  have f1 := sign_far h hc ha hb
  have f2 := sign_far' h hc ha hb
  generalize A.x * B.y - A.y * B.x = X at *
  generalize B.x * C.y - B.y * C.x = Y at *
  generalize C.x * A.y - C.y * A.x = Z at *
  clear h
  split_ifs <;> omega

/-- C alone above -/
theorem around_above {A B C : V2} (hc : 0 ≤ C.y) (ha : A.y < 0) (hb : B.y < 0) (D : Int)
    (hD : D = (A.x * B.y - A.y * B.x) + (B.x * C.y - B.y * C.x) + (C.x * A.y - C.y * A.x)) :
    around A B C = 0 ∨ (0 < D ∧ around A B C = 1) ∨ (D < 0 ∧ around A B C = -1) := by
  have h := cross_y A B C
  unfold around
  rw [crossing_down hc ha, crossing_below ha hb, crossing_up hb hc]
  have f1 := sign_near h hc ha hb
  have f2 := sign_near' h hc ha hb
  generalize A.x * B.y - A.y * B.x = X at *
  generalize B.x * C.y - B.y * C.x = Y at *
  generalize C.x * A.y - C.y * A.x = Z at *
  clear h
  split_ifs <;> omega

theorem around_rot (A B C : V2) : around A B C = around B C A := by
  unfold around; ring

/-- the count is the orientation or 0 -/
theorem around_sign (A B C : V2) (D : Int) (hD : D = (A.x * B.y - A.y * B.x) + (B.x * C.y - B.y * C.x) + (C.x * A.y - C.y * A.x)) :
    around A B C = 0 ∨ (0 < D ∧ around A B C = 1) ∨ (D < 0 ∧ around A B C = -1) := by
  rcases lt_or_ge A.y 0 with ha | ha <;> rcases lt_or_ge B.y 0 with hb | hb <;> rcases lt_or_ge C.y 0 with hc | hc
  · left; unfold around; rw [crossing_below hc ha, crossing_below ha hb, crossing_below hb hc]; rfl
  · exact around_above hc ha hb D hD
  · rw [around_rot, around_rot]; exact around_above hb hc ha D (by rw [hD]; ring)
  · rw [around_rot]; exact around_below ha hb hc D (by rw [hD]; ring)
  · rw [around_rot]; exact around_above ha hb hc D (by rw [hD]; ring)
  · rw [around_rot, around_rot]; exact around_below hb hc ha D (by rw [hD]; ring)
  · exact around_below hc ha hb D hD
  · left; unfold around; rw [crossing_above hc ha, crossing_above ha hb, crossing_above hb hc]; rfl

/-- the order that `inside` decides -/
def Insd (A B : V2) : Prop :=
  A.x * B.y - A.y * B.x < 0 ∨ (A.x * B.y - A.y * B.x = 0 ∧ (B.y < A.y ∨ (B.y = A.y ∧ A.x < B.x)))

theorem insd_one_below {A B C : V2} (hC : C.y < 0) (hA : 0 ≤ A.y) (hB : 0 ≤ B.y)
    (hZ : C.x * A.y - C.y * A.x < 0) (hY : B.x * C.y - B.y * C.x ≤ 0) : Insd A B ∧ Insd B C ∧ Insd C A := by
  refine ⟨?_, ?_, Or.inl hZ⟩
  · have h := cross_y A B C
    have hX : A.x * B.y - A.y * B.x ≤ 0 := by
      by_contra hc
      have h1 : (A.x * B.y - A.y * B.x) * C.y < 0 := mul_neg_of_pos_of_neg (by omega) hC
      have h2 : (B.x * C.y - B.y * C.x) * A.y ≤ 0 := mul_nonpos_of_nonpos_of_nonneg hY hA
      have h3 : (C.x * A.y - C.y * A.x) * B.y ≤ 0 := mul_nonpos_of_nonpos_of_nonneg (le_of_lt hZ) hB
      omega
    rcases lt_or_eq_of_le hX with hX | hX
    · exact Or.inl hX
    · right
      refine ⟨hX, ?_⟩
      rw [hX, zero_mul] at h
      have h2 : (B.x * C.y - B.y * C.x) * A.y ≤ 0 := mul_nonpos_of_nonpos_of_nonneg hY hA
      have h3 : (C.x * A.y - C.y * A.x) * B.y ≤ 0 := mul_nonpos_of_nonpos_of_nonneg (le_of_lt hZ) hB
      have h4 : (C.x * A.y - C.y * A.x) * B.y = 0 := by omega
      have hb : B.y = 0 := by
        rcases mul_eq_zero.1 h4 with h | h
        · omega
        · exact h
      rcases lt_or_eq_of_le hA with ha | ha
      · exact Or.inl (by omega)
      · right
        refine ⟨by omega, ?_⟩
        rw [← ha] at hZ
        rw [hb] at hY
        have ax : A.x < 0 := by
          by_contra hc
          have := mul_nonpos_of_nonpos_of_nonneg (le_of_lt hC) (show 0 ≤ A.x by omega)
          simp at hZ
          omega
        have bx : 0 ≤ B.x := by
          by_contra hc
          have := mul_pos_of_neg_of_neg (show B.x < 0 by omega) hC
          simp at hY
          omega
        omega
  · rcases lt_or_eq_of_le hY with hY | hY
    · exact Or.inl hY
    · exact Or.inr ⟨hY, Or.inl (by omega)⟩

theorem insd_one_above {A B C : V2} (hC : 0 ≤ C.y) (hA : A.y < 0) (hB : B.y < 0)
    (hY : B.x * C.y - B.y * C.x < 0) (hZ : C.x * A.y - C.y * A.x ≤ 0) : Insd A B ∧ Insd B C ∧ Insd C A := by
  refine ⟨?_, Or.inl hY, ?_⟩
  · left
    have h := cross_y A B C
    have h2 : 0 < (B.x * C.y - B.y * C.x) * A.y := mul_pos_of_neg_of_neg hY hA
    have h3 : 0 ≤ (C.x * A.y - C.y * A.x) * B.y := mul_nonneg_of_nonpos_of_nonpos hZ (le_of_lt hB)
    by_contra hc
    have h1 : 0 ≤ (A.x * B.y - A.y * B.x) * C.y := mul_nonneg (by omega) hC
    omega
  · rcases lt_or_eq_of_le hZ with hZ | hZ
    · exact Or.inl hZ
    · exact Or.inr ⟨hZ, Or.inl (by omega)⟩

theorem insd_le {A B : V2} (h : Insd A B) : A.x * B.y - A.y * B.x ≤ 0 := by
  rcases h with h | h
  · exact le_of_lt h
  · exact le_of_eq h.1

theorem insd_tie {A B : V2} (h : Insd A B) (h0 : A.x * B.y - A.y * B.x = 0) : B.y < A.y ∨ (B.y = A.y ∧ A.x < B.x) := by
  rcases h with h | h
  · omega
  · exact h.2

theorem insd_not_below {A B C : V2} (h1 : Insd A B) (h2 : Insd B C) (h3 : Insd C A) : ¬(A.y < 0 ∧ B.y < 0 ∧ C.y < 0) := by
  rintro ⟨ha, hb, hc⟩
  have h := cross_y A B C
  have e1 := mul_nonneg_of_nonpos_of_nonpos (insd_le h1) (le_of_lt hc)
  have e2 := mul_nonneg_of_nonpos_of_nonpos (insd_le h2) (le_of_lt ha)
  have e3 := mul_nonneg_of_nonpos_of_nonpos (insd_le h3) (le_of_lt hb)
  have z1 : A.x * B.y - A.y * B.x = 0 := by
    rcases mul_eq_zero.1 (show (A.x * B.y - A.y * B.x) * C.y = 0 by omega) with h | h <;> omega
  have z2 : B.x * C.y - B.y * C.x = 0 := by
    rcases mul_eq_zero.1 (show (B.x * C.y - B.y * C.x) * A.y = 0 by omega) with h | h <;> omega
  have z3 : C.x * A.y - C.y * A.x = 0 := by
    rcases mul_eq_zero.1 (show (C.x * A.y - C.y * A.x) * B.y = 0 by omega) with h | h <;> omega
  have t1 := insd_tie h1 z1
  have t2 := insd_tie h2 z2
  have t3 := insd_tie h3 z3
  omega

theorem insd_not_above {A B C : V2} (h1 : Insd A B) (h2 : Insd B C) (h3 : Insd C A) : ¬(0 ≤ A.y ∧ 0 ≤ B.y ∧ 0 ≤ C.y) := by
  rintro ⟨ha, hb, hc⟩
  have h := cross_y A B C
  have l1 := insd_le h1
  have l2 := insd_le h2
  have l3 := insd_le h3
  have e1 := mul_nonpos_of_nonpos_of_nonneg l1 hc
  have e2 := mul_nonpos_of_nonpos_of_nonneg l2 ha
  have e3 := mul_nonpos_of_nonpos_of_nonneg l3 hb
  have z1 := mul_eq_zero.1 (show (A.x * B.y - A.y * B.x) * C.y = 0 by omega)
  have z2 := mul_eq_zero.1 (show (B.x * C.y - B.y * C.x) * A.y = 0 by omega)
  have z3 := mul_eq_zero.1 (show (C.x * A.y - C.y * A.x) * B.y = 0 by omega)
  -- ties among the points
  have t1 := insd_tie h1
  have t2 := insd_tie h2
  have t3 := insd_tie h3
  rcases eq_or_lt_of_le ha with ya | ya <;> rcases eq_or_lt_of_le hb with yb | yb <;> rcases eq_or_lt_of_le hc with yc | yc
  · -- all on the line
    rw [← ya, ← yb] at t1
    rw [← yb, ← yc] at t2
    rw [← yc, ← ya] at t3
    simp at t1 t2 t3
    omega
  · -- C above
    rw [← ya, ← yb] at t1
    rw [← yb] at l2
    rw [← ya] at l3
    simp only [mul_zero, zero_mul, sub_zero, zero_sub] at t1 l2 l3
    have b0 : B.x ≤ 0 := by
      by_contra hcc; have := mul_pos (show 0 < B.x by omega) yc; omega
    have a0 : 0 ≤ A.x := by
      by_contra hcc; have := mul_neg_of_pos_of_neg yc (show A.x < 0 by omega); omega
    have := t1 trivial
    omega
  · -- B above
    rw [← ya] at l1
    rw [← yc] at l2
    rw [← yc, ← ya] at t3
    simp only [mul_zero, zero_mul, sub_zero, zero_sub] at t3 l1 l2
    have a0 : A.x ≤ 0 := by
      by_contra hcc; have := mul_pos (show 0 < A.x by omega) yb; omega
    have c0 : 0 ≤ C.x := by
      by_contra hcc; have := mul_neg_of_pos_of_neg yb (show C.x < 0 by omega); omega
    have := t3 trivial
    omega
  · -- B and C above
    have w1 : A.x * B.y - A.y * B.x = 0 := by rcases z1 with h | h <;> omega
    have w3 : C.x * A.y - C.y * A.x = 0 := by rcases z3 with h | h <;> omega
    have := t1 w1
    omega
  · -- A above
    rw [← yc] at l3
    rw [← yb] at l1
    rw [← yb, ← yc] at t2
    simp only [mul_zero, zero_mul, sub_zero, zero_sub] at t2 l1 l3
    have c0 : C.x ≤ 0 := by
      by_contra hcc; have := mul_pos (show 0 < C.x by omega) ya; omega
    have b0 : 0 ≤ B.x := by
      by_contra hcc; have := mul_neg_of_pos_of_neg ya (show B.x < 0 by omega); omega
    have := t2 trivial
    omega
  · have w1 : A.x * B.y - A.y * B.x = 0 := by rcases z1 with h | h <;> omega
    have w2 : B.x * C.y - B.y * C.x = 0 := by rcases z2 with h | h <;> omega
    have := t2 w2
    omega
  · have w2 : B.x * C.y - B.y * C.x = 0 := by rcases z2 with h | h <;> omega
    have w3 : C.x * A.y - C.y * A.x = 0 := by rcases z3 with h | h <;> omega
    have := t3 w3
    omega
  · have w1 : A.x * B.y - A.y * B.x = 0 := by rcases z1 with h | h <;> omega
    have w2 : B.x * C.y - B.y * C.x = 0 := by rcases z2 with h | h <;> omega
    have w3 : C.x * A.y - C.y * A.x = 0 := by rcases z3 with h | h <;> omega
    have := t1 w1
    have := t2 w2
    have := t3 w3
    omega

theorem insd_iff_below {A B C : V2} (hc : C.y < 0) (ha : 0 ≤ A.y) (hb : 0 ≤ B.y) :
    around A B C = -1 ↔ Insd A B ∧ Insd B C ∧ Insd C A := by
  unfold around
  rw [crossing_up hc ha, crossing_above ha hb, crossing_down hb hc]
  constructor
  · intro h
    exact insd_one_below hc ha hb (by split_ifs at h <;> omega) (by split_ifs at h <;> omega)
  · rintro ⟨-, h2, h3⟩
    have l2 := insd_le h2
    have l3 := insd_le h3
    have t3 := insd_tie h3
    rw [if_pos (by omega), if_neg (by omega)]; rfl

theorem insd_iff_above {A B C : V2} (hc : 0 ≤ C.y) (ha : A.y < 0) (hb : B.y < 0) :
    around A B C = -1 ↔ Insd A B ∧ Insd B C ∧ Insd C A := by
  unfold around
  rw [crossing_down hc ha, crossing_below ha hb, crossing_up hb hc]
  constructor
  · intro h
    exact insd_one_above hc ha hb (by split_ifs at h <;> omega) (by split_ifs at h <;> omega)
  · rintro ⟨-, h2, h3⟩
    have l2 := insd_le h2
    have l3 := insd_le h3
    have t2 := insd_tie h2
    rw [if_neg (by omega), if_pos (by omega)]; rfl

/-- the count is -1 exactly when the origin is on the right of all edges, ties decided by `inside` -/
theorem around_inside (A B C : V2) : around A B C = -1 ↔ Insd A B ∧ Insd B C ∧ Insd C A := by
  rcases lt_or_ge A.y 0 with ha | ha <;> rcases lt_or_ge B.y 0 with hb | hb <;> rcases lt_or_ge C.y 0 with hc | hc
  · constructor
    · intro h; unfold around at h
      rw [crossing_below hc ha, crossing_below ha hb, crossing_below hb hc] at h; omega
    · rintro ⟨h1, h2, h3⟩; exact absurd ⟨ha, hb, hc⟩ (insd_not_below h1 h2 h3)
  · exact insd_iff_above hc ha hb
  · rw [around_rot, around_rot, insd_iff_above hb hc ha]; tauto
  · rw [around_rot, insd_iff_below ha hb hc]; tauto
  · rw [around_rot, insd_iff_above ha hb hc]; tauto
  · rw [around_rot, around_rot, insd_iff_below hb hc ha]; tauto
  · exact insd_iff_below hc ha hb
  · constructor
    · intro h; unfold around at h
      rw [crossing_above hc ha, crossing_above ha hb, crossing_above hb hc] at h; omega
    · rintro ⟨h1, h2, h3⟩; exact absurd ⟨ha, hb, hc⟩ (insd_not_above h1 h2 h3)

/-! ## The properties -/

/-- the sum of the contributions of a triangle -/
theorem tri_sum (p a b c : V2) : ((polyEdges [a, b, c]).map (cr p)).sum = around (rel p a) (rel p b) (rel p c) := by
  show (List.map (cr p) [(c, a), (a, b), (b, c)]).sum = _
  simp only [List.map_cons, List.map_nil, List.sum_cons, List.sum_nil]
  unfold cr around
  ring

/-- twice the area of a triangle, positive if counter-clockwise -/
def area2 (a b c : V2) : Int := (b.x - a.x) * (c.y - a.y) - (b.y - a.y) * (c.x - a.x)

theorem area2_rel (p a b c : V2) : area2 a b c =
    ((rel p a).x * (rel p b).y - (rel p a).y * (rel p b).x) + ((rel p b).x * (rel p c).y - (rel p b).y * (rel p c).x) +
      ((rel p c).x * (rel p a).y - (rel p c).y * (rel p a).x) := by
  unfold area2 rel; ring

/-- C138.  Wherever the point is, also on an edge or a vertex: `in_polygon` of a triangle is 0, or 1 if the triangle is
counter-clockwise, or -1 (modulo 2^64) if it is clockwise; of a triangle without area it is 0. -/
theorem C138_triangle (p a b c : V2) (w : Nat) (h : inPolygon p [a, b, c] = some w) :
    w = 0 ∨ (0 < area2 a b c ∧ w = 1) ∨ (area2 a b c < 0 ∧ w = 2 ^ 64 - 1) := by
  have e := inPolygon_some h
  rw [tri_sum] at e
  rcases around_sign (rel p a) (rel p b) (rel p c) _ (area2_rel p a b c) with k | ⟨hd, k⟩ | ⟨hd, k⟩
  · left; rw [k] at e; omega
  · right; left; rw [k] at e; exact ⟨hd, by omega⟩
  · right; right; rw [k] at e; exact ⟨hd, by omega⟩

theorem insd_of_inside {a b : V2} {r : Bool} (h : inside a b = some r) : r = true ↔ Insd a b := by
  rw [inside_iff h]
  unfold Insd
  omega

/-- the point seen from the other side -/
def neg (v : V2) : V2 := ⟨-v.x, -v.y⟩

/-- C138.  `in_polygon` and the triangle test of C44 break ties in opposite ways: the count of a triangle is -1 exactly when
the triangle test is true for point and triangle turned by half a turn. -/
theorem C138_opposite_ties (p a b c : V2) (w : Nat) (r : Bool) (h : inPolygon p [a, b, c] = some w)
    (h' : inTriangle (neg p) (neg a) (neg b) (neg c) = some r) : w = 2 ^ 64 - 1 ↔ r = true := by
  have e := inPolygon_some h
  rw [tri_sum] at e
  obtain ⟨-, -, -, r1, r2, r3, e1, e2, e3, rfl⟩ := inTriangle_some h'
  have k : ∀ v : V2, (⟨(neg v).x - (neg p).x, (neg v).y - (neg p).y⟩ : V2) = rel p v := by
    intro v; unfold neg rel; ext <;> simp <;> ring
  rw [k, k] at e1 e2 e3
  have ht := around_inside (rel p a) (rel p b) (rel p c)
  rw [← insd_of_inside e1, ← insd_of_inside e2, ← insd_of_inside e3] at ht
  rw [Bool.and_eq_true, Bool.and_eq_true, and_assoc, ← ht]
  have hs := around_sign (rel p a) (rel p b) (rel p c) _ rfl
  omega

/-- directed edges of parts: those of the whole and inner edges, each of which occurs in both directions -/
def PartsOf (parts : List (List V2)) (ps : List V2) : Prop :=
  ∃ I : Multiset (V2 × V2), I.map Prod.swap = I ∧
    ((parts.flatMap polyEdges : List _) : Multiset _) = ((polyEdges ps : List _) : Multiset _) + I

theorem sum_swap (p : V2) (I : Multiset (V2 × V2)) (h : I.map Prod.swap = I) : (I.map (cr p)).sum = 0 := by
  have h1 : (I.map (cr p)).sum = -(I.map (cr p)).sum := by
    conv_lhs => rw [← h, Multiset.map_map]
    rw [← Multiset.sum_map_neg]
    congr 1
    apply Multiset.map_congr rfl
    intro e _
    exact cr_swap p e
  omega

theorem parts_sum (p : V2) (parts : List (List V2)) (ps : List V2) (h : PartsOf parts ps) :
    (parts.map fun q => ((polyEdges q).map (cr p)).sum).sum = ((polyEdges ps).map (cr p)).sum := by
  obtain ⟨I, hI, he⟩ := h
  have h1 := congrArg (fun s => (Multiset.map (cr p) s).sum) he
  simp only [Multiset.map_add, Multiset.sum_add, sum_swap p I hI, add_zero, Multiset.map_coe, Multiset.sum_coe] at h1
  rw [← h1]
  clear h1 he
  induction parts with
  | nil => rfl
  | cons q qs ih =>
    rw [List.flatMap_cons, List.map_append, List.sum_append, List.map_cons, List.sum_cons, ih]

/-- C138.  The counts of the parts of a polygon add up to the count of the polygon (modulo 2^64), wherever the point is. -/
theorem C138_parts (p : V2) (parts : List (List V2)) (ps : List V2) (h : PartsOf parts ps) (w : Nat) (f : List V2 → Nat)
    (hw : inPolygon p ps = some w) (hf : ∀ q ∈ parts, inPolygon p q = some (f q)) : (parts.map f).sum % 2 ^ 64 = w := by
  have e := inPolygon_some hw
  rw [← parts_sum p parts ps h] at e
  have : ∀ l : List (List V2), (∀ q ∈ l, inPolygon p q = some (f q)) →
      (((l.map f).sum : Nat) : Int) % 2 ^ 64 = (l.map fun q => ((polyEdges q).map (cr p)).sum).sum % 2 ^ 64 := by
    intro l
    induction l with
    | nil => intro _; rfl
    | cons q qs ih =>
      intro hl
      have h1 := ih (fun x hx => hl x (by simp [hx]))
      have h2 := inPolygon_some (hl q (by simp))
      rw [List.map_cons, List.sum_cons, List.map_cons, List.sum_cons, Nat.cast_add]
      clear e h hw ih
      generalize (List.map f qs).sum = S at *
      generalize (List.map (fun q => (List.map (cr p) (polyEdges q)).sum) qs).sum = S' at *
      generalize (List.map (cr p) (polyEdges q)).sum = s at *
      omega
  have := this parts hf
  omega

/-- triangles as polygons -/
def tris (Ts : List Tri) : List (List V2) := Ts.map fun T => [T.a, T.b, T.c]

theorem tris_count (p : V2) (Ts : List Tri) (f : Tri → Nat) (hcw : ∀ T ∈ Ts, T.Clockwise)
    (hf : ∀ T ∈ Ts, inPolygon p [T.a, T.b, T.c] = some (f T)) :
    ((tris Ts).map fun q => ((polyEdges q).map (cr p)).sum).sum = -((Ts.countP fun T => f T ≠ 0 : Nat) : Int) := by
  induction Ts with
  | nil => rfl
  | cons T Ts ih =>
    have ih := ih (fun S hS => hcw S (by simp [hS])) (fun S hS => hf S (by simp [hS]))
    have hT := inPolygon_some (hf T (by simp))
    have hc : area2 T.a T.b T.c < 0 := hcw T (by simp)
    unfold tris at *
    rw [List.map_cons, List.map_cons, List.sum_cons, ih, List.countP_cons]
    rw [tri_sum] at hT ⊢
    have hs := around_sign (rel p T.a) (rel p T.b) (rel p T.c) _ (area2_rel p T.a T.b T.c)
    by_cases h0 : f T = 0
    · have : around (rel p T.a) (rel p T.b) (rel p T.c) = 0 := by omega
      rw [this]
      simp [h0]
    · have : around (rel p T.a) (rel p T.b) (rel p T.c) = -1 := by omega
      rw [this]
      simp [h0]

/-- C138.  In a polygon cut into clockwise triangles, the number of triangles a point is in is minus the count of the
polygon: exactly one triangle for a point that `in_polygon` counts once, none for a point outside.  This includes points on
edges and vertices. -/
theorem C138_exactly_one (p : V2) (Ts : List Tri) (ps : List V2) (f : Tri → Nat) (w : Nat) (hcw : ∀ T ∈ Ts, T.Clockwise)
    (hparts : PartsOf (tris Ts) ps) (hlen : Ts.length < 2 ^ 64) (hf : ∀ T ∈ Ts, inPolygon p [T.a, T.b, T.c] = some (f T))
    (hw : inPolygon p ps = some w) :
    (Ts.countP fun T => f T ≠ 0) = (2 ^ 64 - w) % 2 ^ 64 := by
  have e := inPolygon_some hw
  rw [← parts_sum p _ ps hparts, tris_count p Ts f hcw hf] at e
  have hle : (Ts.countP fun T => f T ≠ 0) ≤ Ts.length := List.countP_le_length
  omega

/-- a square of two clockwise triangles, and a point on the edge they share -/
def T1 : Tri := ⟨⟨0, 0⟩, ⟨0, 2⟩, ⟨2, 2⟩⟩
/-- the other triangle -/
def T2 : Tri := ⟨⟨0, 0⟩, ⟨2, 2⟩, ⟨2, 0⟩⟩

/-- C138.  The two tests must not be mixed: the point on the shared edge is in one triangle by `in_polygon`, and in the
other by the triangle test. -/
theorem C138_same_triangle_false :
    inPolygon ⟨1, 1⟩ [T1.a, T1.b, T1.c] = some 0 ∧ inPolygon ⟨1, 1⟩ [T2.a, T2.b, T2.c] = some (2 ^ 64 - 1) ∧
    inTriangle ⟨1, 1⟩ T1.a T1.b T1.c = some true ∧ inTriangle ⟨1, 1⟩ T2.a T2.b T2.c = some false := by
  decide +kernel

theorem square_parts : PartsOf (tris [T1, T2]) [⟨0, 0⟩, ⟨0, 2⟩, ⟨2, 2⟩, ⟨2, 0⟩] :=
  ⟨{(⟨2, 2⟩, ⟨0, 0⟩), (⟨0, 0⟩, ⟨2, 2⟩)}, by decide +kernel, by decide +kernel⟩

/-- the hypotheses are met by the square; the corner at the origin is in one triangle, the opposite one in none -/
example : ([T1, T2].countP fun T => (inPolygon ⟨0, 0⟩ [T.a, T.b, T.c]).getD 0 ≠ 0) = 1 := by
  refine (C138_exactly_one ⟨0, 0⟩ [T1, T2] [⟨0, 0⟩, ⟨0, 2⟩, ⟨2, 2⟩, ⟨2, 0⟩]
    (fun T => (inPolygon ⟨0, 0⟩ [T.a, T.b, T.c]).getD 0) (2 ^ 64 - 1) ?_ square_parts (by decide) ?_ (by decide +kernel)).trans
    (by norm_num)
  · intro T hT
    simp only [List.mem_cons, List.not_mem_nil, or_false] at hT
    rcases hT with rfl | rfl <;> (unfold Tri.Clockwise; decide)
  · intro T hT
    simp only [List.mem_cons, List.not_mem_nil, or_false] at hT
    rcases hT with rfl | rfl <;> decide +kernel

example : inPolygon ⟨2, 2⟩ [T1.a, T1.b, T1.c] = some 0 ∧ inPolygon ⟨2, 2⟩ [T2.a, T2.b, T2.c] = some 0 := by decide +kernel

example : inTriangle (neg ⟨1, 1⟩) (neg T2.a) (neg T2.b) (neg T2.c) = some true := by decide +kernel

end CE.Vec
