import Verif.Model.Cdt
import Mathlib.Tactic.Linarith
import Mathlib.Tactic.Ring
import Mathlib.Tactic.Positivity
import Mathlib.Tactic.FieldSimp
import Mathlib.Data.Real.Basic
/-! Geometry of four points: the in-circle determinant. -/
namespace CE.Cdt

/-- twice the signed area -/
def tri {R} [Ring R] (ax ay bx b_y cx cy : R) : R := (bx - ax) * (cy - ay) - (b_y - ay) * (cx - ax)

/-- the determinant with rows `(x, y, x² + y², 1)`, expanded along the third column -/
def F (ax ay bx b_y cx cy dx dy : ℝ) : ℝ :=
  (ax * ax + ay * ay) * tri bx b_y cx cy dx dy - (bx * bx + b_y * b_y) * tri ax ay cx cy dx dy
    + (cx * cx + cy * cy) * tri ax ay bx b_y dx dy - (dx * dx + dy * dy) * tri ax ay bx b_y cx cy

/-- a coordinate of the square -/
def In (x : ℝ) : Prop := -1 ≤ x ∧ x ≤ 1
/-- a coordinate of a corner -/
def Co (x : ℝ) : Prop := x = -1 ∨ x = 1

theorem Co.in {x : ℝ} (h : Co x) : In x := by
  rcases h with h | h <;> rw [h] <;> constructor <;> norm_num
theorem Co.sq {x : ℝ} (h : Co x) : x * x = 1 := by
  rcases h with h | h <;> rw [h] <;> norm_num

theorem In.sq {x : ℝ} (h : In x) : x * x ≤ 1 := by nlinarith [h.1, h.2]

theorem mul_le_abs {x t : ℝ} (h : In x) : x * t ≤ |t| := by
  have h1 : |x| ≤ 1 := abs_le.2 h
  calc x * t ≤ |x * t| := le_abs_self _
    _ = |x| * |t| := abs_mul _ _
    _ ≤ 1 * |t| := mul_le_mul_of_nonneg_right h1 (abs_nonneg _)
    _ = |t| := one_mul _

theorem abs3 {a b c : ℝ} (ha : In a) (hb : In b) (hc : In c) : |b - c| + |c - a| + |a - b| ≤ 4 := by
  obtain ⟨a1, a2⟩ := ha; obtain ⟨b1, b2⟩ := hb; obtain ⟨c1, c2⟩ := hc
  rcases abs_cases (b - c) with ⟨h1, _⟩ | ⟨h1, _⟩ <;> rcases abs_cases (c - a) with ⟨h2, _⟩ | ⟨h2, _⟩ <;>
    rcases abs_cases (a - b) with ⟨h3, _⟩ | ⟨h3, _⟩ <;> rw [h1, h2, h3] <;> linarith

theorem tri_le {ax ay bx b_y cx cy : ℝ} (h1 : In ax) (h2 : In ay) (h3 : In bx) (h4 : In b_y) (h5 : In cx) (h6 : In cy) :
    tri ax ay bx b_y cx cy ≤ 4 := by
  have e : tri ax ay bx b_y cx cy = ax * (b_y - cy) + bx * (cy - ay) + cx * (ay - b_y) := by unfold tri; ring
  rw [e]
  have := abs3 h2 h4 h6
  have := mul_le_abs (t := b_y - cy) h1
  have := mul_le_abs (t := cy - ay) h3
  have := mul_le_abs (t := ay - b_y) h5
  linarith

theorem F_rot (ax ay bx b_y cx cy dx dy : ℝ) : F ax ay bx b_y cx cy dx dy = F ax ay cx cy dx dy bx b_y := by
  unfold F tri; ring
theorem F_rot' (ax ay bx b_y cx cy dx dy : ℝ) : F ax ay bx b_y cx cy dx dy = F bx b_y cx cy ax ay dx dy := by
  unfold F tri; ring
theorem F_sw (ax ay bx b_y cx cy dx dy : ℝ) : F ax ay bx b_y cx cy dx dy = F bx b_y ax ay dx dy cx cy := by
  unfold F tri; ring

theorem quad_corner {s L K x : ℝ} (hs : 0 ≤ s) (hx : In x) : ∃ c, Co c ∧ s * (x * x) + L * x + K ≤ s * (c * c) + L * c + K := by
  have h := hx.sq
  rcases le_total 0 L with hL | hL
  · refine ⟨1, Or.inr rfl, ?_⟩
    nlinarith [hx.1, hx.2, mul_le_mul_of_nonneg_left h hs, mul_le_mul_of_nonneg_left hx.2 hL]
  · refine ⟨-1, Or.inl rfl, ?_⟩
    nlinarith [hx.1, hx.2, mul_le_mul_of_nonneg_left h hs, mul_le_mul_of_nonpos_left hx.1 hL]

/-- a point whose weight is not negative can be moved to a corner -/
theorem move {ax ay bx b_y cx cy dx dy : ℝ} (hs : 0 ≤ tri bx b_y cx cy dx dy) (h1 : In ax) (h2 : In ay) :
    ∃ ux uy, Co ux ∧ Co uy ∧ F ax ay bx b_y cx cy dx dy ≤ F ux uy bx b_y cx cy dx dy := by
  obtain ⟨ux, hux, h⟩ := quad_corner (L := F 1 ay bx b_y cx cy dx dy - F 0 ay bx b_y cx cy dx dy - tri bx b_y cx cy dx dy)
    (K := F 0 ay bx b_y cx cy dx dy) hs h1
  obtain ⟨uy, huy, h'⟩ := quad_corner (L := F ux 1 bx b_y cx cy dx dy - F ux 0 bx b_y cx cy dx dy - tri bx b_y cx cy dx dy)
    (K := F ux 0 bx b_y cx cy dx dy) hs h2
  refine ⟨ux, uy, hux, huy, ?_⟩
  have e1 : ∀ x, F x ay bx b_y cx cy dx dy = tri bx b_y cx cy dx dy * (x * x) +
    (F 1 ay bx b_y cx cy dx dy - F 0 ay bx b_y cx cy dx dy - tri bx b_y cx cy dx dy) * x + F 0 ay bx b_y cx cy dx dy := by
    intro x; unfold F tri; ring
  have e2 : ∀ y, F ux y bx b_y cx cy dx dy = tri bx b_y cx cy dx dy * (y * y) +
    (F ux 1 bx b_y cx cy dx dy - F ux 0 bx b_y cx cy dx dy - tri bx b_y cx cy dx dy) * y + F ux 0 bx b_y cx cy dx dy := by
    intro y; unfold F tri; ring
  rw [← e1, ← e1] at h
  rw [← e2, ← e2] at h'
  exact h.trans h'

theorem tri_sum (ax ay bx b_y cx cy dx dy : ℝ) : tri bx b_y cx cy dx dy - tri ax ay cx cy dx dy + tri ax ay bx b_y dx dy
    - tri ax ay bx b_y cx cy = 0 := by unfold tri; ring

/-- with the squared distances measured from the corners -/
theorem F_two (ax ay bx b_y cx cy dx dy : ℝ) : F ax ay bx b_y cx cy dx dy =
    (ax * ax + ay * ay - 2) * tri bx b_y cx cy dx dy - (bx * bx + b_y * b_y - 2) * tri ax ay cx cy dx dy
    + (cx * cx + cy * cy - 2) * tri ax ay bx b_y dx dy - (dx * dx + dy * dy - 2) * tri ax ay bx b_y cx cy := by
  unfold F tri; ring

theorem m4 {ax ay bx b_y cx cy dx dy : ℝ} (h1 : Co ax) (h2 : Co ay) (h3 : Co bx) (h4 : Co b_y) (h5 : Co cx) (h6 : Co cy)
    (h7 : Co dx) (h8 : Co dy) : F ax ay bx b_y cx cy dx dy ≤ 8 := by
  rw [F_two, h1.sq, h2.sq, h3.sq, h4.sq, h5.sq, h6.sq, h7.sq, h8.sq]; norm_num

theorem m3 {ax ay bx b_y cx cy dx dy : ℝ} (h1 : Co ax) (h2 : Co ay) (h3 : Co bx) (h4 : Co b_y) (h5 : Co cx) (h6 : Co cy)
    (h7 : In dx) (h8 : In dy) : F ax ay bx b_y cx cy dx dy ≤ 8 := by
  have e : F ax ay bx b_y cx cy dx dy = F dx dy cx cy bx b_y ax ay := by unfold F tri; ring
  rcases le_total 0 (tri cx cy bx b_y ax ay) with hs | hs
  · obtain ⟨ux, uy, a, b, h⟩ := move hs h7 h8
    rw [e]
    exact h.trans (m4 a b h5 h6 h3 h4 h1 h2)
  · rw [F_two, h1.sq, h2.sq, h3.sq, h4.sq, h5.sq, h6.sq]
    have e2 : tri ax ay bx b_y cx cy = - tri cx cy bx b_y ax ay := by unfold tri; ring
    have := tri_le h1.in h2.in h3.in h4.in h5.in h6.in
    have p0 : 0 ≤ tri ax ay bx b_y cx cy := by rw [e2]; linarith
    nlinarith [h7.sq, h8.sq, mul_self_nonneg dx, mul_self_nonneg dy]

theorem sum_prod {a b : ℝ} (ha : 0 ≤ a) (ha2 : a ≤ 2) (hb : 0 ≤ b) (hb2 : b ≤ 2) : (a + b) * (4 - a * b) ≤ 8 := by
  rcases le_total (a + b) 2 with h | h
  · nlinarith [mul_nonneg ha hb, mul_nonneg (mul_nonneg ha hb) (add_nonneg ha hb)]
  · have h1 : 2 * (a + b) - 4 ≤ a * b := by nlinarith [mul_nonneg (sub_nonneg.2 ha2) (sub_nonneg.2 hb2)]
    have h2 : (a + b) * (4 - a * b) ≤ (a + b) * (8 - 2 * (a + b)) := by
      apply mul_le_mul_of_nonneg_left _ (add_nonneg ha hb); linarith
    nlinarith [sq_nonneg (a + b - 2)]

/-- two corners and two points of negative weight -/
theorem two {ax ay bx b_y cx cy dx dy : ℝ} (h1 : Co ax) (h2 : Co ay) (h3 : Co bx) (h4 : Co b_y) (h5 : In cx) (h6 : In cy)
    (h7 : In dx) (h8 : In dy) (hc : tri ax ay bx b_y dx dy ≤ 0) (hd : 0 ≤ tri ax ay bx b_y cx cy) :
    F ax ay bx b_y cx cy dx dy ≤ 8 := by
  rw [F_two, h1.sq, h2.sq, h3.sq, h4.sq]
  have tc := tri_le h1.in h2.in h3.in h4.in h5 h6
  have td : -4 ≤ tri ax ay bx b_y dx dy := by
    have := tri_le h3.in h4.in h1.in h2.in h7 h8
    have e : tri ax ay bx b_y dx dy = - tri bx b_y ax ay dx dy := by unfold tri; ring
    linarith
  have := h5.sq; have := h6.sq; have := h7.sq; have := h8.sq
  -- bound by one weight being zero
  have one : (tri ax ay bx b_y dx dy = 0 ∨ tri ax ay bx b_y cx cy = 0) →
      (1 + 1 - 2) * tri bx b_y cx cy dx dy - (1 + 1 - 2) * tri ax ay cx cy dx dy
    + (cx * cx + cy * cy - 2) * tri ax ay bx b_y dx dy - (dx * dx + dy * dy - 2) * tri ax ay bx b_y cx cy ≤ 8 := by
    rintro (h | h) <;> rw [h] <;> nlinarith [mul_self_nonneg cx, mul_self_nonneg cy, mul_self_nonneg dx, mul_self_nonneg dy]
  have opp : ∀ (u v : ℝ), 0 ≤ u → u ≤ 2 → 0 ≤ v → v ≤ 2 → u * u ≤ 2 * (cx * cx + cy * cy) → v * v ≤ 2 * (dx * dx + dy * dy) →
      tri ax ay bx b_y dx dy = - 2 * v → tri ax ay bx b_y cx cy = 2 * u → 
      (1 + 1 - 2) * tri bx b_y cx cy dx dy - (1 + 1 - 2) * tri ax ay cx cy dx dy
    + (cx * cx + cy * cy - 2) * tri ax ay bx b_y dx dy - (dx * dx + dy * dy - 2) * tri ax ay bx b_y cx cy ≤ 8 := by
    intro u v hu hu2 hv hv2 hcc hdd e1 e2
    rw [e1, e2]
    have := sum_prod hu hu2 hv hv2
    nlinarith [mul_le_mul_of_nonneg_left hcc hv, mul_le_mul_of_nonneg_left hdd hu]
  obtain ⟨c1, c2⟩ := h5; obtain ⟨c3, c4⟩ := h6; obtain ⟨d1, d2⟩ := h7; obtain ⟨d3, d4⟩ := h8
  rcases h1 with h1 | h1 <;> rcases h2 with h2 | h2 <;> rcases h3 with h3 | h3 <;> rcases h4 with h4 | h4 <;>
    subst h1 h2 h3 h4 <;> unfold tri at hc hd one opp <;> norm_num at hc hd
  all_goals first
    | exact one (Or.inl (by linarith))
    | exact one (Or.inr (by linarith))
    | exact opp (cy - cx) (dx - dy) (by linarith) (by linarith) (by linarith) (by linarith) (by nlinarith [sq_nonneg (cx + cy)]) (by nlinarith [sq_nonneg (dx + dy)]) (by ring) (by ring)
    | exact opp (cx - cy) (dy - dx) (by linarith) (by linarith) (by linarith) (by linarith) (by nlinarith [sq_nonneg (cx + cy)]) (by nlinarith [sq_nonneg (dx + dy)]) (by ring) (by ring)
    | exact opp (cy + cx) (-dx - dy) (by linarith) (by linarith) (by linarith) (by linarith) (by nlinarith [sq_nonneg (cx - cy)]) (by nlinarith [sq_nonneg (dx - dy)]) (by ring) (by ring)
    | exact opp (-cx - cy) (dy + dx) (by linarith) (by linarith) (by linarith) (by linarith) (by nlinarith [sq_nonneg (cx - cy)]) (by nlinarith [sq_nonneg (dx - dy)]) (by ring) (by ring)

theorem m2 {ax ay bx b_y cx cy dx dy : ℝ} (h1 : Co ax) (h2 : Co ay) (h3 : Co bx) (h4 : Co b_y) (h5 : In cx) (h6 : In cy)
    (h7 : In dx) (h8 : In dy) : F ax ay bx b_y cx cy dx dy ≤ 8 := by
  rcases le_total 0 (tri ax ay bx b_y dx dy) with hs | hs
  · obtain ⟨ux, uy, a, b, h⟩ := move hs h5 h6
    have e : ∀ x y, F ax ay bx b_y x y dx dy = F x y ax ay bx b_y dx dy := by intro x y; unfold F tri; ring
    rw [e]
    refine h.trans ?_
    rw [← e]
    exact m3 h1 h2 h3 h4 a b h7 h8
  · rcases le_total 0 (tri ax ay bx b_y cx cy) with hd | hd
    · exact two h1 h2 h3 h4 h5 h6 h7 h8 hs hd
    · have hs' : 0 ≤ tri bx b_y ax ay cx cy := by
        have e : tri bx b_y ax ay cx cy = - tri ax ay bx b_y cx cy := by unfold tri; ring
        linarith
      obtain ⟨ux, uy, a, b, h⟩ := move hs' h7 h8
      have e : ∀ x y, F ax ay bx b_y cx cy x y = F x y bx b_y ax ay cx cy := by intro x y; unfold F tri; ring
      rw [e]
      refine h.trans ?_
      have e : ∀ x y, F x y bx b_y ax ay cx cy = F bx b_y ax ay x y cx cy := by intro x y; unfold F tri; ring
      rw [e]
      exact m3 h3 h4 h1 h2 a b h5 h6

theorem m1 {ax ay bx b_y cx cy dx dy : ℝ} (h1 : Co ax) (h2 : Co ay) (h3 : In bx) (h4 : In b_y) (h5 : In cx) (h6 : In cy)
    (h7 : In dx) (h8 : In dy) : F ax ay bx b_y cx cy dx dy ≤ 8 := by
  -- moving the second point
  have key : ∀ {bx b_y cx cy dx dy : ℝ}, In bx → In b_y → In cx → In cy → In dx → In dy → tri ax ay cx cy dx dy ≤ 0 →
      F ax ay bx b_y cx cy dx dy ≤ 8 := by
    intro bx b_y cx cy dx dy h3 h4 h5 h6 h7 h8 hs
    have hs' : 0 ≤ tri cx cy ax ay dx dy := by
      have e : tri cx cy ax ay dx dy = - tri ax ay cx cy dx dy := by unfold tri; ring
      linarith
    obtain ⟨ux, uy, a, b, h⟩ := move hs' h3 h4
    have e : ∀ x y, F ax ay x y cx cy dx dy = F x y cx cy ax ay dx dy := by intro x y; unfold F tri; ring
    rw [e]
    refine h.trans ?_
    rw [← e]
    exact m2 h1 h2 a b h5 h6 h7 h8
  rcases le_total (tri ax ay cx cy dx dy) 0 with hb | hb
  · exact key h3 h4 h5 h6 h7 h8 hb
  rcases le_total (tri ax ay dx dy bx b_y) 0 with hc | hc
  · rw [F_rot]; exact key h5 h6 h7 h8 h3 h4 hc
  rcases le_total (tri ax ay bx b_y cx cy) 0 with hd | hd
  · rw [F_rot, F_rot]; exact key h7 h8 h3 h4 h5 h6 hd
  have hs := tri_sum ax ay bx b_y cx cy dx dy
  have e : tri ax ay dx dy bx b_y = - tri ax ay bx b_y dx dy := by unfold tri; ring
  have ht := tri_le h3 h4 h5 h6 h7 h8
  rw [F_two, h1.sq, h2.sq]
  nlinarith [mul_nonneg hb (mul_self_nonneg bx), mul_nonneg hb (mul_self_nonneg b_y), mul_nonneg hc (mul_self_nonneg cx),
    mul_nonneg hc (mul_self_nonneg cy), mul_nonneg hd (mul_self_nonneg dx), mul_nonneg hd (mul_self_nonneg dy)]

/-- the determinant of four points of the square `[-1, 1]²` is at most 8 -/
theorem F_le {ax ay bx b_y cx cy dx dy : ℝ} (h1 : In ax) (h2 : In ay) (h3 : In bx) (h4 : In b_y) (h5 : In cx) (h6 : In cy)
    (h7 : In dx) (h8 : In dy) : F ax ay bx b_y cx cy dx dy ≤ 8 := by
  have key : ∀ {ax ay bx b_y cx cy dx dy : ℝ}, In ax → In ay → In bx → In b_y → In cx → In cy → In dx → In dy →
      0 ≤ tri bx b_y cx cy dx dy → F ax ay bx b_y cx cy dx dy ≤ 8 := by
    intro ax ay bx b_y cx cy dx dy h1 h2 h3 h4 h5 h6 h7 h8 hs
    obtain ⟨ux, uy, a, b, h⟩ := move hs h1 h2
    exact h.trans (m1 a b h3 h4 h5 h6 h7 h8)
  rcases le_total 0 (tri bx b_y cx cy dx dy) with ha | ha
  · exact key h1 h2 h3 h4 h5 h6 h7 h8 ha
  rcases le_total 0 (tri cx cy ax ay dx dy) with hb | hb
  · rw [F_rot']; exact key h3 h4 h5 h6 h1 h2 h7 h8 hb
  rcases le_total 0 (tri ax ay bx b_y dx dy) with hc | hc
  · rw [F_rot', F_rot']; exact key h5 h6 h1 h2 h3 h4 h7 h8 hc
  have hs := tri_sum ax ay bx b_y cx cy dx dy
  have e : tri cx cy ax ay dx dy = - tri ax ay cx cy dx dy := by unfold tri; ring
  have e2 : tri cx cy bx b_y ax ay = - tri ax ay bx b_y cx cy := by unfold tri; ring
  have e3 : F ax ay bx b_y cx cy dx dy = F dx dy cx cy bx b_y ax ay := by unfold F tri; ring
  rw [e3]
  exact key h7 h8 h5 h6 h3 h4 h1 h2 (by linarith)

/-- the in-circle determinant over the integers -/
def detE (ax ay bx b_y cx cy : ℤ) : ℤ :=
  (ax * ax + ay * ay) * (bx * cy - b_y * cx) + (bx * bx + b_y * b_y) * (cx * ay - cy * ax)
    + (cx * cx + cy * cy) * (ax * b_y - ay * bx)

/-- a 16-bit coordinate -/
def Is16 (x : ℤ) : Prop := -32768 ≤ x ∧ x ≤ 32767

/-- scaled to the square `[-1, 1]²` -/
noncomputable def sc (x : ℤ) : ℝ := (2 * x + 1) / 65535

theorem sc_in {x : ℤ} (h : Is16 x) : In (sc x) := by
  unfold In sc
  have h1 : (-32768 : ℝ) ≤ x := by exact_mod_cast h.1
  have h2 : (x : ℝ) ≤ 32767 := by exact_mod_cast h.2
  constructor
  · rw [le_div_iff₀ (by norm_num)]; linarith
  · rw [div_le_iff₀ (by norm_num)]; linarith

theorem det_F (ax ay bx b_y cx cy dx dy : ℤ) :
    ((detE (ax - dx) (ay - dy) (bx - dx) (b_y - dy) (cx - dx) (cy - dy) : ℤ) : ℝ) =
      F (sc ax) (sc ay) (sc bx) (sc b_y) (sc cx) (sc cy) (sc dx) (sc dy) * (65535 ^ 4 / 16) := by
  unfold detE F sc tri
  push_cast
  ring

/-- the determinant itself always fits 64 bits -/
theorem detE_le {ax ay bx b_y cx cy dx dy : ℤ} (h1 : Is16 ax) (h2 : Is16 ay) (h3 : Is16 bx) (h4 : Is16 b_y) (h5 : Is16 cx)
    (h6 : Is16 cy) (h7 : Is16 dx) (h8 : Is16 dy) :
    |detE (ax - dx) (ay - dy) (bx - dx) (b_y - dy) (cx - dx) (cy - dy)| * 2 ≤ 65535 ^ 4 := by
  have key : ∀ {ax ay bx b_y cx cy dx dy : ℤ}, Is16 ax → Is16 ay → Is16 bx → Is16 b_y → Is16 cx → Is16 cy → Is16 dx →
      Is16 dy → detE (ax - dx) (ay - dy) (bx - dx) (b_y - dy) (cx - dx) (cy - dy) * 2 ≤ 65535 ^ 4 := by
    intro ax ay bx b_y cx cy dx dy h1 h2 h3 h4 h5 h6 h7 h8
    have h := F_le (sc_in h1) (sc_in h2) (sc_in h3) (sc_in h4) (sc_in h5) (sc_in h6) (sc_in h7) (sc_in h8)
    have e := det_F ax ay bx b_y cx cy dx dy
    have : ((detE (ax - dx) (ay - dy) (bx - dx) (b_y - dy) (cx - dx) (cy - dy) : ℤ) : ℝ) * 2 ≤ 65535 ^ 4 := by
      rw [e]; nlinarith
    exact_mod_cast this
  have e : detE (bx - dx) (b_y - dy) (ax - dx) (ay - dy) (cx - dx) (cy - dy) =
      - detE (ax - dx) (ay - dy) (bx - dx) (b_y - dy) (cx - dx) (cy - dy) := by unfold detE; ring
  have a := key h1 h2 h3 h4 h5 h6 h7 h8
  have b := key h3 h4 h1 h2 h5 h6 h7 h8
  rw [e] at b
  rcases abs_cases (detE (ax - dx) (ay - dy) (bx - dx) (b_y - dy) (cx - dx) (cy - dy)) with ⟨h, _⟩ | ⟨h, _⟩ <;> rw [h] <;>
    linarith

theorem w64_sum (a b c : ℤ) : w64 (w64 (w64 a + w64 b) + w64 c) = w64 (a + b + c) := by
  unfold w64; omega

theorem w64_eq {a : ℤ} (h : |a| * 2 ≤ 65535 ^ 4) : w64 a = a := by
  unfold w64
  rcases abs_cases a with ⟨h', _⟩ | ⟨h', _⟩ <;> rw [h'] at h <;> norm_num at h <;> omega

/-- the code's sum is the determinant -/
theorem incircleSum_eq {ax ay bx b_y cx cy dx dy : ℤ} (h1 : Is16 ax) (h2 : Is16 ay) (h3 : Is16 bx) (h4 : Is16 b_y)
    (h5 : Is16 cx) (h6 : Is16 cy) (h7 : Is16 dx) (h8 : Is16 dy) :
    incircleSum (ax - dx) (ay - dy) (bx - dx) (b_y - dy) (cx - dx) (cy - dy) =
      detE (ax - dx) (ay - dy) (bx - dx) (b_y - dy) (cx - dx) (cy - dy) := by
  unfold incircleSum
  simp only
  rw [w64_sum]
  exact w64_eq (detE_le h1 h2 h3 h4 h5 h6 h7 h8)

/-! ## flipping a convex quadrilateral -/

/-- `|X b - Z c|²` completes the square -/
theorem form_nonneg {X Y Z bx b_y cx cy : ℤ} (hX : 0 < X) (h : Z * Z ≤ X * Y) :
    0 ≤ X * (bx * bx + b_y * b_y) - 2 * Z * (bx * cx + b_y * cy) + Y * (cx * cx + cy * cy) := by
  have : 0 ≤ X * (X * (bx * bx + b_y * b_y) - 2 * Z * (bx * cx + b_y * cy) + Y * (cx * cx + cy * cy)) := by
    nlinarith [mul_self_nonneg (X * bx - Z * cx), mul_self_nonneg (X * b_y - Z * cy),
      mul_nonneg (sub_nonneg.2 h) (mul_self_nonneg cx), mul_nonneg (sub_nonneg.2 h) (mul_self_nonneg cy)]
  exact nonneg_of_mul_nonneg_right this hX

theorem det_form (ax ay bx b_y cx cy : ℤ) :
    (bx * cy - b_y * cx) * detE ax ay bx b_y cx cy =
      (-(cx * ay - cy * ax)) * (-(cx * ay - cy * ax) - (bx * cy - b_y * cx)) * (bx * bx + b_y * b_y)
      - 2 * ((-(cx * ay - cy * ax)) * (ax * b_y - ay * bx)) * (bx * cx + b_y * cy)
      + (ax * b_y - ay * bx) * ((ax * b_y - ay * bx) + (bx * cy - b_y * cx)) * (cx * cx + cy * cy) := by
  unfold detE; ring

/-- a point beyond edge BC of a clockwise triangle ABC and inside its circle sees a convex quadrilateral -/
theorem convex {ax ay bx b_y cx cy : ℤ} (hr : 0 < bx * cy - b_y * cx)
    (hcw : (bx * cy - b_y * cx) + (cx * ay - cy * ax) + (ax * b_y - ay * bx) < 0) (hE : detE ax ay bx b_y cx cy < 0) :
    cx * ay - cy * ax < 0 ∧ ax * b_y - ay * bx < 0 := by
  have hf := det_form ax ay bx b_y cx cy
  have hneg : (bx * cy - b_y * cx) * detE ax ay bx b_y cx cy < 0 := mul_neg_of_pos_of_neg hr hE
  rw [hf] at hneg
  generalize hr' : bx * cy - b_y * cx = r at *
  generalize hp' : cx * ay - cy * ax = p at *
  generalize hq' : ax * b_y - ay * bx = q at *
  constructor
  · by_contra hp
    push Not at hp
    have hq : q < 0 := by linarith
    have := form_nonneg (X := q * (q + r)) (Y := (-p) * (-p - r)) (Z := (-p) * q) (bx := cx) (b_y := cy) (cx := bx) (cy := b_y)
      (mul_pos_of_neg_of_neg hq (by linarith)) (by nlinarith [mul_nonneg (mul_nonneg hp (by linarith : (0:ℤ) ≤ -q)) (mul_nonneg hr.le (by linarith : (0:ℤ) ≤ -(q + r + p)))])
    linarith [this, mul_comm cx bx, mul_comm cy b_y]
  · by_contra hq
    push Not at hq
    have hp : p < 0 := by linarith
    have := form_nonneg (X := (-p) * (-p - r)) (Y := q * (q + r)) (Z := (-p) * q) (bx := bx) (b_y := b_y) (cx := cx) (cy := cy)
      (mul_pos (by linarith) (by linarith)) (by nlinarith [mul_nonneg (mul_nonneg hq (by linarith : (0:ℤ) ≤ -p)) (mul_nonneg hr.le (by linarith : (0:ℤ) ≤ -(q + r + p)))])
    linarith

end CE.Cdt
