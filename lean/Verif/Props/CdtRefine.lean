import Mathlib.Tactic.Ring
import Mathlib.Tactic.Linarith
import Mathlib.Tactic.LinearCombination
import Mathlib.Algebra.Order.Ring.Abs
import Verif.Model.CdtRefine
import Verif.Props.Cdt
/-!
# Where a point lies relative to a face, and collinearity (C101)
-/
namespace CE.Cdt

open CE.Vec (i64)

/-- `u`, `v`, `w` are weights of the corners of face `f` whose mean is the point -/
def Mesh.Mean (m : Mesh) (f : Nat) (px py u v w : Int) : Prop :=
  0 < u + v + w ∧
  (u + v + w) * px = u * m.x (m.corner f 0) + v * m.x (m.corner f 1) + w * m.x (m.corner f 2) ∧
  (u + v + w) * py = u * m.y (m.corner f 0) + v * m.y (m.corner f 1) + w * m.y (m.corner f 2)

/-- three points lie on one line -/
def OnLine (ax ay bx b_y cx cy : Int) : Prop :=
  ∃ l k n : Int, (l ≠ 0 ∨ k ≠ 0) ∧ l * ax + k * ay = n ∧ l * bx + k * b_y = n ∧ l * cx + k * cy = n

theorem i64_of {v : Int} (h : -2 ^ 63 ≤ v ∧ v < 2 ^ 63) : i64 v = some v := by
  unfold CE.Vec.i64
  exact if_pos h

theorem mul_i64 {a b : Int} (ha : -2 ^ 31 ≤ a ∧ a ≤ 2 ^ 31) (hb : -2 ^ 31 ≤ b ∧ b ≤ 2 ^ 31) : i64 (a * b) = some (a * b) := by
  apply i64_of
  have h := abs_mul a b
  have h1 : |a| ≤ 2 ^ 31 := abs_le.2 ha
  have h2 : |b| ≤ 2 ^ 31 := abs_le.2 hb
  have h3 : |a * b| ≤ 2 ^ 31 * 2 ^ 31 := by
    rw [h]; exact mul_le_mul h1 h2 (abs_nonneg _) (by norm_num)
  have := abs_le.1 h3
  constructor
  · linarith [this.1]
  · linarith [this.2]

theorem less64_of {a b c d : Int} (ha : -2 ^ 31 ≤ a ∧ a ≤ 2 ^ 31) (hb : -2 ^ 31 ≤ b ∧ b ≤ 2 ^ 31)
    (hc : -2 ^ 31 ≤ c ∧ c ≤ 2 ^ 31) (hd : -2 ^ 31 ≤ d ∧ d ≤ 2 ^ 31) : less64 a b c d = some (decide (a * d < b * c)) := by
  unfold less64
  rw [mul_i64 ha hd, mul_i64 hb hc]
  rfl

theorem sub_range {a b : Int} (ha : -32768 ≤ a ∧ a ≤ 32767) (hb : -2 ^ 30 ≤ b ∧ b ≤ 2 ^ 30) :
    -2 ^ 31 ≤ a - b ∧ a - b ≤ 2 ^ 31 := by omega

/-- in the triangle with corners `a`, `b`, `c` relative to the point, weights of mean zero are proportional to the
cross products -/
theorem mean_sign {ax ay bx b_y cx cy u v w : Int} (hs : 0 < u + v + w)
    (hA : ax * b_y - ay * bx + (bx * cy - b_y * cx) + (cx * ay - cy * ax) < 0)
    (hx : u * ax + v * bx + w * cx = 0) (hy : u * ay + v * b_y + w * cy = 0) :
    (bx * cy < b_y * cx ↔ 0 < u) ∧ (cx * ay < cy * ax ↔ 0 < v) ∧ (ax * b_y < ay * bx ↔ 0 < w) := by
  generalize hD : ax * b_y - ay * bx + (bx * cy - b_y * cx) + (cx * ay - cy * ax) = D at hA
  have key : ∀ {t c : Int}, t * D = (u + v + w) * c → (c < 0 ↔ 0 < t) := by
    intro t c h
    constructor
    · intro hc
      have : (u + v + w) * c < 0 := mul_neg_of_pos_of_neg hs hc
      by_contra hn
      have : 0 ≤ t * D := mul_nonneg_of_nonpos_of_nonpos (by omega) (by omega)
      omega
    · intro ht
      have : t * D < 0 := mul_neg_of_pos_of_neg ht hA
      by_contra hn
      have : 0 ≤ (u + v + w) * c := mul_nonneg (by omega) (by omega)
      omega
  have e1 : u * D = (u + v + w) * (bx * cy - b_y * cx) := by
    rw [← hD]; linear_combination (b_y - cy) * hx + (cx - bx) * hy
  have e2 : v * D = (u + v + w) * (cx * ay - cy * ax) := by
    rw [← hD]; linear_combination (cy - ay) * hx + (ax - cx) * hy
  have e3 : w * D = (u + v + w) * (ax * b_y - ay * bx) := by
    rw [← hD]; linear_combination (ay - b_y) * hx + (bx - ax) * hy
  have k1 := key e1
  have k2 := key e2
  have k3 := key e3
  omega

/-- The answer of `refine` for a face in use: node 3 of the face when the point is strictly inside, edge `j` when
only the weight of corner `j` is not positive, that is when the point is on or beyond the edge opposite corner `j` and strictly
on the inner side of the other two, and 0 otherwise. -/
theorem C101_refine {m : Mesh} {limit : Nat} (hm : Reach limit m) {f : Nat} (hf : Used m f) {px py : Int}
    (hx : -2 ^ 30 ≤ px ∧ px ≤ 2 ^ 30) (hy : -2 ^ 30 ≤ py ∧ py ≤ 2 ^ 30) {u v w : Int} (h : m.Mean f px py u v w) :
    m.refine px py (4 * f) = some (
      if 0 < u ∧ 0 < v ∧ 0 < w then 4 * f + 3
      else if 0 < u ∧ 0 < v then 4 * f + 2
      else if 0 < u ∧ 0 < w then 4 * f + 1
      else if 0 < v ∧ 0 < w then 4 * f
      else 0) := by
  obtain ⟨hs, e1, e2⟩ := h
  have hl := C71_linked hm
  obtain ⟨hc, hk⟩ := C72_clockwise hm
  have hA := hc f hf
  have r0 := hk _ (hl.vertex f 0 hf)
  have r1 := hk _ (hl.vertex f 1 hf)
  have r2 := hk _ (hl.vertex f 2 hf)
  unfold Mesh.area at hA
  unfold Mesh.corner at hA e1 e2 r0 r1 r2
  simp only [Nat.zero_mod, Nat.reduceMod] at hA e1 e2 r0 r1 r2
  unfold Mesh.refine
  have s0 := sub_range r0.1 hx
  have s1 := sub_range r0.2 hy
  have s2 := sub_range r1.1 hx
  have s3 := sub_range r1.2 hy
  have s4 := sub_range r2.1 hx
  have s5 := sub_range r2.2 hy
  generalize hax : m.x (m.p (4 * f + 0)) - px = ax at *
  generalize hay : m.y (m.p (4 * f + 0)) - py = ay at *
  generalize hbx : m.x (m.p (4 * f + 1)) - px = bx at *
  generalize hby : m.y (m.p (4 * f + 1)) - py = b_y at *
  generalize hcx : m.x (m.p (4 * f + 2)) - px = cx at *
  generalize hcy : m.y (m.p (4 * f + 2)) - py = cy at *
  have big : ∀ {t : Int}, -2 ^ 31 ≤ t ∧ t ≤ 2 ^ 31 → i64 t = some t := fun h => i64_of (by omega)
  rw [big s0, big s1, big s2, big s3, big s4, big s5]
  simp only [Option.bind_eq_bind, Option.bind_some]
  rw [less64_of s2 s3 s4 s5, less64_of s4 s5 s0 s1, less64_of s0 s1 s2 s3]
  simp only [Option.bind_some]
  obtain ⟨k1, k2, k3⟩ := mean_sign (ax := ax) (ay := ay) (bx := bx) (b_y := b_y) (cx := cx) (cy := cy) hs
    (by rw [← hax, ← hay, ← hbx, ← hby, ← hcx, ← hcy]; linarith)
    (by rw [← hax, ← hbx, ← hcx]; linarith) (by rw [← hay, ← hby, ← hcy]; linarith)
  simp only [k1, k2, k3]
  by_cases a : 0 < u <;> by_cases b : 0 < v <;> by_cases c : 0 < w <;> simp [a, b, c]

/-- There are such weights for every point. -/
theorem C101_weights {m : Mesh} {limit : Nat} (hm : Reach limit m) {f : Nat} (hf : Used m f) (px py : Int) :
    ∃ u v w, m.Mean f px py u v w := by
  have hA := (C72_clockwise hm).1 f hf
  unfold Mesh.area at hA
  unfold Mesh.Mean
  generalize m.x (m.corner f 0) = ax at *
  generalize m.y (m.corner f 0) = ay at *
  generalize m.x (m.corner f 1) = bx at *
  generalize m.y (m.corner f 1) = b_y at *
  generalize m.x (m.corner f 2) = cx at *
  generalize m.y (m.corner f 2) = cy at *
  refine ⟨-((bx - px) * (cy - py) - (b_y - py) * (cx - px)), -((cx - px) * (ay - py) - (cy - py) * (ax - px)),
    -((ax - px) * (b_y - py) - (ay - py) * (bx - px)), ?_, ?_, ?_⟩
  · linarith
  · ring
  · ring

/-- Points too far away overflow. -/
theorem C101_far_undefined :
    (reset ⟨4, fun _ => 0, fun _ => 0, fun _ => 0, fun _ => 0, fun _ => 0, fun _ => 0⟩).refine (2 ^ 32) (2 ^ 32) 24 = none := by
  decide +kernel

/-- `collinear` decides whether three points lie on one line. -/
theorem C101_collinear {ax ay bx b_y cx cy : Int} (h1 : -2 ^ 30 ≤ ax ∧ ax ≤ 2 ^ 30) (h2 : -2 ^ 30 ≤ ay ∧ ay ≤ 2 ^ 30)
    (h3 : -2 ^ 30 ≤ bx ∧ bx ≤ 2 ^ 30) (h4 : -2 ^ 30 ≤ b_y ∧ b_y ≤ 2 ^ 30) (h5 : -2 ^ 30 ≤ cx ∧ cx ≤ 2 ^ 30)
    (h6 : -2 ^ 30 ≤ cy ∧ cy ≤ 2 ^ 30) :
    ∃ r, collinear64 ax ay bx b_y cx cy = some r ∧ (r = true ↔ OnLine ax ay bx b_y cx cy) := by
  have s : ∀ {a b : Int}, -2 ^ 30 ≤ a ∧ a ≤ 2 ^ 30 → -2 ^ 30 ≤ b ∧ b ≤ 2 ^ 30 → -2 ^ 31 ≤ b - a ∧ b - a ≤ 2 ^ 31 := by
    intro a b ha hb; omega
  have big : ∀ {t : Int}, -2 ^ 31 ≤ t ∧ t ≤ 2 ^ 31 → i64 t = some t := fun h => i64_of (by omega)
  unfold collinear64 on64
  rw [big (s h1 h3), big (s h2 h4), big (s h1 h5), big (s h2 h6)]
  simp only [Option.bind_eq_bind, Option.bind_some]
  rw [mul_i64 (s h1 h3) (s h2 h6), mul_i64 (s h2 h4) (s h1 h5)]
  refine ⟨_, rfl, ?_⟩
  rw [decide_eq_true_iff]
  constructor
  · intro h
    by_cases hb : b_y - ay = 0 ∧ bx - ax = 0
    · by_cases hcc : cy - ay = 0 ∧ cx - ax = 0
      · exact ⟨1, 0, ax, Or.inl (by decide), by ring, by linarith, by linarith⟩
      · refine ⟨cy - ay, ax - cx, (cy - ay) * ax + (ax - cx) * ay, ?_, rfl, ?_, by ring⟩
        · omega
        · rw [show b_y = ay by omega, show bx = ax by omega]
    · refine ⟨b_y - ay, ax - bx, (b_y - ay) * ax + (ax - bx) * ay, ?_, rfl, by ring, ?_⟩
      · omega
      · linear_combination -h
  · rintro ⟨l, k, n, hlk, e1, e2, e3⟩
    have f1 : l * (bx - ax) = -(k * (b_y - ay)) := by linear_combination e2 - e1
    have f2 : l * (cx - ax) = -(k * (cy - ay)) := by linear_combination e3 - e1
    rcases hlk with hl | hk
    · apply mul_left_cancel₀ hl
      linear_combination (cy - ay) * f1 - (b_y - ay) * f2
    · apply mul_left_cancel₀ hk
      linear_combination -(cx - ax) * f1 + (bx - ax) * f2

example : Reach 100 sample0 ∧ Used sample0 6 ∧ sample0.Mean 6 (-16384) (-12768) 29151 20000 16384 ∧
    sample0.refine (-16384) (-12768) 24 = some 27 ∧ sample0.refine 0 (-40000) 24 = some 25 :=
  ⟨.reset _, by unfold Used; decide +kernel, by unfold Mesh.Mean; decide +kernel, by decide +kernel, by decide +kernel⟩

example : collinear64 0 0 2 4 (-3) (-6) = some true ∧ collinear64 0 0 2 4 (-3) (-5) = some false := by decide

end CE.Cdt
