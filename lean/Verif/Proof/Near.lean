import Verif.Spec.Near
import Mathlib.Tactic.LinearCombination
import Mathlib.Tactic.NormNum
import Mathlib.Tactic.Linarith
import Mathlib.Tactic.FieldSimp
import Mathlib.Algebra.Order.Archimedean.Real.Basic
import Mathlib.Data.Fintype.Pigeonhole
import Mathlib.Data.Set.Finite.Basic
/-! Edges with an empty circle, from the tiling and the empty circles of the faces. -/
namespace CE.Cdt

variable {m : Mesh}

theorem Mesh.Joined.symm {u v} (h : m.Joined u v) : m.Joined v u := by
  obtain ⟨f, j, U, hj, h⟩ := h
  exact ⟨f, j, U, hj, h.symm⟩

theorem dist2_comm (m : Mesh) (u v : Nat) : m.dist2 u v = m.dist2 v u := by unfold Mesh.dist2; ring

theorem dist2_pos (T : Tiling m) {u v} (hu : u < m.size) (hv : v < m.size) (ne : u ≠ v) : 0 < m.dist2 u v := by
  unfold Mesh.dist2
  by_contra h
  have h1 := sq_nonneg (m.x u - m.x v)
  have h2 := sq_nonneg (m.y u - m.y v)
  have e1 : m.x u - m.x v = 0 := by
    have : (m.x u - m.x v) ^ 2 = 0 := by omega
    exact pow_eq_zero_iff (by omega) |>.1 this
  have e2 : m.y u - m.y v = 0 := by
    have : (m.y u - m.y v) ^ 2 = 0 := by omega
    exact pow_eq_zero_iff (by omega) |>.1 this
  exact ne (T.once u v hu hv (by omega) (by omega))

/-- the sides of a face are affine functions -/
theorem sideQ_mix (m : Mesh) (f j : Nat) (x y x' y' t : ℚ) :
    m.sideQ f j (x + t * (x' - x)) (y + t * (y' - y)) = (1 - t) * m.sideQ f j x y + t * m.sideQ f j x' y' := by
  unfold Mesh.sideQ; ring

/-- from every vertex towards every other vertex one starts within a face that has the vertex as a corner -/
theorem start_face (T : Tiling m) (C : Coords m) {u v} (hu : u < m.size) (hv : v < m.size) :
    ∃ f, Used m f ∧ m.Within f (m.x u) (m.y u) ∧ ∃ t : ℚ, 0 < t ∧
      m.Within f (m.x u + t * (m.x v - m.x u)) (m.y u + t * (m.y v - m.y u)) := by
  have cu := C u hu
  have cv := C v hv
  have ux : (-32768 : ℚ) ≤ m.x u ∧ (m.x u : ℚ) ≤ 32767 := by exact_mod_cast cu.1
  have uy : (-32768 : ℚ) ≤ m.y u ∧ (m.y u : ℚ) ≤ 32767 := by exact_mod_cast cu.2
  have vx : (-32768 : ℚ) ≤ m.x v ∧ (m.x v : ℚ) ≤ 32767 := by exact_mod_cast cv.1
  have vy : (-32768 : ℚ) ≤ m.y v ∧ (m.y v : ℚ) ≤ 32767 := by exact_mod_cast cv.2
  have pos : ∀ n : ℕ, (0 : ℚ) < 1 / ((n : ℚ) + 1) := fun n => by positivity
  have le1 : ∀ n : ℕ, (1 : ℚ) / ((n : ℚ) + 1) ≤ 1 := fun n => by
    rw [div_le_one (by positivity)]
    have : (0 : ℚ) ≤ n := by positivity
    linarith
  have bd : ∀ {a b t : ℚ}, 0 < t → t ≤ 1 → -32768 ≤ a ∧ a ≤ 32767 → -32768 ≤ b ∧ b ≤ 32767 →
      -32768 ≤ a + t * (b - a) ∧ a + t * (b - a) ≤ 32767 := by
    intro a b t t0 t1 ha hb
    constructor <;> nlinarith [mul_nonneg t0.le (sub_nonneg.2 hb.1), mul_nonneg t0.le (sub_nonneg.2 hb.2),
      mul_nonneg (sub_nonneg.2 t1) (sub_nonneg.2 ha.1), mul_nonneg (sub_nonneg.2 t1) (sub_nonneg.2 ha.2)]
  have pick : ∀ n : ℕ, ∃ f : Fin (2 * m.size), Used m f ∧
      m.Within f (m.x u + 1 / ((n : ℚ) + 1) * (m.x v - m.x u)) (m.y u + 1 / ((n : ℚ) + 1) * (m.y v - m.y u)) := by
    intro n
    obtain ⟨f, U, W⟩ := T.cover _ _ (bd (pos n) (le1 n) ux vx).1 (bd (pos n) (le1 n) ux vx).2
      (bd (pos n) (le1 n) uy vy).1 (bd (pos n) (le1 n) uy vy).2
    exact ⟨⟨f, U.2⟩, U, W⟩
  choose F FU FW using pick
  obtain ⟨f, inf⟩ := Finite.exists_infinite_fiber F
  have often : ∀ N : ℕ, ∃ n, N ≤ n ∧ F n = f := by
    intro N
    by_contra h
    push Not at h
    have sub : F ⁻¹' {f} ⊆ {n | n < N} := fun n hn => by
      by_contra hh
      exact h n (by simpa using hh) hn
    exact (Set.infinite_coe_iff.1 inf) ((Set.finite_lt_nat N).subset sub)
  obtain ⟨n0, -, e0⟩ := often 0
  refine ⟨f, e0 ▸ FU n0, ?_, _, pos n0, e0 ▸ FW n0⟩
  intro j hj
  by_contra h
  push Not at h
  obtain ⟨N, hN⟩ := exists_nat_gt ((m.sideQ f j (m.x u) (m.y u) - m.sideQ f j (m.x v) (m.y v)) / m.sideQ f j (m.x u) (m.y u))
  obtain ⟨n, hn, e⟩ := often N
  have W := FW n j hj
  rw [e, sideQ_mix] at W
  set A := m.sideQ f j (m.x u) (m.y u)
  set B := m.sideQ f j (m.x v) (m.y v)
  rw [div_lt_iff₀ h] at hN
  have hn' : (N : ℚ) ≤ n := by exact_mod_cast hn
  have k : (0 : ℚ) < (n : ℚ) + 1 := by positivity
  have e' : (1 - 1 / ((n : ℚ) + 1)) * A + 1 / ((n : ℚ) + 1) * B = (n * A + B) / (n + 1) := by field_simp; ring
  rw [e', div_le_iff₀ k] at W
  nlinarith

/-- the face at `u` in the direction of `v`: its other corners `a` and `b`, with `v - u` a non-negative combination of
`a - u` and `b - u`, and `v` not strictly inside its circle -/
theorem wedge (T : Tiling m) (C : Coords m) (W : Clockwise m) (L : Linked m) (D : Delaunay m) {u v} (hu : u < m.size) (hv : v < m.size) :
    ∃ f j, Used m f ∧ j < 3 ∧ m.corner f j = u ∧ ∃ a b, a = m.corner f (j + 1) ∧ b = m.corner f (j + 2) ∧ a < m.size ∧ b < m.size ∧
      0 < (m.x b - m.x u) * (m.y a - m.y u) - (m.y b - m.y u) * (m.x a - m.x u) ∧
      0 ≤ (m.x v - m.x u) * (m.y a - m.y u) - (m.y v - m.y u) * (m.x a - m.x u) ∧
      0 ≤ (m.x b - m.x u) * (m.y v - m.y u) - (m.y b - m.y u) * (m.x v - m.x u) ∧
      ((m.x b - m.x u) * (m.y v - m.y u) - (m.y b - m.y u) * (m.x v - m.x u)) * m.dist2 a u +
      ((m.x v - m.x u) * (m.y a - m.y u) - (m.y v - m.y u) * (m.x a - m.x u)) * m.dist2 b u ≤
        ((m.x b - m.x u) * (m.y a - m.y u) - (m.y b - m.y u) * (m.x a - m.x u)) * m.dist2 v u := by
  obtain ⟨f, U, w0, t, t0, w1⟩ := start_face T C hu hv
  obtain ⟨j, hj, rfl⟩ := T.meet f u U hu w0
  refine ⟨f, j, U, hj, rfl, _, _, rfl, rfl, L.vertex _ _ U, L.vertex _ _ U, ?_, ?_, ?_, ?_⟩
  · have := W f U
    unfold Mesh.area at this
    have h : j = 0 ∨ j = 1 ∨ j = 2 := by omega
    unfold Mesh.corner at *
    rcases h with rfl | rfl | rfl <;> norm_num at * <;> linarith
  · have := w1 j hj
    unfold Mesh.sideQ at this
    have : 0 ≤ t * ((m.x v - m.x (m.corner f j) : ℚ) * (m.y (m.corner f (j + 1)) - m.y (m.corner f j)) -
      (m.y v - m.y (m.corner f j)) * (m.x (m.corner f (j + 1)) - m.x (m.corner f j))) := by linarith
    have := nonneg_of_mul_nonneg_right this t0
    exact_mod_cast this
  · have := w1 ((j + 2) % 3) (by omega)
    unfold Mesh.sideQ at this
    have e1 : m.corner f ((j + 2) % 3) = m.corner f (j + 2) := by unfold Mesh.corner; congr 2; omega
    have e2 : m.corner f ((j + 2) % 3 + 1) = m.corner f j := by unfold Mesh.corner; congr 2; omega
    rw [e1, e2] at this
    have : 0 ≤ t * ((m.x (m.corner f (j + 2)) - m.x (m.corner f j) : ℚ) * (m.y v - m.y (m.corner f j)) -
      (m.y (m.corner f (j + 2)) - m.y (m.corner f j)) * (m.x v - m.x (m.corner f j))) := by linarith
    have := nonneg_of_mul_nonneg_right this t0
    exact_mod_cast this
  · have := D f v U hv
    unfold Mesh.circle circleDet at this
    have h : j = 0 ∨ j = 1 ∨ j = 2 := by omega
    unfold Mesh.dist2 
    unfold Mesh.corner at *
    rcases h with rfl | rfl | rfl <;> norm_num at * <;> linarith

/-- two vertices on a circle that all other vertices are strictly outside of are joined -/
theorem joined_of_circle (T : Tiling m) (C : Coords m) (W : Clockwise m) (L : Linked m) (D : Delaunay m) {u v} (hu : u < m.size)
    (hv : v < m.size) (ne : u ≠ v) {cx cy : ℝ} (on : m.from2 cx cy u = m.from2 cx cy v)
    (out : ∀ w, w < m.size → w ≠ u → w ≠ v → m.from2 cx cy u < m.from2 cx cy w) : m.Joined u v := by
  obtain ⟨f, j, U, hj, hc, a, b, ea, eb, ha, hb, h1, h2, h3, h4⟩ := wedge T C W L D hu hv
  by_cases av : a = v
  · exact ⟨f, j, U, hj, .inl ⟨hc, by rw [← ea, av]⟩⟩
  by_cases bv : b = v
  · refine ⟨f, (j + 2) % 3, U, by omega, .inr ⟨?_, ?_⟩⟩
    · rw [← bv, eb]; unfold Mesh.corner; congr 2; omega
    · rw [← hc]; unfold Mesh.corner; congr 2; omega
  exfalso
  have au : a ≠ u := by rintro rfl; simp at h1
  have bu : b ≠ u := by rintro rfl; simp at h1
  have oa := out a ha au av
  have ob := out b hb bu bv
  unfold Mesh.from2 at on oa ob
  unfold Mesh.dist2 at h4
  have h1' : (0 : ℝ) < (m.x b - m.x u) * (m.y a - m.y u) - (m.y b - m.y u) * (m.x a - m.x u) := by exact_mod_cast h1
  have h2' : (0 : ℝ) ≤ (m.x v - m.x u) * (m.y a - m.y u) - (m.y v - m.y u) * (m.x a - m.x u) := by exact_mod_cast h2
  have h3' : (0 : ℝ) ≤ (m.x b - m.x u) * (m.y v - m.y u) - (m.y b - m.y u) * (m.x v - m.x u) := by exact_mod_cast h3
  have h4' : ((m.x b - m.x u) * (m.y v - m.y u) - (m.y b - m.y u) * (m.x v - m.x u) : ℝ) * ((m.x a - m.x u) ^ 2 + (m.y a - m.y u) ^ 2) +
      ((m.x v - m.x u) * (m.y a - m.y u) - (m.y v - m.y u) * (m.x a - m.x u)) * ((m.x b - m.x u) ^ 2 + (m.y b - m.y u) ^ 2) ≤
        ((m.x b - m.x u) * (m.y a - m.y u) - (m.y b - m.y u) * (m.x a - m.x u)) * ((m.x v - m.x u) ^ 2 + (m.y v - m.y u) ^ 2) := by
    exact_mod_cast h4
  have nz : ¬ ((m.x v - m.x u) * (m.y a - m.y u) - (m.y v - m.y u) * (m.x a - m.x u) = 0 ∧
      (m.x b - m.x u) * (m.y v - m.y u) - (m.y b - m.y u) * (m.x v - m.x u) = 0) := by
    rintro ⟨z1, z2⟩
    have ex : ((m.x b - m.x u) * (m.y a - m.y u) - (m.y b - m.y u) * (m.x a - m.x u)) * (m.x v - m.x u) = 0 := by
      linear_combination (m.x b - m.x u) * z1 + (m.x a - m.x u) * z2
    have ey : ((m.x b - m.x u) * (m.y a - m.y u) - (m.y b - m.y u) * (m.x a - m.x u)) * (m.y v - m.y u) = 0 := by
      linear_combination (m.y b - m.y u) * z1 + (m.y a - m.y u) * z2
    have ex := (mul_eq_zero.1 ex).resolve_left h1.ne'
    have ey := (mul_eq_zero.1 ey).resolve_left h1.ne'
    exact ne (T.once u v hu hv (by omega) (by omega))
  have nz' : ¬ ((m.x v - m.x u : ℝ) * (m.y a - m.y u) - (m.y v - m.y u) * (m.x a - m.x u) = 0 ∧
      (m.x b - m.x u : ℝ) * (m.y v - m.y u) - (m.y b - m.y u) * (m.x v - m.x u) = 0) := by exact_mod_cast nz
  generalize (m.x v : ℝ) = vx at *
  generalize (m.y v : ℝ) = vy at *
  generalize (m.x u : ℝ) = ux at *
  generalize (m.y u : ℝ) = uy at *
  generalize (m.x a : ℝ) = ax at *
  generalize (m.y a : ℝ) = ay at *
  generalize (m.x b : ℝ) = bx at *
  generalize (m.y b : ℝ) = b_y at *
  have pa := mul_nonneg h3' (sub_nonneg.2 oa.le)
  have pb := mul_nonneg h2' (sub_nonneg.2 ob.le)
  have : 0 < ((bx - ux) * (vy - uy) - (b_y - uy) * (vx - ux)) * ((ax - cx) ^ 2 + (ay - cy) ^ 2 - ((ux - cx) ^ 2 + (uy - cy) ^ 2)) +
      ((vx - ux) * (ay - uy) - (vy - uy) * (ax - ux)) * ((bx - cx) ^ 2 + (b_y - cy) ^ 2 - ((ux - cx) ^ 2 + (uy - cy) ^ 2)) := by
    by_contra hh
    have z1 : ((bx - ux) * (vy - uy) - (b_y - uy) * (vx - ux)) * ((ax - cx) ^ 2 + (ay - cy) ^ 2 - ((ux - cx) ^ 2 + (uy - cy) ^ 2)) = 0 := by
      linarith
    have z2 : ((vx - ux) * (ay - uy) - (vy - uy) * (ax - ux)) * ((bx - cx) ^ 2 + (b_y - cy) ^ 2 - ((ux - cx) ^ 2 + (uy - cy) ^ 2)) = 0 := by
      linarith
    exact nz' ⟨(mul_eq_zero.1 z2).resolve_right (sub_pos.2 ob).ne', (mul_eq_zero.1 z1).resolve_right (sub_pos.2 oa).ne'⟩
  have key : ((bx - ux) * (ay - uy) - (b_y - uy) * (ax - ux)) * ((vx - cx) ^ 2 + (vy - cy) ^ 2 - ((ux - cx) ^ 2 + (uy - cy) ^ 2)) = 0 := by
    rw [on]; ring
  linarith

/-- a vertex that is not nearest to a point is joined to one that is nearer -/
theorem nearer (T : Tiling m) (C : Coords m) (W : Clockwise m) (L : Linked m) (D : Delaunay m) {u v} (hu : u < m.size)
    (hv : v < m.size) {cx cy : ℝ} (lt : m.from2 cx cy v < m.from2 cx cy u) :
    ∃ w, w < m.size ∧ m.Joined u w ∧ m.from2 cx cy w < m.from2 cx cy u := by
  obtain ⟨f, j, U, hj, hc, a, b, ea, eb, ha, hb, h1, h2, h3, h4⟩ := wedge T C W L D hu hv
  by_contra no
  push Not at no
  have oa := no a ha ⟨f, j, U, hj, .inl ⟨hc, ea.symm⟩⟩
  have ob := no b hb (by
    refine ⟨f, (j + 2) % 3, U, by omega, .inr ⟨?_, ?_⟩⟩
    · rw [eb]; unfold Mesh.corner; congr 2; omega
    · rw [← hc]; unfold Mesh.corner; congr 2; omega)
  unfold Mesh.from2 at lt oa ob
  unfold Mesh.dist2 at h4
  have h1' : (0 : ℝ) < (m.x b - m.x u) * (m.y a - m.y u) - (m.y b - m.y u) * (m.x a - m.x u) := by exact_mod_cast h1
  have h2' : (0 : ℝ) ≤ (m.x v - m.x u) * (m.y a - m.y u) - (m.y v - m.y u) * (m.x a - m.x u) := by exact_mod_cast h2
  have h3' : (0 : ℝ) ≤ (m.x b - m.x u) * (m.y v - m.y u) - (m.y b - m.y u) * (m.x v - m.x u) := by exact_mod_cast h3
  have h4' : ((m.x b - m.x u) * (m.y v - m.y u) - (m.y b - m.y u) * (m.x v - m.x u) : ℝ) * ((m.x a - m.x u) ^ 2 + (m.y a - m.y u) ^ 2) +
      ((m.x v - m.x u) * (m.y a - m.y u) - (m.y v - m.y u) * (m.x a - m.x u)) * ((m.x b - m.x u) ^ 2 + (m.y b - m.y u) ^ 2) ≤
        ((m.x b - m.x u) * (m.y a - m.y u) - (m.y b - m.y u) * (m.x a - m.x u)) * ((m.x v - m.x u) ^ 2 + (m.y v - m.y u) ^ 2) := by
    exact_mod_cast h4
  have pa := mul_nonneg h3' (sub_nonneg.2 oa)
  have pb := mul_nonneg h2' (sub_nonneg.2 ob)
  have pv := mul_pos h1' (sub_pos.2 lt)
  linarith

/-- the circle through the corners of a face has no vertex strictly inside -/
theorem face_circle (W : Clockwise m) (D : Delaunay m) {f} (U : Used m f) :
    ∃ cx cy r : ℝ, (∀ i, m.from2 cx cy (m.corner f i) = r) ∧ ∀ w, w < m.size → r ≤ m.from2 cx cy w := by
  have A := W f U
  unfold Mesh.area at A
  have A' : ((m.x (m.corner f 1) - m.x (m.corner f 0)) * (m.y (m.corner f 2) - m.y (m.corner f 0)) -
    (m.y (m.corner f 1) - m.y (m.corner f 0)) * (m.x (m.corner f 2) - m.x (m.corner f 0)) : ℝ) < 0 := by exact_mod_cast A
  have per : ∀ i, m.corner f i = m.corner f 0 ∨ m.corner f i = m.corner f 1 ∨ m.corner f i = m.corner f 2 := by
    intro i
    unfold Mesh.corner
    have : i % 3 = 0 ∨ i % 3 = 1 ∨ i % 3 = 2 := by omega
    rcases this with e | e | e <;> simp [e]
  have circ : ∀ w, w < m.size → (0 : ℝ) ≤
      ((m.x (m.corner f 0) - m.x w) ^ 2 + (m.y (m.corner f 0) - m.y w) ^ 2) * ((m.x (m.corner f 1) - m.x w) * (m.y (m.corner f 2) - m.y w) - (m.y (m.corner f 1) - m.y w) * (m.x (m.corner f 2) - m.x w)) +
      ((m.x (m.corner f 1) - m.x w) ^ 2 + (m.y (m.corner f 1) - m.y w) ^ 2) * ((m.x (m.corner f 2) - m.x w) * (m.y (m.corner f 0) - m.y w) - (m.y (m.corner f 2) - m.y w) * (m.x (m.corner f 0) - m.x w)) +
      ((m.x (m.corner f 2) - m.x w) ^ 2 + (m.y (m.corner f 2) - m.y w) ^ 2) * ((m.x (m.corner f 0) - m.x w) * (m.y (m.corner f 1) - m.y w) - (m.y (m.corner f 0) - m.y w) * (m.x (m.corner f 1) - m.x w)) := by
    intro w hw
    have := D f w U hw
    unfold Mesh.circle circleDet at this
    exact_mod_cast this
  unfold Mesh.from2
  set ux := (m.x (m.corner f 0) : ℝ)
  set uy := (m.y (m.corner f 0) : ℝ)
  set ax := (m.x (m.corner f 1) : ℝ)
  set ay := (m.y (m.corner f 1) : ℝ)
  set bx := (m.x (m.corner f 2) : ℝ)
  set b_y := (m.y (m.corner f 2) : ℝ)
  obtain ⟨E, hE⟩ : ∃ E, E = (ax - ux) * (b_y - uy) - (ay - uy) * (bx - ux) := ⟨_, rfl⟩
  rw [← hE] at A'
  obtain ⟨p, hp⟩ : ∃ p, p * (2 * E) = ((ax - ux) ^ 2 + (ay - uy) ^ 2) * (b_y - uy) - (ay - uy) * ((bx - ux) ^ 2 + (b_y - uy) ^ 2) :=
    ⟨_, div_mul_cancel₀ _ (by linarith [A'] : 2 * E < 0).ne⟩
  obtain ⟨q, hq⟩ : ∃ q, q * (2 * E) = (ax - ux) * ((bx - ux) ^ 2 + (b_y - uy) ^ 2) - (bx - ux) * ((ax - ux) ^ 2 + (ay - uy) ^ 2) :=
    ⟨_, div_mul_cancel₀ _ (by linarith [A'] : 2 * E < 0).ne⟩
  refine ⟨ux + p, uy + q, p ^ 2 + q ^ 2, ?_, ?_⟩
  · intro i
    rcases per i with e | e | e <;> rw [e]
    · change (ux - (ux + p)) ^ 2 + (uy - (uy + q)) ^ 2 = _
      ring
    · change (ax - (ux + p)) ^ 2 + (ay - (uy + q)) ^ 2 = _
      have : E * ((ax - (ux + p)) ^ 2 + (ay - (uy + q)) ^ 2 - (p ^ 2 + q ^ 2)) = 0 := by
        linear_combination -(ax - ux) * hp - (ay - uy) * hq + ((ax - ux) ^ 2 + (ay - uy) ^ 2) * hE
      linarith [(mul_eq_zero.1 this).resolve_left A'.ne]
    · change (bx - (ux + p)) ^ 2 + (b_y - (uy + q)) ^ 2 = _
      have : E * ((bx - (ux + p)) ^ 2 + (b_y - (uy + q)) ^ 2 - (p ^ 2 + q ^ 2)) = 0 := by
        linear_combination -(bx - ux) * hp - (b_y - uy) * hq + ((bx - ux) ^ 2 + (b_y - uy) ^ 2) * hE
      linarith [(mul_eq_zero.1 this).resolve_left A'.ne]
  · intro w hw
    have c := circ w hw
    have : 0 ≤ -E * (((m.x w : ℝ) - (ux + p)) ^ 2 + ((m.y w : ℝ) - (uy + q)) ^ 2 - (p ^ 2 + q ^ 2)) := by
      refine c.trans (le_of_eq ?_)
      linear_combination -((m.x w : ℝ) - ux) * hp - ((m.y w : ℝ) - uy) * hq + (((m.x w : ℝ) - ux) ^ 2 + ((m.y w : ℝ) - uy) ^ 2) * hE
    linarith [nonneg_of_mul_nonneg_right this (by linarith : 0 < -E)]

/-- the ends of an edge are on a circle with no vertex strictly inside -/
theorem circle_of_joined (W : Clockwise m) (D : Delaunay m) {u v} (h : m.Joined u v) :
    ∃ cx cy : ℝ, m.from2 cx cy u = m.from2 cx cy v ∧ ∀ w, w < m.size → m.from2 cx cy u ≤ m.from2 cx cy w := by
  obtain ⟨f, j, U, hj, h⟩ := h
  obtain ⟨cx, cy, r, on, out⟩ := face_circle W D U
  refine ⟨cx, cy, ?_, ?_⟩
  · rcases h with ⟨rfl, rfl⟩ | ⟨rfl, rfl⟩ <;> rw [on, on]
  · intro w hw
    rcases h with ⟨rfl, rfl⟩ | ⟨rfl, rfl⟩ <;> rw [on] <;> exact out w hw

/-- the circle over two vertices as diameter -/
theorem joined_of_diameter (T : Tiling m) (C : Coords m) (W : Clockwise m) (L : Linked m) (D : Delaunay m) {u v} (hu : u < m.size)
    (hv : v < m.size) (ne : u ≠ v) (out : ∀ w, w < m.size → w ≠ u → w ≠ v → m.dist2 u v < m.dist2 u w + m.dist2 w v) : m.Joined u v := by
  refine joined_of_circle T C W L D hu hv ne (cx := ((m.x u : ℝ) + m.x v) / 2) (cy := ((m.y u : ℝ) + m.y v) / 2) ?_ ?_
  · unfold Mesh.from2; ring
  · intro w hw wu wv
    have := out w hw wu wv
    unfold Mesh.dist2 at this
    have : ((m.x u - m.x v) ^ 2 + (m.y u - m.y v) ^ 2 : ℝ) < (m.x u - m.x w) ^ 2 + (m.y u - m.y w) ^ 2 + ((m.x w - m.x v) ^ 2 + (m.y w - m.y v) ^ 2) := by
      exact_mod_cast this
    unfold Mesh.from2
    linarith

theorem Mesh.Path.trans {u v w d d'} (h : m.Path u v d) (h' : m.Path v w d') : m.Path u w (d + d') := by
  induction h' with
  | here => simpa using h
  | step _ j ih => rw [← add_assoc]; exact .step ih j

/-- paths with a small sum of squares -/
theorem path_of (T : Tiling m) (C : Coords m) (W : Clockwise m) (L : Linked m) (D : Delaunay m) :
    ∀ (n : Nat) {u v}, u < m.size → v < m.size → m.dist2 u v ≤ n → ∃ d, d ≤ m.dist2 u v ∧ m.Path u v d
  | n, u, v, hu, hv, hn => by
    by_cases ne : u = v
    · subst ne; exact ⟨0, by unfold Mesh.dist2; simp, .here u⟩
    by_cases out : ∀ w, w < m.size → w ≠ u → w ≠ v → m.dist2 u v < m.dist2 u w + m.dist2 w v
    · exact ⟨_, (zero_add _).le, .step (.here u) (joined_of_diameter T C W L D hu hv ne out)⟩
    push Not at out
    obtain ⟨w, hw, wu, wv, le⟩ := out
    have p1 := dist2_pos T hu hw wu.symm
    have p2 := dist2_pos T hw hv wv
    match n with
    | 0 => exact absurd (dist2_pos T hu hv ne) (by omega)
    | n + 1 =>
      obtain ⟨d1, l1, q1⟩ := path_of T C W L D n hu hw (by push_cast at hn; omega)
      obtain ⟨d2, l2, q2⟩ := path_of T C W L D n hw hv (by push_cast at hn; omega)
      exact ⟨d1 + d2, by omega, q1.trans q2⟩

end CE.Cdt
