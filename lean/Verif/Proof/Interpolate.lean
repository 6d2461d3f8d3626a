import Verif.Spec.Interpolate
import Verif.Proof.Near
import Mathlib.Analysis.SpecialFunctions.Trigonometric.Arctan
namespace CE.Cdt

variable {m : Mesh}

theorem spread_centre {s : Finset ℕ} {g : ℕ → ℕ} {w : ℕ → ℝ} {x y : ℝ} (h : m.Average s g w x y) (cx cy : ℝ) :
    m.spread s g w x y = ∑ i ∈ s, w i * m.from2 cx cy (g i) - ((x - cx) ^ 2 + (y - cy) ^ 2) := by
  unfold Mesh.spread Mesh.from2
  have e : ∀ i ∈ s, w i * (((m.x (g i) : ℝ) - x) ^ 2 + ((m.y (g i) : ℝ) - y) ^ 2) =
      w i * (((m.x (g i) : ℝ) - cx) ^ 2 + ((m.y (g i) : ℝ) - cy) ^ 2) + (w i * m.x (g i)) * (-2 * (x - cx)) + (w i * m.y (g i)) * (-2 * (y - cy)) +
        w i * (x ^ 2 + y ^ 2 - cx ^ 2 - cy ^ 2) := fun i _ => by ring
  rw [Finset.sum_congr rfl e]
  simp only [Finset.sum_add_distrib, ← Finset.sum_mul, h.one, h.atX, h.atY]
  ring

theorem spread_least (W : Clockwise m) (D : Delaunay m) {f} (U : Used m f) {l : ℕ → ℝ} {x y : ℝ}
    (h : m.Average (Finset.range 3) (m.corner f) l x y) {s : Finset ℕ} {g : ℕ → ℕ} {w : ℕ → ℝ} (h' : m.Average s g w x y)
    (hg : ∀ i ∈ s, g i < m.size) : m.spread (Finset.range 3) (m.corner f) l x y ≤ m.spread s g w x y := by
  obtain ⟨cx, cy, r, on, out⟩ := face_circle W D U
  rw [spread_centre h cx cy, spread_centre h' cx cy]
  have e : ∑ i ∈ Finset.range 3, l i * m.from2 cx cy (m.corner f i) = r := by
    simp only [on, ← Finset.sum_mul, h.one, one_mul]
  have e' : r ≤ ∑ i ∈ s, w i * m.from2 cx cy (g i) := by
    calc r = ∑ i ∈ s, w i * r := by rw [← Finset.sum_mul, h'.one, one_mul]
      _ ≤ _ := Finset.sum_le_sum fun i hi => mul_le_mul_of_nonneg_left (out _ (hg i hi)) (h'.nonneg i hi)
  linarith

/-- a point within a face is an average of its corners -/
theorem average_of_within (W : Clockwise m) {f} (U : Used m f) {x y : ℚ} (h : m.Within f x y) :
    ∃ l, m.Average (Finset.range 3) (m.corner f) l x y := by
  have A := W f U
  unfold Mesh.area at A
  have A' : ((m.x (m.corner f 1) - m.x (m.corner f 0)) * (m.y (m.corner f 2) - m.y (m.corner f 0)) -
    (m.y (m.corner f 1) - m.y (m.corner f 0)) * (m.x (m.corner f 2) - m.x (m.corner f 0)) : ℝ) < 0 := by exact_mod_cast A
  have s0 : ((m.sideQ f 0 x y : ℚ) : ℝ) ≤ 0 := by exact_mod_cast h 0 (by omega)
  have s1 : ((m.sideQ f 1 x y : ℚ) : ℝ) ≤ 0 := by exact_mod_cast h 1 (by omega)
  have s2 : ((m.sideQ f 2 x y : ℚ) : ℝ) ≤ 0 := by exact_mod_cast h 2 (by omega)
  have c3 : m.corner f 3 = m.corner f 0 := rfl
  unfold Mesh.sideQ at s0 s1 s2
  norm_num [c3] at s0 s1 s2
  generalize hE : ((m.x (m.corner f 1) - m.x (m.corner f 0)) * (m.y (m.corner f 2) - m.y (m.corner f 0)) -
    (m.y (m.corner f 1) - m.y (m.corner f 0)) * (m.x (m.corner f 2) - m.x (m.corner f 0)) : ℝ) = E at A'
  refine ⟨fun i => if i = 0 then ((m.x (m.corner f 1) - x) * (m.y (m.corner f 2) - y) - (m.y (m.corner f 1) - y) * (m.x (m.corner f 2) - x)) / E
    else if i = 1 then ((m.x (m.corner f 2) - x) * (m.y (m.corner f 0) - y) - (m.y (m.corner f 2) - y) * (m.x (m.corner f 0) - x)) / E
    else ((m.x (m.corner f 0) - x) * (m.y (m.corner f 1) - y) - (m.y (m.corner f 0) - y) * (m.x (m.corner f 1) - x)) / E, ?_, ?_, ?_, ?_⟩
  · intro i hi
    split
    · exact div_nonneg_of_nonpos (by linarith) A'.le
    · split
      · exact div_nonneg_of_nonpos (by linarith) A'.le
      · exact div_nonneg_of_nonpos (by linarith) A'.le
  · norm_num [Finset.sum_range_succ]
    rw [← add_div, ← add_div, div_eq_one_iff_eq A'.ne, ← hE]
    ring
  · norm_num [Finset.sum_range_succ]
    rw [div_mul_eq_mul_div, div_mul_eq_mul_div, div_mul_eq_mul_div, ← add_div, ← add_div, div_eq_iff A'.ne, ← hE]
    ring
  · norm_num [Finset.sum_range_succ]
    rw [div_mul_eq_mul_div, div_mul_eq_mul_div, div_mul_eq_mul_div, ← add_div, ← add_div, div_eq_iff A'.ne, ← hE]
    ring

theorem spread_error {F : ℝ → ℝ → ℝ} {M x y : ℝ} (c : m.Curved F M x y) {s : Finset ℕ} {g : ℕ → ℕ} {w : ℕ → ℝ}
    (h : m.Average s g w x y) (hg : ∀ i ∈ s, g i < m.size) :
    |∑ i ∈ s, w i * F (m.x (g i)) (m.y (g i)) - F x y| ≤ M / 2 * m.spread s g w x y := by
  obtain ⟨p, q, c⟩ := c
  have e : ∑ i ∈ s, w i * F (m.x (g i)) (m.y (g i)) - F x y =
      ∑ i ∈ s, w i * (F (m.x (g i)) (m.y (g i)) - (F x y + p * (m.x (g i) - x) + q * (m.y (g i) - y))) := by
    have t : ∀ i ∈ s, w i * (F (m.x (g i)) (m.y (g i)) - (F x y + p * (m.x (g i) - x) + q * (m.y (g i) - y))) =
        w i * F (m.x (g i)) (m.y (g i)) + w i * (-(F x y) + p * x + q * y) + (w i * m.x (g i)) * (-p) + (w i * m.y (g i)) * (-q) := fun i _ => by ring
    rw [Finset.sum_congr rfl t]
    simp only [Finset.sum_add_distrib, ← Finset.sum_mul, h.one, h.atX, h.atY]
    ring
  rw [e]
  refine (Finset.abs_sum_le_sum_abs _ _).trans ?_
  unfold Mesh.spread
  rw [Finset.mul_sum]
  refine Finset.sum_le_sum fun i hi => ?_
  rw [abs_mul, abs_of_nonneg (h.nonneg i hi)]
  calc _ ≤ w i * (M / 2 * m.from2 x y (g i)) := mul_le_mul_of_nonneg_left (c _ (hg i hi)) (h.nonneg i hi)
    _ = _ := by ring

/-! ### angles -/

/-- angles compare as cotangents do -/
theorem arccos_mono {d1 c1 d2 c2 n1 n2 : ℝ} (h1 : 0 < c1) (h2 : 0 < c2) (e1 : n1 = d1 ^ 2 + c1 ^ 2) (e2 : n2 = d2 ^ 2 + c2 ^ 2)
    (h : d2 * c1 ≤ d1 * c2) : Real.arccos (d1 / √n1) ≤ Real.arccos (d2 / √n2) := by
  have key : ∀ {d c n : ℝ}, 0 < c → n = d ^ 2 + c ^ 2 → d / √n = Real.sin (Real.arctan (d / c)) := by
    intro d c n hc e
    rw [Real.sin_arctan, e]
    have : √(1 + (d / c) ^ 2) = √(d ^ 2 + c ^ 2) / c := by
      rw [eq_div_iff hc.ne', ← Real.sqrt_sq hc.le, ← Real.sqrt_mul (by positivity), Real.sqrt_sq hc.le]
      congr 1
      field_simp
      ring
    rw [this]
    have : √(d ^ 2 + c ^ 2) ≠ 0 := (Real.sqrt_pos.2 (by positivity)).ne'
    field_simp
  rw [key h1 e1, key h2 e2]
  refine Real.arccos_le_arccos ?_
  have le : d2 / c2 ≤ d1 / c1 := by rw [div_le_div_iff₀ h2 h1]; exact h
  exact Real.sin_le_sin_of_le_of_le_pi_div_two (by linarith [Real.neg_pi_div_two_lt_arctan (d2 / c2)])
    (by linarith [Real.arctan_lt_pi_div_two (d1 / c1)]) (Real.arctan_strictMono.monotone le)

/-- the angle at `b` from `a` to `c` is at most that at `b'` from `a'` to `c'`, by their dot and cross products; the corners are clockwise -/
theorem angle_le {a b c a' b' c' : Nat} (h1 : m.area a b c < 0) (h2 : m.area a' b' c' < 0)
    (h : ((m.x a' - m.x b') * (m.x c' - m.x b') + (m.y a' - m.y b') * (m.y c' - m.y b')) * -m.area a b c ≤
      ((m.x a - m.x b) * (m.x c - m.x b) + (m.y a - m.y b) * (m.y c - m.y b)) * -m.area a' b' c') :
    m.angle a b c ≤ m.angle a' b' c' := by
  unfold Mesh.angle
  refine arccos_mono (c1 := ((-m.area a b c : ℤ) : ℝ)) (c2 := ((-m.area a' b' c' : ℤ) : ℝ)) (by exact_mod_cast (by omega))
    (by exact_mod_cast (by omega)) ?_ ?_ (by exact_mod_cast h)
  · norm_cast
    unfold Mesh.dist2 Mesh.area
    ring
  · norm_cast
    unfold Mesh.dist2 Mesh.area
    ring

theorem angle_comm (m : Mesh) (a b c : Nat) : m.angle a b c = m.angle c b a := by
  unfold Mesh.angle
  rw [show (m.x a - m.x b) * (m.x c - m.x b) + (m.y a - m.y b) * (m.y c - m.y b) =
    (m.x c - m.x b) * (m.x a - m.x b) + (m.y c - m.y b) * (m.y a - m.y b) by ring, mul_comm (m.dist2 a b)]

/-- the six angles of two triangles on `u v`, for which the apex `b` is not inside the circle of `a u v`: none is smaller than all of
those of the triangles on `a b` -/
theorem flip_angles {a u v b : Nat} (h1 : m.area a u v < 0) (h2 : m.area b v u < 0) (h3 : m.area a u b < 0) (h4 : m.area b v a < 0)
    (circ : 0 ≤ circleDet (m.x a) (m.y a) (m.x u) (m.y u) (m.x v) (m.y v) (m.x b) (m.y b)) :
    ∀ θ ∈ m.Angles u v a b, ∃ φ ∈ m.Angles a b u v, φ ≤ θ := by
  have r1 : m.area v a u < 0 := by unfold Mesh.area at *; linarith
  have r2 : m.area u v a < 0 := by unfold Mesh.area at *; linarith
  have r3 : m.area u b v < 0 := by unfold Mesh.area at *; linarith
  have r4 : m.area v u b < 0 := by unfold Mesh.area at *; linarith
  have r5 : m.area b a u < 0 := by unfold Mesh.area at *; linarith
  have r6 : m.area u b a < 0 := by unfold Mesh.area at *; linarith
  have r7 : m.area a b v < 0 := by unfold Mesh.area at *; linarith
  have r8 : m.area v a b < 0 := by unfold Mesh.area at *; linarith
  have pu : 0 ≤ (m.x u - m.x a) ^ 2 + (m.y u - m.y a) ^ 2 := by positivity
  have pb : 0 ≤ (m.x u - m.x b) ^ 2 + (m.y u - m.y b) ^ 2 := by positivity
  have q1 := mul_nonneg pu (neg_nonneg.2 r8.le)
  have q2 := mul_nonneg pb (neg_nonneg.2 r7.le)
  have i1 : m.angle b a u ≤ m.angle v a u := angle_le r5 r1 (by unfold Mesh.area at *; linarith)
  have i2 : m.angle u b a ≤ m.angle u b v := angle_le r6 r3 (by unfold Mesh.area at *; linarith)
  have i3 : m.angle a b v ≤ m.angle a u v := angle_le r7 h1 (by unfold Mesh.area circleDet at *; linarith)
  have i4 : m.angle u b a ≤ m.angle u v a := angle_le r6 r2 (by unfold Mesh.area circleDet at *; linarith)
  have i5 : m.angle b a u ≤ m.angle b v u := angle_le r5 h2 (by unfold Mesh.area circleDet at *; linarith)
  have i6 : m.angle v a b ≤ m.angle v u b := angle_le r8 r4 (by unfold Mesh.area circleDet at *; linarith)
  intro θ hθ
  unfold Mesh.Angles at *
  simp only [Set.mem_insert_iff, Set.mem_singleton_iff, exists_eq_or_imp, exists_eq_left] at *
  rcases hθ with rfl | rfl | rfl | rfl | rfl | rfl
  · rw [angle_comm m u a v]; exact .inr (.inl (by rw [angle_comm m u a b]; exact i1))
  · exact .inr (.inr (.inr (.inr (.inr (by rw [angle_comm m v b a]; exact i3)))))
  · rw [angle_comm m a v u]; exact .inr (.inr (.inl i4))
  · exact .inr (.inr (.inl i2))
  · rw [angle_comm m b u v]; exact .inr (.inr (.inr (.inr (.inl i6))))
  · exact .inr (.inl (by rw [angle_comm m u a b]; exact i5))

end CE.Cdt
