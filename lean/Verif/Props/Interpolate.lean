import Verif.Props.Delaunay
import Verif.Proof.Interpolate
/-! C123, C124: interpolation over a triangulation of points, and the angles of its faces. -/
namespace CE.Cdt

variable {m : Mesh} {limit : Nat}

/-- C123.  Every point of the square is an average of the corners of some face, in a mesh of any history. -/
theorem C123_exists (h : Reach limit m) {x y : ℚ} (hx : -32768 ≤ x ∧ x ≤ 32767) (hy : -32768 ≤ y ∧ y ≤ 32767) :
    ∃ f l, Used m f ∧ m.Within f x y ∧ m.Average (Finset.range 3) (m.corner f) l x y := by
  obtain ⟨f, U, w⟩ := (C81_tiling h).cover x y hx.1 hx.2 hy.1 hy.2
  obtain ⟨l, a⟩ := average_of_within (C72_clockwise h).1 U w
  exact ⟨f, l, U, w, a⟩

/-- C123.  In a triangulation of points, of all ways to write a point as an average of vertices the corners of the face it lies in
have the least average squared distance from it. -/
theorem C123_least (h : Points limit m) {f} (u : Used m f) {l : ℕ → ℝ} {x y : ℝ} (a : m.Average (Finset.range 3) (m.corner f) l x y)
    {s : Finset ℕ} {g : ℕ → ℕ} {w : ℕ → ℝ} (b : m.Average s g w x y) (hg : ∀ i ∈ s, g i < m.size) :
    m.spread (Finset.range 3) (m.corner f) l x y ≤ m.spread s g w x y :=
  spread_least (C72_clockwise h.marked.reach).1 (C79_delaunay h) u a b hg

/-- C123.  For a function with second derivatives of at most `M`, what is interpolated between the corners of the face a point lies in
is off by at most `M / 2` times the average squared distance from the point, of these or of any other vertices around it. -/
theorem C123_error (h : Points limit m) {f} (u : Used m f) {l : ℕ → ℝ} {x y : ℝ} (a : m.Average (Finset.range 3) (m.corner f) l x y)
    {F : ℝ → ℝ → ℝ} {M : ℝ} (hM : 0 ≤ M) (c : m.Curved F M x y) {s : Finset ℕ} {g : ℕ → ℕ} {w : ℕ → ℝ} (b : m.Average s g w x y)
    (hg : ∀ i ∈ s, g i < m.size) :
    |∑ i ∈ Finset.range 3, l i * F (m.x (m.corner f i)) (m.y (m.corner f i)) - F x y| ≤ M / 2 * m.spread s g w x y :=
  (spread_error c a fun i _ => (C71_linked h.marked.reach).vertex f i u).trans
    (mul_le_mul_of_nonneg_left (C123_least h u a b hg) (by linarith))

/-- C123.  That cannot be improved: for one such function every average is off by exactly that much, so no other triangles
between the vertices have a smaller greatest error. -/
theorem C123_sharp (m : Mesh) (M : ℝ) {x y : ℝ} {s : Finset ℕ} {g : ℕ → ℕ} {w : ℕ → ℝ} (hM : 0 ≤ M) (b : m.Average s g w x y) :
    m.Curved (fun X Y => M / 2 * ((X - x) ^ 2 + (Y - y) ^ 2)) M x y ∧
    |∑ i ∈ s, w i * (M / 2 * ((m.x (g i) - x) ^ 2 + (m.y (g i) - y) ^ 2)) - M / 2 * ((x - x) ^ 2 + (y - y) ^ 2)| = M / 2 * m.spread s g w x y := by
  constructor
  · refine ⟨0, 0, fun v _ => ?_⟩
    simp only [sub_self, zero_mul, add_zero]
    norm_num
    rw [abs_of_nonneg (div_nonneg hM (by norm_num)), abs_of_nonneg (by positivity)]
    exact le_of_eq rfl
  · have e : ∑ i ∈ s, w i * (M / 2 * (((m.x (g i) : ℝ) - x) ^ 2 + ((m.y (g i) : ℝ) - y) ^ 2)) = M / 2 * m.spread s g w x y := by
      unfold Mesh.spread Mesh.from2
      rw [Finset.mul_sum]
      exact Finset.sum_congr rfl fun i _ => by ring
    rw [e]
    have : 0 ≤ m.spread s g w x y := Finset.sum_nonneg fun i hi => mul_nonneg (b.nonneg i hi) (by unfold Mesh.from2; positivity)
    norm_num
    rw [abs_of_nonneg (div_nonneg hM (by norm_num)), abs_of_nonneg this]

-- the point between two opposite corners of the square
example : Points 100 pts3 ∧ pts3.Average (Finset.range 2) (fun i => 3 * i) (fun _ => 1 / 2) (-1 / 2) (-1 / 2) ∧ pts3.size = 7 ∧
    ∃ f l, Used pts3 f ∧ pts3.Within f (-1 / 2 : ℚ) (-1 / 2 : ℚ) ∧ pts3.Average (Finset.range 3) (pts3.corner f) l (-1 / 2) (-1 / 2) := by
  refine ⟨pts3_points, ⟨fun _ _ => by norm_num, by norm_num, ?_, ?_⟩, by decide +kernel, ?_⟩
  · have e0 : pts3.x 0 = -32768 := by decide +kernel
    have e3 : pts3.x 3 = 32767 := by decide +kernel
    norm_num [Finset.sum_range_succ, e0, e3]
  · have e0 : pts3.y 0 = -32768 := by decide +kernel
    have e3 : pts3.y 3 = 32767 := by decide +kernel
    norm_num [Finset.sum_range_succ, e0, e3]
  · obtain ⟨f, l, u, w, a⟩ := C123_exists pts3_points.marked.reach (x := -1 / 2) (y := -1 / 2) (by norm_num) (by norm_num)
    refine ⟨f, l, u, w, ?_⟩
    push_cast at a
    exact a

/-- C124.  In a triangulation with points and constraints, no flip of an unconstrained edge makes the smallest angle larger: for every angle
of the two faces at the edge, the two faces after a flip would have an angle that is not larger. -/
theorem C124_flip (h : Marked limit m) {f j} (uf : Used m f) (hj : j < 3) (free : m.c (4 * f + j) = 0) {a u v b : Nat}
    (ea : a = m.corner f j) (eu : u = m.corner f (j + 1)) (ev : v = m.corner f (j + 2)) (eb : b = m.p (m.e (4 * f + j)))
    (convex : m.area a u b < 0 ∧ m.area b v a < 0) :
    ∀ θ ∈ m.Angles u v a b, ∃ φ ∈ m.Angles a b u v, φ ≤ θ := by
  have cw := (C72_clockwise h.reach).1
  have L := C71_linked h.reach
  have three : ∀ f j, Used m f → j < 3 → m.area (m.corner f j) (m.corner f (j + 1)) (m.corner f (j + 2)) < 0 := by
    intro f j uf hj
    have := cw f uf
    have h : j = 0 ∨ j = 1 ∨ j = 2 := by omega
    unfold Mesh.area Mesh.corner at *
    rcases h with rfl | rfl | rfl <;> norm_num at * <;> linarith
  have C := C79_locally_delaunay_partial h f j uf hj free
  rcases L.twin f j uf hj with ⟨-, c⟩ | ⟨g, k, ug, hk, e, -, -, e1, e2⟩
  · omega
  have eb' : b = m.corner g k := by rw [eb, e]; unfold Mesh.corner; rw [Nat.mod_eq_of_lt hk]
  refine flip_angles ?_ ?_ convex.1 convex.2 ?_
  · rw [ea, eu, ev]; exact three f j uf hj
  · rw [eb', eu, ev, ← e1, ← e2]; exact three g k ug hk
  · rw [← eb] at C
    subst ea eu ev
    unfold Mesh.circle circleDet at *
    have h : j = 0 ∨ j = 1 ∨ j = 2 := by omega
    unfold Mesh.corner at *
    rcases h with rfl | rfl | rfl <;> norm_num at * <;> linarith

-- an edge that could be flipped
example : Marked 100 pts3 ∧ Used pts3 7 ∧ pts3.c (4 * 7 + 1) = 0 ∧
    pts3.area (pts3.corner 7 1) (pts3.corner 7 2) (pts3.p (pts3.e (4 * 7 + 1))) < 0 ∧
    pts3.area (pts3.p (pts3.e (4 * 7 + 1))) (pts3.corner 7 3) (pts3.corner 7 1) < 0 :=
  ⟨pts3_points.marked, by unfold Used; decide +kernel, by decide +kernel, by decide +kernel, by decide +kernel⟩

end CE.Cdt
