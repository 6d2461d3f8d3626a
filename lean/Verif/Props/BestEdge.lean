import Verif.Props.Best
/-! C126, C127: after `insert_edge` the smallest angle need not be the largest one possible, nor the largest circle the smallest. -/
namespace CE.Vec

/-- angles compare as cotangents do, strictly -/
theorem arccos_strict {d1 c1 d2 c2 n1 n2 : ℝ} (h1 : 0 < c1) (h2 : 0 < c2) (e1 : n1 = d1 ^ 2 + c1 ^ 2) (e2 : n2 = d2 ^ 2 + c2 ^ 2)
    (h : d2 * c1 < d1 * c2) : Real.arccos (d1 / √n1) < Real.arccos (d2 / √n2) := by
  have key : ∀ {d c n : ℝ}, 0 < c → n = d ^ 2 + c ^ 2 → d / √n = Real.sin (Real.arctan (d / c)) := by
    intro d c n hc e
    rw [Real.sin_arctan, e]
    have : √(1 + (d / c) ^ 2) = √(d ^ 2 + c ^ 2) / c := by
      rw [eq_div_iff hc.ne', ← Real.sqrt_sq hc.le, ← Real.sqrt_mul (by positivity), Real.sqrt_sq hc.le]
      congr 1
      field_simp
      ring
    rw [this]
    have : √(d ^ 2 + c ^ 2) ≠ 0 := (Real.sqrt_pos.2 (by positivity)).ne'
    field_simp
  rw [key h1 e1, key h2 e2]
  have lt : d2 / c2 < d1 / c1 := by rw [div_lt_div_iff₀ h2 h1]; exact h
  exact Real.arccos_lt_arccos (Real.neg_one_le_sin _)
    (Real.sin_lt_sin_of_lt_of_le_pi_div_two (by linarith [Real.neg_pi_div_two_lt_arctan (d2 / c2)])
      (by linarith [Real.arctan_lt_pi_div_two (d1 / c1)]) (Real.arctan_strictMono lt)) (Real.sin_le_one _)

/-- the angle at `b` is smaller than that at `b'`, by their cotangents -/
def Narrower (a b c a' b' c' : V2) : Prop :=
  triArea a b c < 0 ∧ triArea a' b' c' < 0 ∧
    ((a'.x - b'.x) * (c'.x - b'.x) + (a'.y - b'.y) * (c'.y - b'.y)) * -triArea a b c <
      ((a.x - b.x) * (c.x - b.x) + (a.y - b.y) * (c.y - b.y)) * -triArea a' b' c'

instance (a b c a' b' c' : V2) : Decidable (Narrower a b c a' b' c') := by unfold Narrower; infer_instance

theorem Narrower.lt {a b c a' b' c' : V2} (h : Narrower a b c a' b' c') : angleAt a b c < angleAt a' b' c' := by
  obtain ⟨h1, h2, h⟩ := h
  unfold angleAt
  refine arccos_strict (c1 := ((-triArea a b c : ℤ) : ℝ)) (c2 := ((-triArea a' b' c' : ℤ) : ℝ)) (by exact_mod_cast (by omega))
    (by exact_mod_cast (by omega)) ?_ ?_ (by exact_mod_cast h)
  · norm_cast
    unfold triArea
    ring
  · norm_cast
    unfold triArea
    ring

end CE.Vec

namespace CE.Cdt
open CE.Vec

/-- the mesh of `C79_insert_edge_false` with one edge turned that is not constrained -/
def bentTurned : Mesh := ((bent.tryFlip (4 * 11)).get (by decide +kernel)).1

theorem bent_reach : Reach 100 bent := by
  have h1 : Reach 100 bent1 := by
    unfold bent1
    exact .point (.reset _) (get_pair _ _)
  have h2 : Reach 100 bent2 := by
    unfold bent2
    exact .point h1 (get_pair _ _)
  unfold bent
  exact .edge h2 (get_pair _ _)

theorem bentTurned_reach : Reach 100 bentTurned := by
  refine .tryFlip (f := 11) (j := 0) (d := ((bent.tryFlip (4 * 11)).get (by decide +kernel)).2) bent_reach (by unfold Used; decide +kernel)
    (by omega) ?_
  unfold bentTurned
  simp

theorem bentTurned_same : ∀ px py, bent.Vertex px py ↔ bentTurned.Vertex px py := by
  have s : bent.size = 8 := by decide +kernel
  have s' : bentTurned.size = 8 := by decide +kernel
  have e : ∀ v, v < 8 → bentTurned.x v = bent.x v ∧ bentTurned.y v = bent.y v := by decide +kernel
  intro px py
  unfold Mesh.Vertex
  rw [s, s']
  constructor <;> rintro ⟨v, hv, h1, h2⟩ <;> have := e v hv <;> exact ⟨v, hv, by omega, by omega⟩

/-- C126.  After `insert_edge` it need not hold: there is a triangulation of the same vertices that has the same constrained edges,
all of whose angles are larger than one of the mesh. -/
theorem C126_insert_edge_false : ∃ m m', Reach 100 m ∧ Reach 100 m' ∧ m.Division m'.faceTris ∧ m.Respects m'.faceTris ∧
    ∃ f, Used m f ∧ ∃ θ ∈ (m.faceTri f).angles, ∀ T ∈ m'.faceTris, ∀ φ ∈ T.angles, θ < φ := by
  refine ⟨bent, bentTurned, bent_reach, bentTurned_reach, C126_meshes bentTurned_reach bentTurned_same,
    C126_walls bentTurned_reach ?_, 11, by unfold Used; decide +kernel, _, Or.inl rfl, ?_⟩
  · have : ∀ w ∈ wallList bent, w ∈ wallList bentTurned := by decide +kernel
    intro p q h
    rw [wallAt_iff] at h ⊢
    exact this _ h
  · have : ∀ T ∈ bentTurned.faceTris, Narrower (bent.faceTri 11).a (bent.faceTri 11).b (bent.faceTri 11).c T.a T.b T.c ∧
        Narrower (bent.faceTri 11).a (bent.faceTri 11).b (bent.faceTri 11).c T.b T.c T.a ∧
        Narrower (bent.faceTri 11).a (bent.faceTri 11).b (bent.faceTri 11).c T.c T.a T.b := by decide +kernel
    intro T hT φ hφ
    obtain ⟨h1, h2, h3⟩ := this T hT
    unfold Tri.angles at hφ
    simp only [Set.mem_insert_iff, Set.mem_singleton_iff] at hφ
    rcases hφ with rfl | rfl | rfl
    · exact h1.lt
    · exact h2.lt
    · exact h3.lt

/-! ### the circles -/

/-- a point -/
def wide1 : Mesh := ((insertPoint 100 60 sample0 4500 9500 0).get (by decide +kernel)).1
/-- an edge that crosses edges of the mesh -/
def wide : Mesh := ((insertEdge 100 200 wide1 10500 (-11500) (-9500) 30500 0).get (by decide +kernel)).1
/-- the same with one edge turned that is not constrained -/
def wideTurned : Mesh := ((wide.tryFlip (4 * 8)).get (by decide +kernel)).1

theorem wide_reach : Reach 100 wide := by
  have h1 : Reach 100 wide1 := by
    unfold wide1
    exact .point (.reset _) (get_pair _ _)
  unfold wide
  exact .edge h1 (get_pair _ _)

theorem wideTurned_reach : Reach 100 wideTurned := by
  refine .tryFlip (f := 8) (j := 0) (d := ((wide.tryFlip (4 * 8)).get (by decide +kernel)).2) wide_reach (by unfold Used; decide +kernel)
    (by omega) ?_
  unfold wideTurned
  simp

theorem wideTurned_same : ∀ px py, wide.Vertex px py ↔ wideTurned.Vertex px py := by
  have s : wide.size = 7 := by decide +kernel
  have s' : wideTurned.size = 7 := by decide +kernel
  have e : ∀ v, v < 7 → wideTurned.x v = wide.x v ∧ wideTurned.y v = wide.y v := by decide +kernel
  intro px py
  unfold Mesh.Vertex
  rw [s, s']
  constructor <;> rintro ⟨v, hv, h1, h2⟩ <;> have := e v hv <;> exact ⟨v, hv, by omega, by omega⟩

/-- C127.  After `insert_edge` it need not hold either: there is a triangulation of the same vertices that has the same constrained edges,
each of whose triangles is contained in a circle of a size that is too small to contain a certain face of the mesh. -/
theorem C127_insert_edge_false : ∃ m m', Reach 100 m ∧ Reach 100 m' ∧ m.Division m'.faceTris ∧ m.Respects m'.faceTris ∧
    ∃ f, Used m f ∧ ∃ r : ℝ, (∀ T ∈ m'.faceTris, ∃ x y, T.In x y r) ∧ ∀ x y, ¬ (m.faceTri f).In x y r := by
  refine ⟨wide, wideTurned, wide_reach, wideTurned_reach, C126_meshes wideTurned_reach wideTurned_same,
    C126_walls wideTurned_reach ?_, 7, by unfold Used; decide +kernel, 1160000000, ?_, ?_⟩
  · have : ∀ w ∈ wallList wide, w ∈ wallList wideTurned := by decide +kernel
    intro p q h
    rw [wallAt_iff] at h ⊢
    exact this _ h
  · have : ∀ T ∈ wideTurned.faceTris, ∃ c ∈ ([⟨32767, -1⟩, ⟨-21134, -1134⟩, ⟨-24216, 0⟩, ⟨21633, 10633⟩, ⟨-1, -32768⟩, ⟨500, 9500⟩, ⟨-1, 32767⟩, ⟨11748, 29499⟩] : List V2), ∀ p ∈ [T.a, T.b, T.c],
        (p.x - c.x) ^ 2 + (p.y - c.y) ^ 2 ≤ 1160000000 := by decide +kernel
    intro T hT
    obtain ⟨c, -, h⟩ := this T hT
    refine ⟨c.x, c.y, fun p hp => ?_⟩
    exact_mod_cast h p hp
  · intro x y h
    have e : (wide.faceTri 7).a = ⟨10500, -11500⟩ ∧ (wide.faceTri 7).b = ⟨-32768, -32768⟩ ∧ (wide.faceTri 7).c = ⟨-32768, 32767⟩ := by
      decide +kernel
    unfold Tri.In at h
    rw [e.1, e.2.1, e.2.2] at h
    have h1 := h ⟨10500, -11500⟩ (by simp)
    have h2 := h ⟨-32768, -32768⟩ (by simp)
    have h3 := h ⟨-32768, 32767⟩ (by simp)
    push_cast at h1 h2 h3
    nlinarith [sq_nonneg (x - (-220115752 / 10000)), sq_nonneg (y - (-19497 / 10000))]

end CE.Cdt
