import Verif.Proof.Winding
import Mathlib.Topology.Order.IntermediateValue
import Mathlib.Analysis.SpecialFunctions.Complex.Log
/-! The winding number of a closed polygon does not change along a segment that does not meet it. -/
namespace CE.Vec

open Complex Real

theorem toward_nz {x y : ℝ} {e : V2 × V2} (h : ¬OnEdge x y e) : toward x y e.1 ≠ 0 ∧ toward x y e.2 ≠ 0 := by
  constructor
  · intro hc
    have h1 := congrArg Complex.re hc
    have h2 := congrArg Complex.im hc
    simp only [toward, Complex.zero_re, Complex.zero_im] at h1 h2
    exact h ⟨0, le_refl _, zero_le_one, by linarith, by linarith⟩
  · intro hc
    have h1 := congrArg Complex.re hc
    have h2 := congrArg Complex.im hc
    simp only [toward, Complex.zero_re, Complex.zero_im] at h1 h2
    exact h ⟨1, zero_le_one, le_refl _, by linarith, by linarith⟩

theorem seen_ne_pi {x y : ℝ} {e : V2 × V2} (h : ¬OnEdge x y e) : arg (toward x y e.2 / toward x y e.1) ≠ π := by
  apply arg_ne_pi (toward_nz h).1
  rintro ⟨t, h0, h1, h2, h3⟩
  apply h
  simp only [toward] at h2 h3
  exact ⟨t, h0, h1, by linarith, by linarith⟩

theorem exp_arg_div {z : ℂ} (h : z ≠ 0) : exp (arg z * I) = z / ‖z‖ := by
  have h' : (‖z‖ : ℂ) ≠ 0 := by simpa using h
  rw [eq_div_iff h', mul_comm]
  exact norm_mul_exp_arg_mul_I z

/-- what an open polygon sweeps, up to full turns -/
theorem exp_swept (x y : ℝ) (u : V2) (vs : List V2) (hu : toward x y u ≠ 0) (h : ∀ e ∈ edgesFrom u vs, ¬OnEdge x y e) :
    exp (swept x y (edgesFrom u vs) * I) = (toward x y ((u :: vs).getLast (by simp)) / toward x y u) /
      ‖toward x y ((u :: vs).getLast (by simp)) / toward x y u‖ := by
  induction vs generalizing u with
  | nil => simp [swept, edgesFrom, hu]
  | cons v vs ih =>
    have hv := toward_nz (h (u, v) (by simp [edgesFrom]))
    have h2 := ih v hv.2 (fun e he => h e (by simp [edgesFrom, he]))
    have e1 : swept x y (edgesFrom u (v :: vs)) = arg (toward x y v / toward x y u) + swept x y (edgesFrom v vs) := by
      simp [swept, edgesFrom, seenAngle]
    have hl : (u :: v :: vs).getLast (by simp) = (v :: vs).getLast (by simp) := List.getLast_cons (by simp)
    rw [e1, hl]
    push_cast
    rw [add_mul, Complex.exp_add, exp_arg_div (div_ne_zero hv.2 hu), h2]
    generalize toward x y ((v :: vs).getLast (by simp)) = L
    have n1 : (‖toward x y u‖ : ℂ) ≠ 0 := by simpa using hu
    have n2 : (‖toward x y v‖ : ℂ) ≠ 0 := by simpa using hv.2
    have hv2 := hv.2
    simp only at hv2
    by_cases hL : L = 0
    · simp [hL]
    have n3 : (‖L‖ : ℂ) ≠ 0 := by simpa using hL
    simp only [norm_div]
    push_cast
    field_simp

/-- a closed polygon sweeps full turns -/
theorem swept_turns (x y : ℝ) (ps : List V2) (h : ∀ e ∈ polyEdges ps, ¬OnEdge x y e) :
    ∃ k : ℤ, swept x y (polyEdges ps) = 2 * π * k := by
  cases ps with
  | nil => exact ⟨0, by simp [swept, polyEdges]⟩
  | cons v vs =>
    have e : polyEdges (v :: vs) = edgesFrom ((v :: vs).getLast (by simp)) (v :: vs) := by
      unfold polyEdges
      rw [List.getLast?_eq_getLast_of_ne_nil (by simp)]
    rw [e] at h ⊢
    generalize hL : (v :: vs).getLast (by simp) = L at *
    have hne : toward x y L ≠ 0 := (toward_nz (h (L, v) (by simp [edgesFrom]))).1
    have := exp_swept x y L (v :: vs) hne h
    rw [List.getLast_cons (by simp), hL, div_self hne] at this
    simp only [norm_one, ofReal_one, div_one] at this
    rw [Complex.exp_eq_one_iff] at this
    obtain ⟨k, hk⟩ := this
    refine ⟨k, ?_⟩
    have h2 : ((swept x y (edgesFrom L (v :: vs)) : ℝ) : ℂ) = ((2 * π * k : ℝ) : ℂ) := by
      have hI : (I : ℂ) ≠ 0 := I_ne_zero
      apply mul_right_cancel₀ hI
      rw [hk]; push_cast; ring
    exact_mod_cast h2

/-- along a path that stays off an edge the angle changes continuously -/
theorem seen_continuous {e : V2 × V2} {X Y : ℝ → ℝ} (hX : Continuous X) (hY : Continuous Y) {S : Set ℝ}
    (h : ∀ s ∈ S, ¬OnEdge (X s) (Y s) e) : ContinuousOn (fun s => seenAngle (X s) (Y s) e) S := by
  intro s hs
  have h1 := toward_nz (h s hs)
  have h2 := seen_ne_pi (h s hs)
  unfold seenAngle
  have ct : ∀ v : V2, Continuous fun s => toward (X s) (Y s) v := by
    intro v
    have : (fun s => toward (X s) (Y s) v) = fun s => ((v.x - X s : ℝ) : ℂ) + ((v.y - Y s : ℝ) : ℂ) * I := by
      funext s; apply Complex.ext <;> simp [toward]
    rw [this]
    fun_prop
  have hq : ContinuousAt (fun s => toward (X s) (Y s) e.2 / toward (X s) (Y s) e.1) s :=
    ((ct e.2).continuousAt).div ((ct e.1).continuousAt) h1.1
  have hm : toward (X s) (Y s) e.2 / toward (X s) (Y s) e.1 ∈ slitPlane :=
    mem_slitPlane_iff_arg.2 ⟨h2, div_ne_zero h1.2 h1.1⟩
  exact (ContinuousAt.comp (f := fun s => toward (X s) (Y s) e.2 / toward (X s) (Y s) e.1) (continuousAt_arg hm) hq).continuousWithinAt

theorem swept_cont (es : List (V2 × V2)) {X Y : ℝ → ℝ} (hX : Continuous X) (hY : Continuous Y) {S : Set ℝ}
    (h : ∀ s ∈ S, ∀ e ∈ es, ¬OnEdge (X s) (Y s) e) : ContinuousOn (fun s => swept (X s) (Y s) es) S := by
  induction es with
  | nil => simp only [swept, List.map_nil, List.sum_nil]; exact continuousOn_const
  | cons e es ih =>
    have a := seen_continuous hX hY (fun s hs => h s hs e (by simp))
    have b := ih (fun s hs e he => h s hs e (by simp [he]))
    simp only [swept, List.map_cons, List.sum_cons] at b ⊢
    exact a.add b

/-- the winding number is the same at both ends of a segment that does not meet the polygon -/
theorem swept_move (ps : List V2) (x y x' y' : ℝ)
    (h : ∀ s : ℝ, 0 ≤ s → s ≤ 1 → ∀ e ∈ polyEdges ps, ¬OnEdge (x + s * (x' - x)) (y + s * (y' - y)) e) :
    swept x y (polyEdges ps) = swept x' y' (polyEdges ps) := by
  have hc : ContinuousOn (fun s : ℝ => swept (x + s * (x' - x)) (y + s * (y' - y)) (polyEdges ps)) (Set.uIcc 0 1) := by
    apply swept_cont
    · fun_prop
    · fun_prop
    · intro s hs
      rw [Set.uIcc_of_le zero_le_one] at hs
      exact h s hs.1 hs.2
  have hv := intermediate_value_uIcc hc
  simp only [zero_mul, add_zero, one_mul, add_sub_cancel] at hv
  obtain ⟨a, ha⟩ := swept_turns x y ps (by have := h 0 le_rfl zero_le_one; simpa using this)
  obtain ⟨b, hb⟩ := swept_turns x' y' ps (by have := h 1 zero_le_one le_rfl; simpa using this)
  rw [ha, hb] at hv ⊢
  have hpi := Real.pi_pos
  have key : ∀ c : ℝ, (∀ n : ℤ, c ≠ n) → ¬ (2 * π * c ∈ Set.uIcc (2 * π * (a : ℝ)) (2 * π * b)) := by
    intro c hn hm
    obtain ⟨s, hs, hval⟩ := hv hm
    rw [Set.uIcc_of_le zero_le_one] at hs
    obtain ⟨k, hk⟩ := swept_turns _ _ ps (h s hs.1 hs.2)
    simp only at hval
    rw [hk] at hval
    have : (k : ℝ) = c := by
      have : (2 * π) * ((k : ℝ) - c) = 0 := by linarith
      rcases mul_eq_zero.1 this with h | h <;> linarith
    exact hn k this.symm
  have half : ∀ n : ℤ, ∀ k : ℤ, (n : ℝ) + 1 / 2 ≠ k := by
    intro n k hk
    have : (2 * n + 1 : ℝ) = 2 * k := by linarith
    have : (2 * n + 1 : ℤ) = 2 * k := by exact_mod_cast this
    omega
  rcases lt_trichotomy a b with hab | hab | hab
  · exfalso
    refine key (a + 1 / 2) (half a) ?_
    have : (a : ℝ) + 1 ≤ b := by exact_mod_cast hab
    rw [Set.mem_uIcc]
    left
    constructor <;> nlinarith
  · rw [hab]
  · exfalso
    refine key (b + 1 / 2) (half b) ?_
    have : (b : ℝ) + 1 ≤ a := by exact_mod_cast hab
    rw [Set.mem_uIcc]
    right
    constructor <;> nlinarith

/-- a point that has the whole polygon to the upper right (not being on it) is outside -/
theorem swept_outside (ps : List V2) (x y : ℝ) (hq : ∀ v ∈ ps, x ≤ v.x ∧ y ≤ v.y)
    (hne : ∀ v ∈ ps, toward x y v ≠ 0) : swept x y (polyEdges ps) = 0 := by
  have quad : ∀ v ∈ ps, 0 ≤ arg (toward x y v) ∧ arg (toward x y v) ≤ π / 2 := by
    intro v hv
    have := hq v hv
    refine ⟨arg_nonneg_iff.2 (by simp [toward]; linarith), arg_le_pi_div_two_iff.2 (Or.inl (by simp [toward]; linarith))⟩
  have one : ∀ u ∈ ps, ∀ v ∈ ps, seenAngle x y (u, v) = arg (toward x y v) - arg (toward x y u) := by
    intro u hu v hv
    have a := quad u hu
    have b := quad v hv
    have hpi := Real.pi_pos
    unfold seenAngle
    rw [← arg_coe_angle_toReal_eq_arg (toward x y v / toward x y u), arg_div_coe_angle (hne v hv) (hne u hu),
      ← Real.Angle.coe_sub, Real.Angle.toReal_coe_eq_self_iff]
    constructor <;> linarith
  have many : ∀ (vs : List V2) (u : V2), u ∈ ps → (∀ v ∈ vs, v ∈ ps) →
      swept x y (edgesFrom u vs) = arg (toward x y ((u :: vs).getLast (by simp))) - arg (toward x y u) := by
    intro vs
    induction vs with
    | nil => intro u _ _; simp [swept, edgesFrom]
    | cons v vs ih =>
      intro u hu hvs
      have hv := hvs v (by simp)
      have := ih v hv (fun w hw => hvs w (by simp [hw]))
      simp only [swept, edgesFrom, List.map_cons, List.sum_cons] at this ⊢
      rw [this, one u hu v hv, List.getLast_cons (by simp : v :: vs ≠ [])]
      ring
  cases ps with
  | nil => simp [swept, polyEdges]
  | cons v vs =>
    have e : polyEdges (v :: vs) = edgesFrom ((v :: vs).getLast (by simp)) (v :: vs) := by
      unfold polyEdges
      rw [List.getLast?_eq_getLast_of_ne_nil (by simp)]
    rw [e, many (v :: vs) _ (List.getLast_mem _) (fun w hw => hw), List.getLast_cons (by simp), sub_self]

end CE.Vec
