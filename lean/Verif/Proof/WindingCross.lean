import Verif.Proof.WindingMove
import Mathlib.Topology.Order.Compact
/-! Across a side that a closed polygon passes once its winding number changes by one. -/
namespace CE.Vec

open Complex Real Topology Filter

theorem seen_at {e : V2 × V2} {X Y : ℝ → ℝ} (hX : Continuous X) (hY : Continuous Y) {s : ℝ} (h : ¬OnEdge (X s) (Y s) e) :
    ContinuousAt (fun s => seenAngle (X s) (Y s) e) s := by
  have h1 := toward_nz h
  have h2 := seen_ne_pi h
  unfold seenAngle
  have ct : ∀ v : V2, Continuous fun s => toward (X s) (Y s) v := by
    intro v
    have : (fun s => toward (X s) (Y s) v) = fun s => ((v.x - X s : ℝ) : ℂ) + ((v.y - Y s : ℝ) : ℂ) * I := by
      funext s; apply Complex.ext <;> simp [toward]
    rw [this]
    fun_prop
  have hq : ContinuousAt (fun s => toward (X s) (Y s) e.2 / toward (X s) (Y s) e.1) s :=
    ((ct e.2).continuousAt).div ((ct e.1).continuousAt) h1.1
  have hm : toward (X s) (Y s) e.2 / toward (X s) (Y s) e.1 ∈ slitPlane :=
    mem_slitPlane_iff_arg.2 ⟨h2, div_ne_zero h1.2 h1.1⟩
  exact ContinuousAt.comp (f := fun s => toward (X s) (Y s) e.2 / toward (X s) (Y s) e.1) (continuousAt_arg hm) hq

theorem swept_at (es : List (V2 × V2)) {X Y : ℝ → ℝ} (hX : Continuous X) (hY : Continuous Y) {s : ℝ}
    (h : ∀ e ∈ es, ¬OnEdge (X s) (Y s) e) : ContinuousAt (fun s => swept (X s) (Y s) es) s := by
  induction es with
  | nil => simp only [swept, List.map_nil, List.sum_nil]; exact continuousAt_const
  | cons e es ih =>
    have a := seen_at hX hY (h e (by simp))
    have b := ih (fun e he => h e (by simp [he]))
    simp only [swept, List.map_cons, List.sum_cons] at b ⊢
    exact a.add b

theorem onEdge_closed (e : V2 × V2) : IsClosed {p : ℝ × ℝ | OnEdge p.1 p.2 e} := by
  have : {p : ℝ × ℝ | OnEdge p.1 p.2 e} =
      (fun t : ℝ => ((e.1.x + t * (e.2.x - e.1.x) : ℝ), (e.1.y + t * (e.2.y - e.1.y) : ℝ))) '' Set.Icc 0 1 := by
    ext ⟨x, y⟩
    constructor
    · rintro ⟨t, h0, h1, hx, hy⟩
      exact ⟨t, ⟨h0, h1⟩, by simp only at hx hy; rw [hx, hy]⟩
    · rintro ⟨t, ⟨h0, h1⟩, h⟩
      simp only [Prod.mk.injEq] at h
      exact ⟨t, h0, h1, h.1.symm, h.2.symm⟩
  rw [this]
  exact (isCompact_Icc.image (by fun_prop)).isClosed

theorem off_near {es : List (V2 × V2)} {X Y : ℝ → ℝ} (hX : Continuous X) (hY : Continuous Y) {s : ℝ}
    (h : ∀ e ∈ es, ¬OnEdge (X s) (Y s) e) : ∀ᶠ r in 𝓝 s, ∀ e ∈ es, ¬OnEdge (X r) (Y r) e := by
  induction es with
  | nil => simp
  | cons e es ih =>
    have a : ∀ᶠ r in 𝓝 s, ¬OnEdge (X r) (Y r) e := by
      have ho : IsOpen {r | ¬OnEdge (X r) (Y r) e} :=
        ((onEdge_closed e).preimage (f := fun r => (X r, Y r)) (by fun_prop)).isOpen_compl
      exact ho.mem_nhds (h e (by simp))
    have b := ih (fun e he => h e (by simp [he]))
    filter_upwards [a, b] with r h1 h2 e' he
    rcases List.mem_cons.1 he with rfl | he
    · exact h1
    · exact h2 e' he

/-- on the left of a side that the polygon passes once it winds once more than on the right -/
theorem swept_across (ps : List V2) {pre post : List (V2 × V2)} {e : V2 × V2} (hp : polyEdges ps = pre ++ e :: post) (x y t dx dy : ℝ)
    (t0 : 0 < t) (t1 : t < 1) (hx : x = e.1.x + t * (e.2.x - e.1.x)) (hy : y = e.1.y + t * (e.2.y - e.1.y))
    (once : ∀ e' ∈ pre ++ post, ¬OnEdge x y e') (left : 0 < (e.2.x - e.1.x) * dy - (e.2.y - e.1.y) * dx) :
    ∀ᶠ s in 𝓝 (0 : ℝ), 0 < s → (∀ e' ∈ polyEdges ps, ¬OnEdge (x + s * dx) (y + s * dy) e') ∧
      (∀ e' ∈ polyEdges ps, ¬OnEdge (x - s * dx) (y - s * dy) e') ∧
      swept (x + s * dx) (y + s * dy) (polyEdges ps) = swept (x - s * dx) (y - s * dy) (polyEdges ps) + 2 * π := by
  have once' : ∀ e' ∈ pre ++ post, ¬OnEdge (x + 0 * dx) (y + 0 * dy) e' := by simpa using once
  have once'' : ∀ e' ∈ pre ++ post, ¬OnEdge (x - 0 * dx) (y - 0 * dy) e' := by simpa using once
  have o1 := off_near (X := fun s => x + s * dx) (Y := fun s => y + s * dy) (by fun_prop) (by fun_prop) once'
  have o2 := off_near (X := fun s => x - s * dx) (Y := fun s => y - s * dy) (by fun_prop) (by fun_prop) once''
  have c1 := swept_at _ (X := fun s => x + s * dx) (Y := fun s => y + s * dy) (by fun_prop) (by fun_prop) once'
  have c2 := swept_at _ (X := fun s => x - s * dx) (Y := fun s => y - s * dy) (by fun_prop) (by fun_prop) once''
  have hpi := Real.pi_pos
  have c3 : ∀ᶠ s in 𝓝 (0 : ℝ), |swept (x + s * dx) (y + s * dy) (pre ++ post) - swept (x - s * dx) (y - s * dy) (pre ++ post)| < π / 2 := by
    have : ContinuousAt (fun s => |swept (x + s * dx) (y + s * dy) (pre ++ post) - swept (x - s * dx) (y - s * dy) (pre ++ post)|) 0 :=
      (c1.sub c2).abs
    refine this.eventually_lt (continuousAt_const (y := π / 2)) ?_
    simp; positivity
  -- the ends of the side are seen in opposite directions
  generalize hDx : ((e.2.x : ℝ) - e.1.x) = Dx at *
  generalize hDy : ((e.2.y : ℝ) - e.1.y) = Dy at *
  have hD : 0 < Dx * Dx + Dy * Dy := by
    rcases eq_or_ne Dx 0 with h | h
    · rcases eq_or_ne Dy 0 with h' | h'
      · rw [h, h'] at left; simp at left
      · have : 0 < Dy * Dy := mul_self_pos.2 h'
        nlinarith [mul_self_nonneg Dx]
    · have : 0 < Dx * Dx := mul_self_pos.2 h
      nlinarith [mul_self_nonneg Dy]
  have dot : ∀ᶠ s in 𝓝 (0 : ℝ), (-t * Dx - s * dx) * ((1 - t) * Dx - s * dx) + (-t * Dy - s * dy) * ((1 - t) * Dy - s * dy) < 0 := by
    have : ContinuousAt (fun s : ℝ => (-t * Dx - s * dx) * ((1 - t) * Dx - s * dx) + (-t * Dy - s * dy) * ((1 - t) * Dy - s * dy)) 0 := by
      fun_prop
    refine this.eventually_lt (continuousAt_const (y := 0)) ?_
    have : 0 < t * (1 - t) * (Dx * Dx + Dy * Dy) := mul_pos (mul_pos t0 (by linarith)) hD
    nlinarith
  have dot' : ∀ᶠ s in 𝓝 (0 : ℝ), (-t * Dx + s * dx) * ((1 - t) * Dx + s * dx) + (-t * Dy + s * dy) * ((1 - t) * Dy + s * dy) < 0 := by
    have : ContinuousAt (fun s : ℝ => (-t * Dx + s * dx) * ((1 - t) * Dx + s * dx) + (-t * Dy + s * dy) * ((1 - t) * Dy + s * dy)) 0 := by
      fun_prop
    refine this.eventually_lt (continuousAt_const (y := 0)) ?_
    have : 0 < t * (1 - t) * (Dx * Dx + Dy * Dy) := mul_pos (mul_pos t0 (by linarith)) hD
    nlinarith
  filter_upwards [o1, o2, c3, dot, dot'] with s o1 o2 c3 dot dot' hs
  have tw : ∀ r : ℝ, toward (x + r * dx) (y + r * dy) e.1 = ⟨-t * Dx - r * dx, -t * Dy - r * dy⟩ ∧
      toward (x + r * dx) (y + r * dy) e.2 = ⟨(1 - t) * Dx - r * dx, (1 - t) * Dy - r * dy⟩ := by
    intro r
    have h2x : (e.2.x : ℝ) = e.1.x + Dx := by linarith
    have h2y : (e.2.y : ℝ) = e.1.y + Dy := by linarith
    constructor <;> apply Complex.ext <;> simp only [toward, hx, hy, h2x, h2y] <;> ring
  have offe : ∀ r : ℝ, r ≠ 0 → ¬OnEdge (x + r * dx) (y + r * dy) e := by
    rintro r hr ⟨q, -, -, h1, h2⟩
    rw [hDx] at h1
    rw [hDy] at h2
    have : r * (Dx * dy - Dy * dx) = 0 := by
      have e1 : r * dx = (q - t) * Dx := by linarith
      have e2 : r * dy = (q - t) * Dy := by linarith
      linear_combination Dx * e2 - Dy * e1
    rcases mul_eq_zero.1 this with h | h
    · exact hr h
    · linarith
  have all : ∀ r : ℝ, r ≠ 0 → (∀ e' ∈ pre ++ post, ¬OnEdge (x + r * dx) (y + r * dy) e') →
      ∀ e' ∈ polyEdges ps, ¬OnEdge (x + r * dx) (y + r * dy) e' := by
    intro r hr h e' he
    rw [hp] at he
    simp only [List.mem_append, List.mem_cons] at he h
    rcases he with h' | rfl | h'
    · exact h _ (.inl h')
    · exact offe r hr
    · exact h _ (.inr h')
  have neg : ∀ d : ℝ, x - s * d = x + (-s) * d := fun d => by ring
  have neg' : ∀ d : ℝ, y - s * d = y + (-s) * d := fun d => by ring
  have sum : ∀ r : ℝ, swept (x + r * dx) (y + r * dy) (polyEdges ps) = swept (x + r * dx) (y + r * dy) (pre ++ post) +
      seenAngle (x + r * dx) (y + r * dy) e := by
    intro r
    rw [hp]
    simp only [swept, List.map_append, List.map_cons, List.sum_append, List.sum_cons]
    ring
  have im : ∀ r : ℝ, r ≠ 0 → (toward (x + r * dx) (y + r * dy) e.2 / toward (x + r * dx) (y + r * dy) e.1).im =
      r * (Dx * dy - Dy * dx) / normSq (toward (x + r * dx) (y + r * dy) e.1) := by
    intro r hr
    rw [im_div, (tw r).1, (tw r).2]
    congr 1
    ring
  have re : ∀ r : ℝ, r ≠ 0 → (toward (x + r * dx) (y + r * dy) e.2 / toward (x + r * dx) (y + r * dy) e.1).re =
      ((-t * Dx - r * dx) * ((1 - t) * Dx - r * dx) + (-t * Dy - r * dy) * ((1 - t) * Dy - r * dy)) / normSq (toward (x + r * dx) (y + r * dy) e.1) := by
    intro r hr
    rw [re_div, (tw r).1, (tw r).2]
  have np : ∀ r : ℝ, r ≠ 0 → 0 < normSq (toward (x + r * dx) (y + r * dy) e.1) := fun r hr =>
    normSq_pos.2 (toward_nz (offe r hr)).1
  have g1 : π / 2 < seenAngle (x + s * dx) (y + s * dy) e := by
    unfold seenAngle
    by_contra h
    rw [not_lt, arg_le_pi_div_two_iff, im s hs.ne', re s hs.ne'] at h
    rcases h with h | h
    · exact absurd (div_neg_of_neg_of_pos dot (np s hs.ne')) (not_lt.2 h)
    · exact absurd (div_pos (mul_pos hs left) (np s hs.ne')) (not_lt.2 h.le)
  have ns : -s ≠ 0 := by simpa using hs.ne'
  have g2 : seenAngle (x + -s * dx) (y + -s * dy) e < -(π / 2) := by
    unfold seenAngle
    by_contra h
    rw [not_lt, neg_pi_div_two_le_arg_iff, im (-s) ns, re (-s) ns] at h
    rcases h with h | h
    · refine absurd (div_neg_of_neg_of_pos ?_ (np (-s) ns)) (not_lt.2 h)
      nlinarith
    · refine absurd (div_neg_of_neg_of_pos ?_ (np (-s) ns)) (not_lt.2 h)
      nlinarith
  have g1' : seenAngle (x + s * dx) (y + s * dy) e ≤ π := arg_le_pi _
  have g2' : -π < seenAngle (x + -s * dx) (y + -s * dy) e := neg_pi_lt_arg _
  rw [neg dx, neg' dy] at c3
  simp only [neg, neg'] at o2 ⊢
  have A1 := all s hs.ne' o1
  have A2 := all (-s) ns o2
  refine ⟨A1, A2, ?_⟩
  obtain ⟨a, ha⟩ := swept_turns _ _ ps A1
  obtain ⟨b, hb⟩ := swept_turns _ _ ps A2
  have s1 := sum s
  have s2 := sum (-s)
  rw [abs_lt] at c3
  rw [ha] at s1 ⊢
  rw [hb] at s2 ⊢
  have k1 : 2 * π * (((0 : ℤ) : ℝ)) < 2 * π * ((a - b : ℤ) : ℝ) := by push_cast; linarith
  have k2 : 2 * π * ((a - b : ℤ) : ℝ) < 2 * π * (((2 : ℤ) : ℝ)) := by push_cast; linarith
  have k := int_of_bounds k1 k2
  have : a = b + 1 := by omega
  rw [this]; push_cast; ring

end CE.Vec
