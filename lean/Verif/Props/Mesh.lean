import Verif.Props.Vec
import Verif.Proof.Winding
import Verif.Spec.Mesh
import Mathlib.Algebra.BigOperators.Group.Multiset.Basic
/-!
# C44: every point is inside exactly one triangle of a mesh
-/
namespace CE.Vec

theorem Eventually.mono {P Q : ℚ → ℚ → Prop} (h : Eventually P) (hq : ∀ ε δ, P ε δ → Q ε δ) :
    Eventually Q := by
  obtain ⟨e, he, h⟩ := h
  refine ⟨e, he, fun ε h1 h2 => ?_⟩
  obtain ⟨d, hd, h⟩ := h ε h1 h2
  exact ⟨d, hd, fun δ h3 h4 => hq _ _ (h δ h3 h4)⟩

theorem Eventually.and {P Q : ℚ → ℚ → Prop} (h : Eventually P) (h' : Eventually Q) :
    Eventually fun ε δ => P ε δ ∧ Q ε δ := by
  obtain ⟨e, he, h⟩ := h
  obtain ⟨e', he', h'⟩ := h'
  refine ⟨min e e', lt_min he he', fun ε h1 h2 => ?_⟩
  obtain ⟨d, hd, h⟩ := h ε h1 (h2.trans_le (min_le_left _ _))
  obtain ⟨d', hd', h'⟩ := h' ε h1 (h2.trans_le (min_le_right _ _))
  exact ⟨min d d', lt_min hd hd', fun δ h3 h4 =>
    ⟨h δ h3 (h4.trans_le (min_le_left _ _)), h' δ h3 (h4.trans_le (min_le_right _ _))⟩⟩

theorem Eventually.all {α : Type} (l : List α) {P : α → ℚ → ℚ → Prop}
    (h : ∀ a ∈ l, Eventually (P a)) : Eventually fun ε δ => ∀ a ∈ l, P a ε δ := by
  induction l with
  | nil => exact ⟨1, one_pos, fun _ _ _ => ⟨1, one_pos, fun _ _ _ => by simp⟩⟩
  | cons a l ih =>
    have := (h a (by simp)).and (ih fun b hb => h b (by simp [hb]))
    exact this.mono fun ε δ hP b hb => by
      rcases List.mem_cons.1 hb with rfl | hb
      · exact hP.1
      · exact hP.2 b hb

theorem Eventually.small (η : ℚ) (hη : 0 < η) :
    Eventually fun ε δ => 0 < ε ∧ ε < η ∧ 0 < δ ∧ δ < η :=
  ⟨η, hη, fun _ h1 h2 => ⟨η, hη, fun _ h3 h4 => ⟨h1, h2, h3, h4⟩⟩⟩

theorem Eventually.exists {P : ℚ → ℚ → Prop} (h : Eventually P) : ∃ ε δ, P ε δ := by
  obtain ⟨e, he, h⟩ := h
  obtain ⟨d, hd, h⟩ := h (e / 2) (by linarith) (by linarith)
  exact ⟨_, _, h (d / 2) (by linarith) (by linarith)⟩

/-- the edge test of the code, as a side test of the displaced point -/
theorem inside_side (p u v : V2) (r : Bool)
    (h : inside ⟨u.x - p.x, u.y - p.y⟩ ⟨v.x - p.x, v.y - p.y⟩ = some r) :
    Eventually fun ε δ => (r = true ↔ side (p.x - ε) (p.y - δ) (u, v) < 0) := by
  refine (C43_simulation_of_simplicity _ _ _ h).mono fun ε δ hE => hE.trans ?_
  have : crossQ (((u.x - p.x : ℤ) : ℚ) + ε) (((u.y - p.y : ℤ) : ℚ) + δ) (((v.x - p.x : ℤ) : ℚ) + ε)
      (((v.y - p.y : ℤ) : ℚ) + δ) = side (p.x - ε) (p.y - δ) (u, v) := by
    unfold side crossQ; push_cast; ring
  exact iff_of_eq (congrArg (· < 0) this)

theorem side_swap (x y : ℚ) (u v : V2) : side x y (v, u) = -side x y (u, v) := by
  unfold side crossQ; ring

/-- displaced points are on no line through two different vertices -/
theorem side_ne (p u v : V2) (huv : u ≠ v) (hux : Is32 (u.x - p.x)) (huy : Is32 (u.y - p.y))
    (hvx : Is32 (v.x - p.x)) (hvy : Is32 (v.y - p.y)) :
    Eventually fun ε δ => side (p.x - ε) (p.y - δ) (u, v) ≠ 0 := by
  obtain ⟨r, hr⟩ := C43_defined ⟨u.x - p.x, u.y - p.y⟩ ⟨v.x - p.x, v.y - p.y⟩ hux huy hvx hvy
  obtain ⟨s, hs⟩ := C43_defined ⟨v.x - p.x, v.y - p.y⟩ ⟨u.x - p.x, u.y - p.y⟩ hvx hvy hux huy
  have hne : (⟨u.x - p.x, u.y - p.y⟩ : V2) ≠ ⟨v.x - p.x, v.y - p.y⟩ := by
    intro hc
    simp only [V2.mk.injEq] at hc
    exact huv (V2.ext (by omega) (by omega))
  have hrs := C43_antisymmetric _ _ hne r s hr hs
  refine ((inside_side p u v r hr).and (inside_side p v u s hs)).mono fun ε δ ⟨h1, h2⟩ => ?_
  cases r with
  | true => exact (h1.1 rfl).ne
  | false =>
    have := h2.1 hrs
    rw [side_swap] at this
    intro hc
    rw [hc] at this
    simp at this

theorem inTriangle_some {p a b c : V2} {r : Bool} (h : inTriangle p a b c = some r) :
    (Is32 (a.x - p.x) ∧ Is32 (a.y - p.y)) ∧ (Is32 (b.x - p.x) ∧ Is32 (b.y - p.y)) ∧
    (Is32 (c.x - p.x) ∧ Is32 (c.y - p.y)) ∧ ∃ r1 r2 r3,
      inside ⟨a.x - p.x, a.y - p.y⟩ ⟨b.x - p.x, b.y - p.y⟩ = some r1 ∧
      inside ⟨b.x - p.x, b.y - p.y⟩ ⟨c.x - p.x, c.y - p.y⟩ = some r2 ∧
      inside ⟨c.x - p.x, c.y - p.y⟩ ⟨a.x - p.x, a.y - p.y⟩ = some r3 ∧ r = (r1 && r2 && r3) := by
  unfold inTriangle at h
  simp only [Option.bind_eq_bind, Option.bind_eq_some_iff, i32_iff, Option.pure_def, Option.some.injEq] at h
  obtain ⟨_, ⟨rfl, h1⟩, _, ⟨rfl, h2⟩, _, ⟨rfl, h3⟩, _, ⟨rfl, h4⟩, _, ⟨rfl, h5⟩, _, ⟨rfl, h6⟩, r1, e1,
    r2, e2, r3, e3, h⟩ := h
  exact ⟨⟨h1, h2⟩, ⟨h3, h4⟩, ⟨h5, h6⟩, r1, r2, r3, e1, e2, e3, h.symm⟩

/-- C44.  The triangle test is true exactly when the point, displaced by an arbitrarily small amount
to the left and a much smaller amount down, is strictly inside the triangle.  In particular the
test never depends on a tie. -/
theorem C44_displaced_interior (p : V2) (T : Tri) (r : Bool)
    (h : inTriangle p T.a T.b T.c = some r) :
    Eventually fun ε δ => (r = true ↔ T.Interior (p.x - ε) (p.y - δ)) := by
  obtain ⟨-, -, -, r1, r2, r3, e1, e2, e3, rfl⟩ := inTriangle_some h
  refine ((inside_side _ _ _ _ e1).and ((inside_side _ _ _ _ e2).and (inside_side _ _ _ _ e3))).mono
    fun ε δ ⟨h1, h2, h3⟩ => ?_
  unfold Tri.Interior Tri.edges
  simp only [Bool.and_eq_true, List.mem_cons, List.not_mem_nil, or_false, forall_eq_or_imp, forall_eq]
  rw [h1, h2, h3, and_assoc]

/-- C44.  In a mesh without overlapping triangles at most one triangle claims a point. -/
theorem C44_at_most_one (p : V2) (Ts : List Tri) (r : Tri → Bool) (hp : Planar Ts)
    (h : ∀ T ∈ Ts, inTriangle p T.a T.b T.c = some (r T)) : Ts.countP r ≤ 1 := by
  induction Ts with
  | nil => simp
  | cons S Ts ih =>
    have hp' := List.pairwise_cons.1 hp
    have ih := ih hp'.2 fun T hT => h T (by simp [hT])
    rw [List.countP_cons]
    by_cases hS : r S = true
    · have : Ts.countP r = 0 := by
        rw [List.countP_eq_zero]
        intro T hT hrT
        obtain ⟨ε, δ, h1, h2⟩ := ((C44_displaced_interior p S _ (h S (by simp))).and
          (C44_displaced_interior p T _ (h T (by simp [hT])))).exists
        exact hp'.1 T hT _ _ ⟨h1.1 hS, h2.1 hrT⟩
      rw [this, if_pos hS]
    · rw [if_neg hS]; omega

theorem clockwise_ne {T : Tri} (h : T.Clockwise) : T.a ≠ T.b ∧ T.b ≠ T.c ∧ T.c ≠ T.a := by
  unfold Tri.Clockwise at h
  refine ⟨?_, ?_, ?_⟩ <;> intro hc <;> rw [hc] at h
  · simp at h
  · rw [mul_comm] at h; simp at h
  · simp at h

/-- every edge of a triangle is eventually off the displaced point -/
theorem edges_ne (p : V2) (T : Tri) (r : Bool) (hcw : T.Clockwise)
    (h : inTriangle p T.a T.b T.c = some r) :
    Eventually fun ε δ => ∀ e ∈ T.edges, side (p.x - ε) (p.y - δ) e ≠ 0 := by
  obtain ⟨⟨a1, a2⟩, ⟨b1, b2⟩, ⟨c1, c2⟩, -⟩ := inTriangle_some h
  obtain ⟨n1, n2, n3⟩ := clockwise_ne hcw
  apply Eventually.all
  intro e he
  unfold Tri.edges at he
  simp only [List.mem_cons, List.not_mem_nil, or_false] at he
  rcases he with rfl | rfl | rfl
  · exact side_ne p _ _ n1 a1 a2 b1 b2
  · exact side_ne p _ _ n2 b1 b2 c1 c2
  · exact side_ne p _ _ n3 c1 c2 a1 a2

/-- C44.  In a planar mesh of non-degenerate clockwise triangles, a point that the mesh surrounds
(also one on an edge or a vertex) is claimed by exactly one triangle. -/
theorem C44_exactly_one (p : V2) (Ts : List Tri) (r : Tri → Bool) (hp : Planar Ts)
    (hcw : ∀ T ∈ Ts, T.Clockwise) (hcov : CoversNear Ts p)
    (h : ∀ T ∈ Ts, inTriangle p T.a T.b T.c = some (r T)) : Ts.countP r = 1 := by
  have hle := C44_at_most_one p Ts r hp h
  have hge : 0 < Ts.countP r := by
    rw [List.countP_pos_iff]
    obtain ⟨η, hη, hcov⟩ := hcov
    have e1 := Eventually.all Ts fun T hT => (C44_displaced_interior p T _ (h T hT)).and
      (edges_ne p T _ (hcw T hT) (h T hT))
    obtain ⟨ε, δ, hall, h1, h2, h3, h4⟩ := (e1.and (Eventually.small η hη)).exists
    obtain ⟨T, hT, hc⟩ := hcov (p.x - ε) (p.y - δ) (by rw [abs_lt]; constructor <;> linarith)
      (by rw [abs_lt]; constructor <;> linarith)
    refine ⟨T, hT, (hall T hT).1.2 fun e he => ?_⟩
    exact lt_of_le_of_ne (hc e he) ((hall T hT).2 e he)
  omega

/-! ## the winding number form -/

open Complex Real

theorem toward_cross (x y : ℚ) (e : V2 × V2) :
    (toward x y e.1).re * (toward x y e.2).im - (toward x y e.1).im * (toward x y e.2).re =
      ((side x y e : ℚ) : ℝ) := by
  unfold toward side crossQ
  push_cast
  ring

theorem toward_ne {x y : ℚ} {e : V2 × V2} (h : side x y e ≠ 0) :
    toward x y e.1 ≠ 0 ∧ toward x y e.2 ≠ 0 := by
  have hc := toward_cross x y e
  have hs : ((side x y e : ℚ) : ℝ) ≠ 0 := by exact_mod_cast h
  constructor <;> intro h0 <;> rw [h0] at hc <;> simp at hc <;> exact hs hc.symm

theorem seenAngle_swap {x y : ℚ} {e : V2 × V2} (h : side x y e ≠ 0) :
    seenAngle x y e.swap = -seenAngle x y e := by
  unfold seenAngle
  apply arg_flip
  intro hpi
  rw [Prod.fst_swap, Prod.snd_swap] at hpi
  have := (arg_eq_pi_iff.1 hpi).2
  rw [im_div, toward_cross, div_eq_zero_iff] at this
  rcases this with h' | h'
  · exact h (by exact_mod_cast h')
  · exact (normSq_pos.2 (toward_ne h).1).ne' h'

/-- the angles under which a triangle's edges are seen from a point off their lines -/
theorem tri_angle (T : Tri) (hcw : T.Clockwise) (x y : ℚ) (hne : ∀ e ∈ T.edges, side x y e ≠ 0)
    [Decidable (T.Interior x y)] :
    (T.edges.map (seenAngle x y)).sum = -2 * π * (if T.Interior x y then 1 else 0) := by
  have h1 := hne (T.a, T.b) (by simp [Tri.edges])
  have h2 := hne (T.b, T.c) (by simp [Tri.edges])
  have h3 := hne (T.c, T.a) (by simp [Tri.edges])
  have c1 := toward_cross x y (T.a, T.b)
  have c2 := toward_cross x y (T.b, T.c)
  have c3 := toward_cross x y (T.c, T.a)
  dsimp only at c1 c2 c3
  have q : ∀ {e : V2 × V2}, side x y e ≠ 0 → ((side x y e : ℚ) : ℝ) ≠ 0 := fun h => by exact_mod_cast h
  have hsum : side x y (T.a, T.b) + side x y (T.b, T.c) + side x y (T.c, T.a) < 0 := by
    have : side x y (T.a, T.b) + side x y (T.b, T.c) + side x y (T.c, T.a) =
        (((T.b.x - T.a.x) * (T.c.y - T.a.y) - (T.b.y - T.a.y) * (T.c.x - T.a.x) : ℤ) : ℚ) := by
      unfold side crossQ; push_cast; ring
    rw [this]
    unfold Tri.Clockwise at hcw
    exact_mod_cast hcw
  have := triangle_sum (a := toward x y T.a) (b := toward x y T.b) (c := toward x y T.c)
    (toward_ne h1).1 (toward_ne h2).1 (toward_ne h3).1 (by rw [c1]; exact q h1) (by rw [c2]; exact q h2)
    (by rw [c3]; exact q h3) (by rw [c1, c2, c3]; exact_mod_cast hsum)
  rw [c1, c2, c3] at this
  have lt0 : ∀ z : ℚ, ((z : ℝ) < 0) ↔ z < 0 := fun z => by exact_mod_cast Iff.rfl
  simp only [lt0] at this
  have hI : T.Interior x y ↔ side x y (T.a, T.b) < 0 ∧ side x y (T.b, T.c) < 0 ∧ side x y (T.c, T.a) < 0 := by
    unfold Tri.Interior Tri.edges
    simp only [List.mem_cons, List.not_mem_nil, or_false, forall_eq_or_imp, forall_eq]
  unfold Tri.edges seenAngle
  simp only [List.map_cons, List.map_nil, List.sum_cons, List.sum_nil, add_zero]
  rw [← add_assoc, this]
  simp only [hI]

/-- C44.  For every mesh of clockwise triangles whose interior edges occur in both directions: the
number of triangles that claim the point is minus the winding number of the boundary around the
(displaced) point. -/
theorem C44_count_is_winding (p : V2) (Ts : List Tri) (r : Tri → Bool)
    (hcw : ∀ T ∈ Ts, T.Clockwise) (Bd : Multiset (V2 × V2)) (hb : IsBoundary Ts Bd)
    (h : ∀ T ∈ Ts, inTriangle p T.a T.b T.c = some (r T)) :
    Eventually fun ε δ => (Bd.map (seenAngle ((p.x - ε : ℚ) : ℝ) ((p.y - δ : ℚ) : ℝ))).sum =
      -2 * π * (Ts.countP r : ℕ) := by
  classical
  have e1 := Eventually.all Ts fun T hT => (C44_displaced_interior p T _ (h T hT)).and
    (edges_ne p T _ (hcw T hT) (h T hT))
  refine e1.mono fun ε δ hall => ?_
  generalize hx : (p.x - ε : ℚ) = x at *
  generalize hy : (p.y - δ : ℚ) = y at *
  obtain ⟨I, hI, hsplit⟩ := hb
  have hne : ∀ e ∈ I, side x y e ≠ 0 := by
    intro e he
    have : e ∈ ((Ts.flatMap Tri.edges : List _) : Multiset _) := by
      rw [hsplit]; exact Multiset.mem_add.2 (Or.inr he)
    rw [Multiset.mem_coe, List.mem_flatMap] at this
    obtain ⟨T, hT, heT⟩ := this
    exact (hall T hT).2 e heT
  have hI0 : (I.map (seenAngle (x : ℝ) (y : ℝ))).sum = 0 := by
    have h1 : (I.map (seenAngle (x : ℝ) (y : ℝ))).sum = -(I.map (seenAngle (x : ℝ) (y : ℝ))).sum := by
      conv_lhs => rw [← hI]
      rw [Multiset.map_map, ← Multiset.sum_map_neg']
      congr 1
      rw [Multiset.map_map]
      apply Multiset.map_congr rfl
      intro e he
      exact seenAngle_swap (hne e he)
    linarith
  have htot : (((Ts.flatMap Tri.edges : List _) : Multiset _).map (seenAngle (x : ℝ) (y : ℝ))).sum =
      -2 * π * (Ts.countP r : ℕ) := by
    rw [Multiset.map_coe, Multiset.sum_coe]
    clear hsplit h e1
    induction Ts with
    | nil => simp
    | cons T Ts ih =>
      rw [List.flatMap_cons, List.map_append, List.sum_append, ih (fun S hS => hcw S (by simp [hS]))
        (fun S hS => hall S (by simp [hS])), List.countP_cons,
        tri_angle T (hcw T (by simp)) x y (hall T (by simp)).2]
      have := (hall T (by simp)).1
      by_cases hr : r T = true
      · rw [if_pos (this.1 hr), if_pos hr]; push_cast; ring
      · rw [if_neg (fun hc => hr (this.2 hc)), if_neg hr]; push_cast; ring
  rw [hsplit, Multiset.map_add, Multiset.sum_add, hI0, add_zero] at htot
  exact htot

/-- C44.  If the boundary winds once (clockwise) around the point, exactly one triangle claims it. -/
theorem C44_winds_once (p : V2) (Ts : List Tri) (r : Tri → Bool)
    (hcw : ∀ T ∈ Ts, T.Clockwise) (Bd : Multiset (V2 × V2)) (hb : IsBoundary Ts Bd)
    (h : ∀ T ∈ Ts, inTriangle p T.a T.b T.c = some (r T))
    (hw : Eventually fun ε δ => (Bd.map (seenAngle ((p.x - ε : ℚ) : ℝ) ((p.y - δ : ℚ) : ℝ))).sum = -2 * π) :
    Ts.countP r = 1 := by
  obtain ⟨ε, δ, h1, h2⟩ := ((C44_count_is_winding p Ts r hcw Bd hb h).and hw).exists
  rw [h1] at h2
  have : (Ts.countP r : ℝ) = 1 := by
    have hp : (-2 * π : ℝ) ≠ 0 := by have := Real.pi_pos; intro hc; linarith
    exact mul_left_cancel₀ hp (by rw [h2]; ring)
  exact_mod_cast this

/-- a square of two clockwise triangles; the shared edge occurs in both directions; the centre, on
the shared edge, is claimed by one of them -/
example :
    let T1 : Tri := ⟨⟨0, 0⟩, ⟨0, 2⟩, ⟨2, 2⟩⟩
    let T2 : Tri := ⟨⟨0, 0⟩, ⟨2, 2⟩, ⟨2, 0⟩⟩
    (T1.Clockwise ∧ T2.Clockwise) ∧
    IsBoundary [T1, T2] {(⟨0, 0⟩, ⟨0, 2⟩), (⟨0, 2⟩, ⟨2, 2⟩), (⟨2, 2⟩, ⟨2, 0⟩), (⟨2, 0⟩, ⟨0, 0⟩)} ∧
    inTriangle ⟨1, 1⟩ T1.a T1.b T1.c = some true ∧ inTriangle ⟨1, 1⟩ T2.a T2.b T2.c = some false := by
  refine ⟨⟨by unfold Tri.Clockwise; norm_num, by unfold Tri.Clockwise; norm_num⟩, ?_,
    by decide +kernel, by decide +kernel⟩
  exact ⟨{(⟨2, 2⟩, ⟨0, 0⟩), (⟨0, 0⟩, ⟨2, 2⟩)}, by decide +kernel, by decide +kernel⟩

end CE.Vec
