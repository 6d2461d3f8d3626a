import Verif.Spec.Best
import Verif.Proof.Interpolate
import Mathlib.Topology.Instances.Rat
import Mathlib.Topology.Order.DenselyOrdered
namespace CE.Vec
open Filter Topology

/-- twice the signed area -/
def triArea (a b c : V2) : Int := (b.x - a.x) * (c.y - a.y) - (b.y - a.y) * (c.x - a.x)

theorem side_mix (x y x' y' t : ℚ) (e : V2 × V2) :
    side (x + t * (x' - x)) (y + t * (y' - y)) e = (1 - t) * side x y e + t * side x' y' e := by
  unfold side crossQ; ring

theorem side_at (p a b : V2) : side p.x p.y (a, b) = triArea p a b := by
  unfold side crossQ triArea; push_cast; ring

theorem Tri.interior_iff {T : Tri} {x y : ℚ} :
    T.Interior x y ↔ side x y (T.a, T.b) < 0 ∧ side x y (T.b, T.c) < 0 ∧ side x y (T.c, T.a) < 0 := by
  simp [Tri.Interior, Tri.edges]

theorem Tri.closed_iff {T : Tri} {x y : ℚ} :
    T.Closed x y ↔ side x y (T.a, T.b) ≤ 0 ∧ side x y (T.b, T.c) ≤ 0 ∧ side x y (T.c, T.a) ≤ 0 := by
  simp [Tri.Closed, Tri.edges]

theorem Tri.Interior.closed {T : Tri} {x y : ℚ} (h : T.Interior x y) : T.Closed x y := fun e he => (h e he).le

/-- on the way from a point of the triangle to one inside, all others are inside -/
theorem Tri.Closed.mix {T : Tri} {x y x' y' t : ℚ} (h : T.Closed x y) (h' : T.Interior x' y') (t0 : 0 < t) (t1 : t ≤ 1) :
    T.Interior (x + t * (x' - x)) (y + t * (y' - y)) := by
  intro e he
  rw [side_mix]
  nlinarith [h e he, h' e he]

theorem Tri.centre {T : Tri} (h : T.Clockwise) : T.Interior ((T.a.x + T.b.x + T.c.x) / 3) ((T.a.y + T.b.y + T.c.y) / 3) := by
  unfold Tri.Clockwise at h
  have h : (((T.b.x - T.a.x) * (T.c.y - T.a.y) - (T.b.y - T.a.y) * (T.c.x - T.a.x) : ℤ) : ℚ) < 0 := by exact_mod_cast h
  push_cast at h
  rw [Tri.interior_iff]
  unfold side crossQ
  refine ⟨?_, ?_, ?_⟩ <;> nlinarith

/-- a point inside stays inside when moved a little -/
theorem Tri.Interior.near {T : Tri} {x y : ℚ} (h : T.Interior x y) (x' y' : ℚ) :
    ∀ᶠ t in 𝓝[>] (0 : ℚ), T.Interior (x + t * (x' - x)) (y + t * (y' - y)) := by
  have one : ∀ e, side x y e < 0 → ∀ᶠ t in 𝓝[>] (0 : ℚ), side (x + t * (x' - x)) (y + t * (y' - y)) e < 0 := by
    intro e he
    refine nhdsWithin_le_nhds ?_
    have c : ContinuousAt (fun t : ℚ => (1 - t) * side x y e + t * side x' y' e) 0 := by fun_prop
    refine (c.eventually (Iio_mem_nhds (a := (0 : ℚ)) ?_)).mono fun t ht => ?_
    · simpa using he
    · rw [side_mix]; exact ht
  rw [Tri.interior_iff] at h
  filter_upwards [one _ h.1, one _ h.2.1, one _ h.2.2] with t h1 h2 h3
  exact Tri.interior_iff.2 ⟨h1, h2, h3⟩

/-- a point of one triangle inside another: a point inside both -/
theorem Tri.Closed.both {S T : Tri} (cw : T.Clockwise) {x y : ℚ} (hS : S.Interior x y) (hT : T.Closed x y) :
    ∃ x y, S.Interior x y ∧ T.Interior x y := by
  have e : ∀ᶠ t in 𝓝[>] (0 : ℚ), 0 < t ∧ t ≤ 1 := by
    filter_upwards [self_mem_nhdsWithin, nhdsWithin_le_nhds (Iic_mem_nhds (show (0 : ℚ) < 1 by norm_num))] with t h1 h2
    exact ⟨h1, h2⟩
  obtain ⟨t, h, h0, h1⟩ := ((hS.near _ _).and e).exists
  exact ⟨_, _, h, hT.mix (Tri.centre cw) h0 h1⟩

/-- of finitely many triangles one serves again and again -/
theorem pigeon {Ts : List Tri} {P : ℚ → Tri → Prop} (h : ∀ᶠ t in 𝓝[>] (0 : ℚ), ∃ T ∈ Ts, P t T) :
    ∃ T ∈ Ts, ∃ᶠ t in 𝓝[>] (0 : ℚ), P t T := by
  induction Ts with
  | nil => obtain ⟨t, T, hT, -⟩ := h.exists; simp at hT
  | cons T Ts ih =>
    by_cases c : ∃ᶠ t in 𝓝[>] (0 : ℚ), P t T
    · exact ⟨T, by simp, c⟩
    · obtain ⟨T', hT', h'⟩ := ih (by
        filter_upwards [h, not_frequently.1 c] with t ht hn
        obtain ⟨T', hT', h'⟩ := ht
        rcases List.mem_cons.1 hT' with rfl | hT'
        · exact absurd h' hn
        · exact ⟨T', hT', h'⟩)
      exact ⟨T', List.mem_cons_of_mem _ hT', h'⟩

/-- the signs of the coefficients of what is not positive again and again -/
theorem signs {k a b : ℚ} (h : ∃ᶠ t in 𝓝[>] (0 : ℚ), (1 - t - t ^ 2) * k + t * a + t ^ 2 * b ≤ 0) :
    k ≤ 0 ∧ (k = 0 → a ≤ 0) ∧ (k = 0 → a = 0 → b ≤ 0) := by
  refine ⟨?_, ?_, ?_⟩
  · by_contra hk
    push Not at hk
    refine h ?_
    have c : ContinuousAt (fun t : ℚ => (1 - t - t ^ 2) * k + t * a + t ^ 2 * b) 0 := by fun_prop
    refine nhdsWithin_le_nhds ((c.eventually (lt_mem_nhds (a := 0) (by simpa using hk))).mono fun t ht => not_le.2 ht)
  · rintro rfl
    by_contra hk
    push Not at hk
    refine h ?_
    have c : ContinuousAt (fun t : ℚ => a + t * b) 0 := by fun_prop
    filter_upwards [self_mem_nhdsWithin, nhdsWithin_le_nhds (c.eventually (lt_mem_nhds (a := 0) (by simpa using hk)))] with t h1 h2
    rw [Set.mem_Ioi] at h1
    nlinarith [mul_pos h1 h2]
  · rintro rfl rfl
    by_contra hk
    push Not at hk
    refine h ?_
    filter_upwards [self_mem_nhdsWithin] with t h1
    rw [Set.mem_Ioi] at h1
    nlinarith [mul_pos (mul_pos h1 h1) hk]

/-- of the triangles that cover `a b c`, one that has points inside it near `a` and close to the side towards `b` -/
theorem corner_near {Ts : List Tri} {a b c : V2} (cw : (Tri.mk a b c).Clockwise) (ccw : ∀ T ∈ Ts, T.Clockwise)
    (cov : ∀ x y, (Tri.mk a b c).Closed x y → ∃ T ∈ Ts, T.Closed x y) :
    ∃ T ∈ Ts, (∃ x y, (Tri.mk a b c).Interior x y ∧ T.Interior x y) ∧ T.Closed a.x a.y ∧ ∀ e ∈ T.edges, side a.x a.y e = 0 →
      side b.x b.y e ≤ 0 ∧ (side b.x b.y e = 0 → side c.x c.y e ≤ 0) := by
  have e : ∀ (t : ℚ) (e : V2 × V2), side ((1 - t - t ^ 2) * a.x + t * b.x + t ^ 2 * c.x) ((1 - t - t ^ 2) * a.y + t * b.y + t ^ 2 * c.y) e =
      (1 - t - t ^ 2) * side a.x a.y e + t * side b.x b.y e + t ^ 2 * side c.x c.y e := by
    intro t e; unfold side crossQ; ring
  have ins : ∀ᶠ t in 𝓝[>] (0 : ℚ),
      (Tri.mk a b c).Interior ((1 - t - t ^ 2) * a.x + t * b.x + t ^ 2 * c.x) ((1 - t - t ^ 2) * a.y + t * b.y + t ^ 2 * c.y) := by
    have cw' : ((triArea a b c : ℤ) : ℚ) < 0 := by exact_mod_cast cw
    filter_upwards [self_mem_nhdsWithin, nhdsWithin_le_nhds (Iio_mem_nhds (show (0 : ℚ) < 1 / 2 by norm_num))] with t h1 h2
    rw [Set.mem_Ioi] at h1
    rw [Set.mem_Iio] at h2
    have h3 : 0 < 1 - t - t ^ 2 := by nlinarith
    rw [Tri.interior_iff, e, e, e, side_at, side_at, side_at, side_at, side_at, side_at, side_at, side_at, side_at]
    have z1 : ∀ p q : V2, triArea p p q = 0 := fun p q => by unfold triArea; ring
    have z2 : ∀ p q : V2, triArea p q p = 0 := fun p q => by unfold triArea; ring
    have r1 : triArea b c a = triArea a b c := by unfold triArea; ring
    have r2 : triArea c a b = triArea a b c := by unfold triArea; ring
    simp only [z1, z2, r1, r2]
    push_cast
    refine ⟨by nlinarith [pow_pos h1 2], by nlinarith, by nlinarith⟩
  obtain ⟨T, hT, fr⟩ := pigeon (ins.mono fun t ht => cov _ _ ht.closed)
  obtain ⟨t, ht, hi⟩ := (fr.and_eventually ins).exists
  refine ⟨T, hT, Tri.Closed.both (ccw T hT) hi ht, fun e' he => ?_, fun e' he h0 => ?_⟩
  · exact (signs (fr.mono fun t ht => by rw [← e]; exact ht e' he)).1
  · have := signs (fr.mono fun t ht => by rw [← e]; exact ht e' he)
    exact ⟨this.2.1 h0, this.2.2 h0⟩

/-- of the triangles that cover another one, one at a given point that has points inside it -/
theorem cover_near {Ts : List Tri} {S : Tri} (cw : S.Clockwise) (ccw : ∀ T ∈ Ts, T.Clockwise)
    (cov : ∀ x y, S.Closed x y → ∃ T ∈ Ts, T.Closed x y) {x y : ℚ} (h : S.Closed x y) :
    ∃ T ∈ Ts, (∃ x y, S.Interior x y ∧ T.Interior x y) ∧ T.Closed x y := by
  have C := Tri.centre cw
  generalize (((S.a.x + S.b.x + S.c.x : ℚ)) / 3) = gx at C
  generalize (((S.a.y + S.b.y + S.c.y : ℚ)) / 3) = gy at C
  have ins : ∀ᶠ t in 𝓝[>] (0 : ℚ), S.Interior (x + t * (gx - x)) (y + t * (gy - y)) := by
    filter_upwards [self_mem_nhdsWithin, nhdsWithin_le_nhds (Iic_mem_nhds (show (0 : ℚ) < 1 by norm_num))] with t h1 h2
    exact h.mix C h1 h2
  obtain ⟨T, hT, fr⟩ := pigeon (ins.mono fun t ht => cov _ _ ht.closed)
  obtain ⟨t, ht, hi⟩ := (fr.and_eventually ins).exists
  refine ⟨T, hT, Tri.Closed.both (ccw T hT) hi ht, fun e he => ?_⟩
  refine (signs (k := side x y e) (a := side gx gy e) (b := side x y e) (fr.mono fun t ht => ?_)).1
  have := ht e he
  rw [side_mix] at this
  linarith

/-- angles compare as cotangents do -/
theorem angleAt_le {a b c a' b' c' : V2} (h1 : triArea a b c < 0) (h2 : triArea a' b' c' < 0)
    (h : ((a'.x - b'.x) * (c'.x - b'.x) + (a'.y - b'.y) * (c'.y - b'.y)) * -triArea a b c ≤
      ((a.x - b.x) * (c.x - b.x) + (a.y - b.y) * (c.y - b.y)) * -triArea a' b' c') :
    angleAt a b c ≤ angleAt a' b' c' := by
  unfold angleAt
  refine Cdt.arccos_mono (c1 := ((-triArea a b c : ℤ) : ℝ)) (c2 := ((-triArea a' b' c' : ℤ) : ℝ)) (by exact_mod_cast (by omega))
    (by exact_mod_cast (by omega)) ?_ ?_ (by exact_mod_cast h)
  · norm_cast
    unfold triArea
    ring
  · norm_cast
    unfold triArea
    ring

/-- the triangle `a x y` with `b` beyond the side `x y` and `y` on the side of `c` but not inside the circle of `a b c`: its angle at `y` is not
larger than that at `c` -/
theorem angle_beyond {a b c x y : V2} (h1 : triArea a b c < 0) (h2 : triArea a x y < 0) (h3 : triArea a b y < 0) (h4 : 0 ≤ triArea x y b)
    (circ : 0 ≤ Cdt.circleDet a.x a.y b.x b.y c.x c.y y.x y.y) : angleAt x y a ≤ angleAt b c a := by
  have r : ∀ p q s : V2, triArea q s p = triArea p q s := fun p q s => by unfold triArea; ring
  refine (angleAt_le (a' := b) (b' := y) (c' := a) (by rw [r]; exact h2) (by rw [r]; exact h3) ?_).trans
    (angleAt_le (by rw [r]; exact h3) (by rw [r]; exact h1) ?_)
  · have e : ((x.x - y.x) * (a.x - y.x) + (x.y - y.y) * (a.y - y.y)) * -triArea b y a -
      ((b.x - y.x) * (a.x - y.x) + (b.y - y.y) * (a.y - y.y)) * -triArea x y a = ((a.x - y.x) ^ 2 + (a.y - y.y) ^ 2) * triArea x y b := by
      unfold triArea; ring
    have : 0 ≤ ((a.x - y.x) ^ 2 + (a.y - y.y) ^ 2) * triArea x y b := mul_nonneg (by positivity) h4
    linarith
  · have e : ((b.x - y.x) * (a.x - y.x) + (b.y - y.y) * (a.y - y.y)) * -triArea b c a -
      ((b.x - c.x) * (a.x - c.x) + (b.y - c.y) * (a.y - c.y)) * -triArea b y a = Cdt.circleDet a.x a.y b.x b.y c.x c.y y.x y.y := by
      unfold triArea Cdt.circleDet; ring
    linarith

/-- squared distance of the point from the place -/
def sq (p : V2) (x y : ℚ) : ℚ := (p.x - x) ^ 2 + (p.y - y) ^ 2

/-- the circle through the corners -/
theorem circumcircle {a b c : V2} (h : triArea a b c ≠ 0) : ∃ X Y R : ℚ, sq a X Y = R ∧ sq b X Y = R ∧ sq c X Y = R := by
  have h : ((triArea a b c : ℤ) : ℚ) ≠ 0 := by exact_mod_cast h
  unfold triArea at h
  push_cast at h
  generalize hE : ((b.x - a.x) * (c.y - a.y) - (b.y - a.y) * (c.x - a.x) : ℚ) = E at h
  obtain ⟨u, hu⟩ : ∃ u : ℚ, 2 * E * u = (c.y - a.y) * ((b.x - a.x) ^ 2 + (b.y - a.y) ^ 2) - (b.y - a.y) * ((c.x - a.x) ^ 2 + (c.y - a.y) ^ 2) :=
    ⟨_, mul_div_cancel₀ _ (by positivity)⟩
  obtain ⟨v, hv⟩ : ∃ v : ℚ, 2 * E * v = (b.x - a.x) * ((c.x - a.x) ^ 2 + (c.y - a.y) ^ 2) - (c.x - a.x) * ((b.x - a.x) ^ 2 + (b.y - a.y) ^ 2) :=
    ⟨_, mul_div_cancel₀ _ (by positivity)⟩
  refine ⟨a.x + u, a.y + v, _, rfl, ?_, ?_⟩
  · refine mul_left_cancel₀ h ?_
    unfold sq
    rw [← hE] at *
    linear_combination -(b.x - a.x : ℚ) * hu - (b.y - a.y : ℚ) * hv
  · refine mul_left_cancel₀ h ?_
    unfold sq
    rw [← hE] at *
    linear_combination -(c.x - a.x : ℚ) * hu - (c.y - a.y : ℚ) * hv

/-- on which side of the side `b c` the centre of the circle is -/
theorem centre_side {a b c : V2} {X Y R : ℚ} (ha : sq a X Y = R) (hb : sq b X Y = R) (hc : sq c X Y = R) :
    2 * triArea a b c * side X Y (b, c) = ((b.x - c.x) ^ 2 + (b.y - c.y) ^ 2) * ((b.x - a.x) * (c.x - a.x) + (b.y - a.y) * (c.y - a.y)) := by
  unfold sq at *
  unfold side crossQ triArea
  push_cast
  linear_combination (-(c.x - a.x) * (c.x - b.x) + (c.y - a.y) * (b.y - c.y) : ℚ) * (ha - hb) +
    ((b.x - a.x) * (c.x - b.x) - (b.y - a.y) * (b.y - c.y) : ℚ) * (ha - hc)

/-- the power of a point -/
theorem circle_power {a b c q : V2} {X Y R : ℚ} (ha : sq a X Y = R) (hb : sq b X Y = R) (hc : sq c X Y = R) :
    (Cdt.circleDet a.x a.y b.x b.y c.x c.y q.x q.y : ℚ) = triArea a b c * (R - sq q X Y) := by
  unfold Cdt.circleDet triArea
  unfold sq at *
  push_cast
  linear_combination ((b.x - q.x) * (c.y - q.y) - (b.y - q.y) * (c.x - q.x) : ℚ) * ha + ((c.x - q.x) * (a.y - q.y) - (c.y - q.y) * (a.x - q.x) : ℚ) * hb +
    ((a.x - q.x) * (b.y - q.y) - (a.y - q.y) * (b.x - q.x) : ℚ) * hc

/-- a point of the triangle that is the centre of a circle around it which cannot be made smaller -/
theorem small_centre {a b c : V2} (cw : triArea a b c < 0) {X Y R : ℚ} (ha : sq a X Y = R) (hb : sq b X Y = R) (hc : sq c X Y = R) :
    ∃ x y : ℚ, (Tri.mk a b c).Closed x y ∧ ∀ p ∈ [a, b, c], sq p x y ≤ R - ((x - X) ^ 2 + (y - Y) ^ 2) := by
  have cw' : ((triArea a b c : ℤ) : ℚ) < 0 := by exact_mod_cast cw
  have mid : ∀ {a b c : V2}, triArea a b c < 0 → sq b X Y = R → sq c X Y = R → (b.x - a.x) * (c.x - a.x) + (b.y - a.y) * (c.y - a.y) ≤ 0 →
      ∃ x y : ℚ, (Tri.mk a b c).Closed x y ∧ ∀ p ∈ [a, b, c], sq p x y ≤ R - ((x - X) ^ 2 + (y - Y) ^ 2) := by
    intro a b c cw hb hc d
    have cw' : ((triArea a b c : ℤ) : ℚ) < 0 := by exact_mod_cast cw
    have d' : (((b.x - a.x) * (c.x - a.x) + (b.y - a.y) * (c.y - a.y) : ℤ) : ℚ) ≤ 0 := by exact_mod_cast d
    push_cast at d'
    refine ⟨(b.x + c.x) / 2, (b.y + c.y) / 2, ?_, ?_⟩
    · rw [Tri.closed_iff]
      unfold triArea at cw'
      push_cast at cw'
      unfold side crossQ
      refine ⟨?_, ?_, ?_⟩ <;> nlinarith
    · unfold sq at *
      intro p hp
      simp only [List.mem_cons, List.not_mem_nil, or_false] at hp
      rcases hp with rfl | rfl | rfl
      · nlinarith
      · nlinarith
      · nlinarith
  by_cases da : (b.x - a.x) * (c.x - a.x) + (b.y - a.y) * (c.y - a.y) ≤ 0
  · exact mid cw hb hc da
  by_cases db : (c.x - b.x) * (a.x - b.x) + (c.y - b.y) * (a.y - b.y) ≤ 0
  · obtain ⟨x, y, hx, hp⟩ := mid (a := b) (b := c) (c := a) (by unfold triArea at *; linarith) hc ha db
    refine ⟨x, y, ?_, fun p h => hp p (by simp only [List.mem_cons, List.not_mem_nil, or_false] at *; tauto)⟩
    rw [Tri.closed_iff] at *
    tauto
  by_cases dc : (a.x - c.x) * (b.x - c.x) + (a.y - c.y) * (b.y - c.y) ≤ 0
  · obtain ⟨x, y, hx, hp⟩ := mid (a := c) (b := a) (c := b) (by unfold triArea at *; linarith) ha hb dc
    refine ⟨x, y, ?_, fun p h => hp p (by simp only [List.mem_cons, List.not_mem_nil, or_false] at *; tauto)⟩
    rw [Tri.closed_iff] at *
    tauto
  refine ⟨X, Y, ?_, ?_⟩
  · have one : ∀ {a b c : V2}, triArea a b c < 0 → sq a X Y = R → sq b X Y = R → sq c X Y = R →
        0 < (b.x - a.x) * (c.x - a.x) + (b.y - a.y) * (c.y - a.y) → side X Y (b, c) ≤ 0 := by
      intro a b c cw ha hb hc d
      have cw' : ((triArea a b c : ℤ) : ℚ) < 0 := by exact_mod_cast cw
      have d' : 0 < (((b.x - a.x) * (c.x - a.x) + (b.y - a.y) * (c.y - a.y) : ℤ) : ℚ) := by exact_mod_cast d
      push_cast at d'
      have e := centre_side ha hb hc
      by_contra n
      push Not at n
      have := mul_nonneg (show (0 : ℚ) ≤ (b.x - c.x) ^ 2 + (b.y - c.y) ^ 2 by positivity) d'.le
      nlinarith
    push Not at da db dc
    rw [Tri.closed_iff]
    exact ⟨one (a := c) (by unfold triArea at *; linarith) hc ha hb dc, one cw ha hb hc da, one (a := b) (by unfold triArea at *; linarith) hb hc ha db⟩
  · intro p hp
    simp only [List.mem_cons, List.not_mem_nil, or_false] at hp
    rcases hp with rfl | rfl | rfl <;> nlinarith

/-- a circle around a triangle whose corners are not inside another circle is not smaller than that allows at a point of the triangle -/
theorem In_power {T : Tri} (cw : T.Clockwise) {x y X Y R : ℚ} (h : T.Closed x y) (out : ∀ p ∈ [T.a, T.b, T.c], R ≤ sq p X Y) {u v r : ℝ}
    (hr : T.In u v r) : ((R - ((x - X) ^ 2 + (y - Y) ^ 2) : ℚ) : ℝ) ≤ r := by
  have cw' : ((triArea T.a T.b T.c : ℤ) : ℝ) < 0 := by exact_mod_cast cw
  rw [Tri.closed_iff] at h
  obtain ⟨h1, h2, h3⟩ := h
  have k1 : ((side x y (T.a, T.b) : ℚ) : ℝ) ≤ 0 := by exact_mod_cast h1
  have k2 : ((side x y (T.b, T.c) : ℚ) : ℝ) ≤ 0 := by exact_mod_cast h2
  have k3 : ((side x y (T.c, T.a) : ℚ) : ℝ) ≤ 0 := by exact_mod_cast h3
  have oa : (R : ℝ) ≤ ((sq T.a X Y : ℚ) : ℝ) := by exact_mod_cast out _ (by simp)
  have ob : (R : ℝ) ≤ ((sq T.b X Y : ℚ) : ℝ) := by exact_mod_cast out _ (by simp)
  have oc : (R : ℝ) ≤ ((sq T.c X Y : ℚ) : ℝ) := by exact_mod_cast out _ (by simp)
  have ia := hr T.a (by simp)
  have ib := hr T.b (by simp)
  have ic := hr T.c (by simp)
  unfold side crossQ at k1 k2 k3
  unfold sq at oa ob oc
  unfold triArea at cw'
  push_cast at *
  generalize (T.a.x : ℝ) = ax at *
  generalize (T.a.y : ℝ) = ay at *
  generalize (T.b.x : ℝ) = bx at *
  generalize (T.b.y : ℝ) = b_y at *
  generalize (T.c.x : ℝ) = cx at *
  generalize (T.c.y : ℝ) = cy at *
  generalize (x : ℝ) = x at *
  generalize (y : ℝ) = y at *
  generalize (X : ℝ) = X at *
  generalize (Y : ℝ) = Y at *
  generalize (R : ℝ) = R at *
  have m1 := mul_nonneg (neg_nonneg.2 k2) (sub_nonneg.2 oa)
  have m2 := mul_nonneg (neg_nonneg.2 k3) (sub_nonneg.2 ob)
  have m3 := mul_nonneg (neg_nonneg.2 k1) (sub_nonneg.2 oc)
  have n1 := mul_nonneg (neg_nonneg.2 k2) (sub_nonneg.2 ia)
  have n2 := mul_nonneg (neg_nonneg.2 k3) (sub_nonneg.2 ib)
  have n3 := mul_nonneg (neg_nonneg.2 k1) (sub_nonneg.2 ic)
  by_contra hn
  push Not at hn
  have key := mul_pos (neg_pos.2 cw') (sub_pos.2 hn)
  have sqn := mul_nonneg (neg_pos.2 cw').le (show 0 ≤ (x - u) ^ 2 + (y - v) ^ 2 by positivity)
  linarith

/-- the triangles that cover `a b c`, have no corner inside its circle and do not have `a` and `b` elsewhere than at a corner: one has
an angle that is not larger than that at `c` -/
theorem best_angle {Ts : List Tri} {a b c : V2} (cw : (Tri.mk a b c).Clockwise) (ccw : ∀ T ∈ Ts, T.Clockwise)
    (cov : ∀ x y, (Tri.mk a b c).Closed x y → ∃ T ∈ Ts, T.Closed x y)
    (meet : ∀ T ∈ Ts, ∀ p ∈ [a, b], T.Closed p.x p.y → p ∈ [T.a, T.b, T.c])
    (out : ∀ T ∈ Ts, (∃ x y, (Tri.mk a b c).Interior x y ∧ T.Interior x y) → ∀ p ∈ [T.a, T.b, T.c],
      0 ≤ Cdt.circleDet a.x a.y b.x b.y c.x c.y p.x p.y) : ∃ T ∈ Ts, ∃ φ ∈ T.angles, φ ≤ angleAt b c a := by
  obtain ⟨T, hT, both, ha, near⟩ := corner_near cw ccw cov
  have cwT := ccw T hT
  have cw0 : triArea a b c < 0 := cw
  obtain ⟨x, y, f1, f2, f3, f4, f5, f6, f7⟩ : ∃ x y, triArea a x y < 0 ∧ (a, x) ∈ T.edges ∧ (y, a) ∈ T.edges ∧
      (∀ u v, side u v (a, x) ≤ 0 → side u v (x, y) ≤ 0 → side u v (y, a) ≤ 0 → T.Closed u v) ∧ angleAt x y a ∈ T.angles ∧
      (∀ p, p ∈ [T.a, T.b, T.c] → p = a ∨ p = x ∨ p = y) ∧ y ∈ [T.a, T.b, T.c] := by
    have := meet T hT a (by simp) ha
    have cwT : triArea T.a T.b T.c < 0 := cwT
    simp only [List.mem_cons, List.not_mem_nil, or_false] at this
    rcases this with e | e | e
    · refine ⟨T.b, T.c, by rw [e]; exact cwT, by simp [Tri.edges, e], by simp [Tri.edges, e], ?_, by simp [Tri.angles, e], ?_, by simp⟩
      · intro u v h1 h2 h3; rw [Tri.closed_iff, ← e]; exact ⟨h1, h2, h3⟩
      · intro p hp; rw [e]; simpa using hp
    · refine ⟨T.c, T.a, by rw [e]; unfold triArea at *; linarith, by simp [Tri.edges, e], by simp [Tri.edges, e], ?_, by simp [Tri.angles, e], ?_, by simp⟩
      · intro u v h1 h2 h3; rw [Tri.closed_iff, ← e]; exact ⟨h3, h1, h2⟩
      · intro p hp; rw [e]; simp only [List.mem_cons, List.not_mem_nil, or_false] at hp; tauto
    · refine ⟨T.a, T.b, by rw [e]; unfold triArea at *; linarith, by simp [Tri.edges, e], by simp [Tri.edges, e], ?_, by simp [Tri.angles, e], ?_, by simp⟩
      · intro u v h1 h2 h3; rw [Tri.closed_iff, ← e]; exact ⟨h2, h3, h1⟩
      · intro p hp; rw [e]; simp only [List.mem_cons, List.not_mem_nil, or_false] at hp; tauto
  have z1 : ∀ p q : V2, triArea p p q = 0 := fun p q => by unfold triArea; ring
  have z2 : ∀ p q : V2, triArea p q p = 0 := fun p q => by unfold triArea; ring
  have r : ∀ p q s : V2, triArea q s p = triArea p q s := fun p q s => by unfold triArea; ring
  have n1 := near _ f2 (by rw [side_at, z1]; rfl)
  have n2 := near _ f3 (by rw [side_at, z2]; rfl)
  rw [side_at, side_at] at n1 n2
  norm_cast at n1 n2
  have hx : triArea a x b ≤ 0 := by have := n1.1; rw [← r] at this ⊢; unfold triArea at *; linarith
  have hy : triArea a b y < 0 := by
    rcases lt_or_eq_of_le n2.1 with l | l
    · unfold triArea at *; linarith
    · exfalso
      have k := n2.2 l
      -- the relation between the products of four vectors
      have P : triArea a x y * triArea a b c = triArea a x b * triArea a y c - triArea a x c * triArea a y b := by unfold triArea; ring
      have l' : triArea a y b = 0 := by unfold triArea at *; linarith
      have k' : 0 ≤ triArea a y c := by unfold triArea at *; linarith
      rw [l', mul_zero, sub_zero] at P
      nlinarith [mul_pos_of_neg_of_neg f1 cw0, mul_nonneg (neg_nonneg.2 hx) k']
  have hb : 0 ≤ triArea x y b := by
    by_cases hc : T.Closed b.x b.y
    · rcases f6 b (meet T hT b (by simp) hc) with e | e | e
      · rw [e, z1] at hy; omega
      · rw [e, z2]
      · rw [e, show ∀ p q : V2, triArea p q q = 0 from fun p q => by unfold triArea; ring] at hy; omega
    · by_contra n
      push Not at n
      refine hc (f4 _ _ ?_ ?_ ?_)
      · rw [side_at]; norm_cast; unfold triArea at *; linarith
      · rw [side_at]; norm_cast; unfold triArea at *; linarith
      · rw [side_at]; norm_cast; unfold triArea at *; linarith
  exact ⟨T, hT, _, f5, angle_beyond cw0 f1 hy hb (out T hT both y f7)⟩

/-- the same for the circles around the triangles -/
theorem best_circle {Ts : List Tri} {S : Tri} (cw : S.Clockwise) (ccw : ∀ T ∈ Ts, T.Clockwise)
    (cov : ∀ x y, S.Closed x y → ∃ T ∈ Ts, T.Closed x y)
    (out : ∀ T ∈ Ts, (∃ x y, S.Interior x y ∧ T.Interior x y) → ∀ p ∈ [T.a, T.b, T.c],
      0 ≤ Cdt.circleDet S.a.x S.a.y S.b.x S.b.y S.c.x S.c.y p.x p.y) :
    ∃ T ∈ Ts, ∃ x y : ℝ, ∀ u v r, T.In u v r → S.In x y r := by
  have cw0 : triArea S.a S.b S.c < 0 := cw
  obtain ⟨X, Y, R, ha, hb, hc⟩ := circumcircle cw0.ne
  obtain ⟨x, y, h, hs⟩ := small_centre cw0 ha hb hc
  obtain ⟨T, hT, both, hc'⟩ := cover_near cw ccw cov h
  refine ⟨T, hT, x, y, fun u v r hr => ?_⟩
  have key := In_power (ccw T hT) hc' (X := X) (Y := Y) (R := R) (fun p hp => ?_) hr
  · intro p hp
    refine le_trans ?_ key
    have := hs p hp
    unfold sq at this
    have : ((((p.x - x) ^ 2 + (p.y - y) ^ 2 : ℚ)) : ℝ) ≤ ((R - ((x - X) ^ 2 + (y - Y) ^ 2) : ℚ) : ℝ) := by exact_mod_cast this
    push_cast at this ⊢
    exact this
  · have o := out T hT both p hp
    have o' : (0 : ℚ) ≤ (Cdt.circleDet S.a.x S.a.y S.b.x S.b.y S.c.x S.c.y p.x p.y : ℚ) := by exact_mod_cast o
    rw [circle_power ha hb hc] at o'
    have cw' : ((triArea S.a S.b S.c : ℤ) : ℚ) < 0 := by exact_mod_cast cw0
    by_contra n
    push Not at n
    nlinarith

end CE.Vec
