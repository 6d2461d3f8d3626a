import Verif.Spec.Flood
import Verif.Proof.CdtSight
import Verif.Proof.WindingCross
import Verif.Props.Fence
import Verif.Props.Polygon
import Mathlib.Tactic.IntervalCases
/-!
# C114: filling does not leak through a polygon
-/
namespace CE.Cdt

open CE.Vec

variable {m m' : Mesh} {limit : Nat}

theorem sideR_cast (m : Mesh) (f j : Nat) (x y : ℚ) : m.sideR f j x y = ((m.sideQ f j x y : ℚ) : ℝ) := by
  unfold Mesh.sideR Mesh.sideQ; push_cast; ring

theorem core_cast {f : Nat} {x y : ℚ} : m.Core f x y ↔ m.Inside f x y := by
  unfold Mesh.Core Mesh.Inside
  simp only [sideR_cast]
  norm_cast

theorem has_cast {f : Nat} {x y : ℚ} : m.Has f x y ↔ m.Within f x y := by
  unfold Mesh.Has Mesh.Within
  simp only [sideR_cast]
  norm_cast

theorem sideR_mix (m : Mesh) (f j : Nat) (x y x' y' t : ℝ) :
    m.sideR f j (x + t * (x' - x)) (y + t * (y' - y)) = (1 - t) * m.sideR f j x y + t * m.sideR f j x' y' := by
  unfold Mesh.sideR; ring

theorem core_mix {f : Nat} {x y x' y' t : ℝ} (h : m.Core f x y) (h' : m.Has f x' y') (h0 : 0 ≤ t) (h1 : t < 1) :
    m.Core f (x + t * (x' - x)) (y + t * (y' - y)) := by
  intro j hj
  rw [sideR_mix]
  have := h j hj
  have := h' j hj
  nlinarith

/-- a constrained edge does not enter a face -/
theorem wall_core (h : Reach limit m) {f a b : Nat} (u : Used m f) (w : m.Wall a b) {x y : ℝ} (c : m.Core f x y) :
    ¬Vec.OnEdge x y (m.place a, m.place b) := by
  rintro ⟨t, h0, h1, hx, hy⟩
  obtain ⟨I, R⟩ := reach_inv h
  have key : ∀ q : ℚ, 0 ≤ q → q ≤ 1 → ¬ m.Core f ((m.x a : ℝ) + q * (m.x b - m.x a)) (m.y a + q * (m.y b - m.y a)) := by
    intro q q0 q1 hc
    have e1 : ((m.x a : ℝ) + q * (m.x b - m.x a)) = (((m.x a : ℚ) + q * (m.x b - m.x a) : ℚ) : ℝ) := by push_cast; ring
    have e2 : ((m.y a : ℝ) + q * (m.y b - m.y a)) = (((m.y a : ℚ) + q * (m.y b - m.y a) : ℚ) : ℝ) := by push_cast; ring
    rw [e1, e2, core_cast, inside_open u] at hc
    exact wall_out I R (u.isE (j := 0) (by omega)) w q0 q1 hc
  simp only [Mesh.place] at hx hy
  have hS : IsOpen {s : ℝ | m.Core f ((m.x a : ℝ) + s * (m.x b - m.x a)) (m.y a + s * (m.y b - m.y a))} := by
    have e : {s : ℝ | m.Core f ((m.x a : ℝ) + s * (m.x b - m.x a)) (m.y a + s * (m.y b - m.y a))} =
        ⋂ j ∈ Finset.range 3, {s : ℝ | m.sideR f j ((m.x a : ℝ) + s * (m.x b - m.x a)) (m.y a + s * (m.y b - m.y a)) < 0} := by
      ext s; simp [Mesh.Core]
    rw [e]
    apply isOpen_biInter_finset
    intro j _
    apply isOpen_lt _ continuous_const
    unfold Mesh.sideR
    fun_prop
  have ht : t ∈ {s : ℝ | m.Core f ((m.x a : ℝ) + s * (m.x b - m.x a)) (m.y a + s * (m.y b - m.y a))} := by
    change m.Core f _ _
    rw [← hx, ← hy]; exact c
  obtain ⟨ε, he, hb⟩ := Metric.isOpen_iff.1 hS t ht
  rcases lt_or_ge t 1 with h1' | h1'
  · obtain ⟨q, hq1, hq2⟩ := exists_rat_btwn (show t < min (t + ε) 1 from lt_min (by linarith) h1')
    refine key q ?_ ?_ (hb ?_)
    · have : (0 : ℝ) ≤ q := by linarith
      exact_mod_cast this
    · have : (q : ℝ) ≤ 1 := (hq2.trans_le (min_le_right _ _)).le
      exact_mod_cast this
    · rw [Metric.mem_ball, Real.dist_eq, abs_lt]
      have := hq2.trans_le (min_le_left _ _)
      constructor <;> linarith
  · have : t = 1 := le_antisymm h1 h1'
    refine key 1 (by norm_num) le_rfl ?_
    have ht' := ht
    rw [this] at ht'
    change m.Core f _ _ at ht'
    simpa using ht'

/-- a rational point of a segment between grid points divides it at a rational ratio -/
theorem rational_on {a b : Nat} {X Y : ℚ} (on : Vec.OnEdge X Y (m.place a, m.place b)) :
    ∃ q : ℚ, 0 ≤ q ∧ q ≤ 1 ∧ X = m.x a + q * (m.x b - m.x a) ∧ Y = m.y a + q * (m.y b - m.y a) := by
  obtain ⟨t, t0, t1, hx, hy⟩ := on
  simp only [Mesh.place] at hx hy
  have key : ∀ q : ℚ, (q : ℝ) = t → ∃ q : ℚ, 0 ≤ q ∧ q ≤ 1 ∧ X = m.x a + q * (m.x b - m.x a) ∧ Y = m.y a + q * (m.y b - m.y a) := by
    rintro q rfl
    exact ⟨q, by exact_mod_cast t0, by exact_mod_cast t1, by exact_mod_cast hx, by exact_mod_cast hy⟩
  by_cases h1 : m.x b = m.x a
  · by_cases h2 : m.y b = m.y a
    · refine ⟨0, le_rfl, zero_le_one, ?_, ?_⟩
      · rw [h1, sub_self, mul_zero, add_zero] at hx
        rw [zero_mul, add_zero]; exact_mod_cast hx
      · rw [h2, sub_self, mul_zero, add_zero] at hy
        rw [zero_mul, add_zero]; exact_mod_cast hy
    · have hd : ((m.y b : ℝ) - m.y a) ≠ 0 := by
        rw [sub_ne_zero]; exact_mod_cast h2
      apply key ((Y - m.y a) / (m.y b - m.y a))
      push_cast
      rw [div_eq_iff hd]; linarith
  · have hd : ((m.x b : ℝ) - m.x a) ≠ 0 := by
      rw [sub_ne_zero]; exact_mod_cast h1
    apply key ((X - m.x a) / (m.x b - m.x a))
    push_cast
    rw [div_eq_iff hd]; linarith

/-- the constrained edges of a fence cover it -/
theorem fence_cover {u v : Nat} (F : m.Fence u v) (hne : u ≠ v) {x y : ℝ} (on : Vec.OnEdge x y (m.place u, m.place v)) :
    ∃ a b, m.Wall a b ∧ Vec.OnEdge x y (m.place a, m.place b) := by
  obtain ⟨s, s0, s1, hx, hy⟩ := on
  simp only [Mesh.place] at hx hy
  -- where a chain of walls has come to
  have walk : ∀ {w : Nat}, Relation.ReflTransGen (fun a b => m.Wall a b ∧ m.Along 0 u v a ∧ m.Along 0 u v b) u w →
      ∃ t : ℚ, m.x w = m.x u + t * (m.x v - m.x u) ∧ m.y w = m.y u + t * (m.y v - m.y u) ∧
        (s ≤ t → s = 0 ∨ ∃ a b, m.Wall a b ∧ Vec.OnEdge x y (m.place a, m.place b)) := by
    intro w c
    induction c with
    | refl => exact ⟨0, by ring, by ring, fun hs => Or.inl (le_antisymm (by exact_mod_cast hs) s0)⟩
    | @tail w w' _ st ih =>
      obtain ⟨t, ex, ey, cov⟩ := ih
      obtain ⟨wall, -, t', t0', t1', ex', ey'⟩ := st
      have ex' := sub_eq_zero.1 (abs_nonpos_iff.1 ex')
      have ey' := sub_eq_zero.1 (abs_nonpos_iff.1 ey')
      refine ⟨t', ex', ey', fun hs => ?_⟩
      rcases le_or_gt s t with hst | hst
      · exact cov hst
      · right
        refine ⟨w, w', wall, (s - t) / (t' - t), ?_, ?_, ?_⟩
        · exact div_nonneg (by linarith) (by linarith)
        · exact (div_le_one (by linarith)).2 (by linarith)
        · have hd : (t' : ℝ) - t ≠ 0 := by
            have : (t : ℝ) < t' := by linarith
            linarith
          have ex : (m.x w : ℝ) = m.x u + t * (m.x v - m.x u) := by exact_mod_cast ex
          have ey : (m.y w : ℝ) = m.y u + t * (m.y v - m.y u) := by exact_mod_cast ey
          have ex' : (m.x w' : ℝ) = m.x u + t' * (m.x v - m.x u) := by exact_mod_cast ex'
          have ey' : (m.y w' : ℝ) = m.y u + t' * (m.y v - m.y u) := by exact_mod_cast ey'
          simp only [Mesh.place]
          rw [ex, ey, ex', ey', hx, hy]
          constructor <;> field_simp <;> ring
  obtain ⟨b, ⟨wall, -, -⟩, -⟩ : ∃ b, (m.Wall u b ∧ m.Along 0 u v u ∧ m.Along 0 u v b) ∧
      Relation.ReflTransGen (fun a b => m.Wall a b ∧ m.Along 0 u v a ∧ m.Along 0 u v b) b v := by
    rcases Relation.ReflTransGen.cases_head F with e | e
    · exact absurd e hne
    · exact e
  have start : s = 0 → ∃ a b, m.Wall a b ∧ Vec.OnEdge x y (m.place a, m.place b) := by
    rintro rfl
    exact ⟨u, b, wall, 0, le_rfl, zero_le_one, by simp [Mesh.place, hx], by simp [Mesh.place, hy]⟩
  obtain ⟨t, ex, ey, cov⟩ := walk F
  by_cases hd : m.x v = m.x u ∧ m.y v = m.y u
  · rw [hd.1, sub_self, mul_zero, add_zero] at hx
    rw [hd.2, sub_self, mul_zero, add_zero] at hy
    exact ⟨u, b, wall, 0, le_rfl, zero_le_one, by simp [Mesh.place, hx], by simp [Mesh.place, hy]⟩
  · have t1 : t = 1 := by
      by_contra hc
      apply hd
      have h1 : (t - 1) * ((m.x v : ℚ) - m.x u) = 0 := by linarith
      have h2 : (t - 1) * ((m.y v : ℚ) - m.y u) = 0 := by linarith
      have hc : t - 1 ≠ 0 := sub_ne_zero.2 hc
      have h1 := (mul_eq_zero.1 h1).resolve_left hc
      have h2 := (mul_eq_zero.1 h2).resolve_left hc
      constructor
      · exact_mod_cast sub_eq_zero.1 h1
      · exact_mod_cast sub_eq_zero.1 h2
    rcases cov (by rw [t1]; exact_mod_cast s1) with e | e
    · exact start e
    · exact e

/-- every face has an inside -/
theorem core_exists (h : Reach limit m) {f : Nat} (u : Used m f) : ∃ x y, m.Core f x y := by
  obtain ⟨I, -⟩ := reach_inv h
  have := (inside_open u).2 (centre_open I (u.isE (j := 0) (by omega)))
  exact ⟨_, _, core_cast.2 this⟩

/-- the winding number is the same everywhere in a face -/
theorem face_same (h : Reach limit m) {f : Nat} (u : Used m f) {ps : List V2} (W : m.Walled ps) {x y x' y' : ℝ} (c : m.Core f x y)
    (i : m.Has f x' y') (o : Off ps x' y') : swept x y (polyEdges ps) = swept x' y' (polyEdges ps) := by
  apply swept_move
  intro s s0 s1 e he hon
  rcases lt_or_ge s 1 with hs | hs
  · obtain ⟨a, b, w, on⟩ := W e he _ _ hon
    exact wall_core h u w (core_mix c i s0 hs) on
  · have : s = 1 := le_antisymm s1 hs
    rw [this] at hon
    refine o e he ?_
    simpa using hon

/-- through an unconstrained edge -/
theorem through (h : Reach limit m) {g j : Nat} (u : Used m g) (hj : j < 3) (free : m.c (4 * g + j) = 0) {ps : List V2} (W : m.Walled ps) :
    Used m (m.e (4 * g + j) / 4) ∧ ∃ x y : ℝ, m.Has g x y ∧ m.Has (m.e (4 * g + j) / 4) x y ∧ Off ps x y := by
  obtain ⟨I, R⟩ := reach_inv h
  have hi : IsE m.size (4 * g + j) := u.isE hj
  have he := I.free hi free
  have P := I.pair hi he
  have o := mid_on I hi
  have o' : m.OnOpen ((m.x (m.p (nx (4 * g + j))) + m.x (m.p (pv (4 * g + j)))) / 2) ((m.y (m.p (nx (4 * g + j))) + m.y (m.p (pv (4 * g + j)))) / 2)
      (m.e (4 * g + j)) := by
    have := mid_on I P.ib
    rw [P.n1, P.n2] at this
    rw [add_comm (m.x (m.p (nx (4 * g + j))) : ℚ), add_comm (m.y (m.p (nx (4 * g + j))) : ℚ)]
    exact this
  generalize ((m.x (m.p (nx (4 * g + j))) + m.x (m.p (pv (4 * g + j))) : ℚ)) / 2 = X at o o'
  generalize ((m.y (m.p (nx (4 * g + j))) + m.y (m.p (pv (4 * g + j))) : ℚ)) / 2 = Y at o o'
  have u' : Used m (m.e (4 * g + j) / 4) := P.ib.isF
  refine ⟨u', X, Y, has_cast.2 ?_, has_cast.2 ?_, ?_⟩
  · rw [within_shut u]
    have := InShut.base hi o.shut
    rwa [show (4 * g + j) / 4 * 4 = 4 * g by omega] at this
  · rw [within_shut u']
    have := InShut.base P.ib o'.shut
    rwa [mul_comm] at this
  · intro e hem hon
    obtain ⟨a, b, w, on⟩ := W e hem _ _ hon
    obtain ⟨q, q0, q1, hx, hy⟩ := rational_on on
    exact wall_off I R hi free o o' w q0 q1 hx hy

/-- a face has its corners -/
theorem has_corner {f j : Nat} (cw : m.area (m.corner f 0) (m.corner f 1) (m.corner f 2) < 0) (hj : j < 3) :
    m.Has f (m.x (m.corner f j)) (m.y (m.corner f j)) := by
  have cw : ((m.area (m.corner f 0) (m.corner f 1) (m.corner f 2) : ℤ) : ℝ) < 0 := by exact_mod_cast cw
  have e3 : m.corner f 3 = m.corner f 0 := rfl
  unfold Mesh.area at cw
  push_cast at cw
  intro i hi
  unfold Mesh.sideR
  interval_cases j <;> interval_cases i <;> simp only [Nat.reduceAdd, e3] <;> nlinarith

/-- near the middle of a side there are points inside the face -/
theorem core_near {f i : Nat} (cw : m.area (m.corner f 0) (m.corner f 1) (m.corner f 2) < 0) (hi : i < 3) :
    ∀ᶠ s in nhds (0 : ℝ), 0 < s → m.Core f
      ((m.x (m.corner f i) + m.x (m.corner f (i + 1))) / 2 + s * (m.y (m.corner f (i + 1)) - m.y (m.corner f i)))
      ((m.y (m.corner f i) + m.y (m.corner f (i + 1))) / 2 + s * (m.x (m.corner f i) - m.x (m.corner f (i + 1)))) := by
  have cw : ((m.area (m.corner f 0) (m.corner f 1) (m.corner f 2) : ℤ) : ℝ) < 0 := by exact_mod_cast cw
  have e3 : m.corner f 3 = m.corner f 0 := rfl
  unfold Mesh.area at cw
  push_cast at cw
  have one : ∀ k, k < 3 → ∀ᶠ s in nhds (0 : ℝ), 0 < s → m.sideR f k
      ((m.x (m.corner f i) + m.x (m.corner f (i + 1))) / 2 + s * (m.y (m.corner f (i + 1)) - m.y (m.corner f i)))
      ((m.y (m.corner f i) + m.y (m.corner f (i + 1))) / 2 + s * (m.x (m.corner f i) - m.x (m.corner f (i + 1)))) < 0 := by
    intro k hk
    by_cases hki : k = i
    · subst hki
      refine Filter.Eventually.of_forall fun s hs => ?_
      unfold Mesh.sideR
      have hne : 0 < ((m.x (m.corner f (k + 1)) : ℝ) - m.x (m.corner f k)) ^ 2 + ((m.y (m.corner f (k + 1)) : ℝ) - m.y (m.corner f k)) ^ 2 := by
        rcases eq_or_ne ((m.x (m.corner f (k + 1)) : ℝ) - m.x (m.corner f k)) 0 with h | h
        · rcases eq_or_ne ((m.y (m.corner f (k + 1)) : ℝ) - m.y (m.corner f k)) 0 with h' | h'
          · exfalso
            have h := sub_eq_zero.1 h
            have h' := sub_eq_zero.1 h'
            interval_cases k <;> simp only [Nat.reduceAdd, e3, zero_add] at h h' <;> simp only [h, h'] at cw <;>
              exact absurd cw (not_lt.2 (le_of_eq (by ring)))
          · positivity
        · positivity
      have := mul_pos hs hne
      nlinarith
    · have c : ContinuousAt (fun s : ℝ => m.sideR f k
          ((m.x (m.corner f i) + m.x (m.corner f (i + 1))) / 2 + s * (m.y (m.corner f (i + 1)) - m.y (m.corner f i)))
          ((m.y (m.corner f i) + m.y (m.corner f (i + 1))) / 2 + s * (m.x (m.corner f i) - m.x (m.corner f (i + 1))))) 0 := by
        unfold Mesh.sideR; fun_prop
      have ev := c.eventually_lt (continuousAt_const (y := 0)) (by
        unfold Mesh.sideR
        interval_cases i <;> interval_cases k <;> simp only [Nat.reduceAdd, e3, zero_add, not_true_eq_false, zero_mul, add_zero] at hki ⊢ <;> nlinarith)
      exact ev.mono fun s hs _ => hs
  filter_upwards [one 0 (by omega), one 1 (by omega), one 2 (by omega)] with s h0 h1 h2 hs k hk
  interval_cases k
  · exact h0 hs
  · exact h1 hs
  · exact h2 hs

/-- two faces with a common side -/
theorem sides_differ (h : Reach limit m) {f g i j : Nat} (uf : Used m f) (ug : Used m g) (hi : i < 3) (hj : j < 3)
    (s1 : m.corner f i = m.corner g (j + 1)) (s2 : m.corner f (i + 1) = m.corner g j) {ps : List V2}
    (once : m.Once ps (m.corner f i) (m.corner f (i + 1))) :
    ∃ x y x' y', m.Core f x y ∧ Off ps x y ∧ m.Core g x' y' ∧ Off ps x' y' ∧
      (swept x y (polyEdges ps) = swept x' y' (polyEdges ps) + 2 * Real.pi ∨
        swept x' y' (polyEdges ps) = swept x y (polyEdges ps) + 2 * Real.pi) := by
  have cf := core_near ((C72_clockwise h).1 f uf) hi
  have cg := core_near ((C72_clockwise h).1 g ug) hj
  have hAB : ¬((m.x (m.corner f i) : ℝ) = m.x (m.corner f (i + 1)) ∧ (m.y (m.corner f i) : ℝ) = m.y (m.corner f (i + 1))) := by
    rintro ⟨e1, e2⟩
    have e1 : m.x (m.corner f i) = m.x (m.corner f (i + 1)) := by exact_mod_cast e1
    have e2 : m.y (m.corner f i) = m.y (m.corner f (i + 1)) := by exact_mod_cast e2
    have cw := (C72_clockwise h).1 f uf
    have e3 : m.corner f 3 = m.corner f 0 := rfl
    unfold Mesh.area at cw
    interval_cases i <;> simp only [Nat.reduceAdd, e3, zero_add] at e1 e2 <;> rw [e1, e2] at cw <;>
      exact absurd cw (not_lt.2 (le_of_eq (by ring)))
  rw [← s1, ← s2] at cg
  obtain ⟨pre, e, post, hp, ⟨t, t0, t1, ax, ay⟩, ⟨t', t0', t1', bx, bY⟩, ho⟩ := once
  generalize (m.x (m.corner f i) : ℝ) = Ax at *
  generalize (m.y (m.corner f i) : ℝ) = Ay at *
  generalize (m.x (m.corner f (i + 1)) : ℝ) = Bx at *
  generalize (m.y (m.corner f (i + 1)) : ℝ) = By at *
  have hne : t ≠ t' := by
    rintro rfl
    exact hAB ⟨by rw [ax, bx], by rw [ay, bY]⟩
  have hx : (Ax + Bx) / 2 = e.1.x + (t + t') / 2 * (e.2.x - e.1.x) := by linarith
  have hy : (Ay + By) / 2 = e.1.y + (t + t') / 2 * (e.2.y - e.1.y) := by linarith
  have ex : Ax - Bx = (t - t') * (e.2.x - e.1.x) := by linarith
  have ey : Ay - By = (t - t') * (e.2.y - e.1.y) := by linarith
  have hD : 0 < ((e.2.x : ℝ) - e.1.x) ^ 2 + ((e.2.y : ℝ) - e.1.y) ^ 2 := by
    rcases eq_or_ne ((e.2.x : ℝ) - e.1.x) 0 with h1 | h1
    · rcases eq_or_ne ((e.2.y : ℝ) - e.1.y) 0 with h2 | h2
      · rw [h1] at ex
        rw [h2] at ey
        exact absurd ⟨by linarith, by linarith⟩ hAB
      · positivity
    · positivity
  rcases lt_or_gt_of_ne hne with lt | gt
  · have := mul_pos (sub_pos.2 lt) hD
    have key := swept_across ps hp ((Ax + Bx) / 2) ((Ay + By) / 2) ((t + t') / 2) (Ay - By) (Bx - Ax) (by linarith) (by linarith) hx hy ho
      (by rw [show Bx - Ax = -(Ax - Bx) by ring, ex, ey]; nlinarith)
    have ev : ∀ᶠ s in nhdsWithin (0 : ℝ) (Set.Ioi 0), 0 < s := self_mem_nhdsWithin
    obtain ⟨s, ⟨⟨h1, h2⟩, h3⟩, h0⟩ := ((((cf.and cg).and key).filter_mono nhdsWithin_le_nhds).and ev).exists
    obtain ⟨k1, k2, k3⟩ := h3 h0
    have h1 := h1 h0
    have h2 := h2 h0
    rw [show (Ax + Bx) / 2 + s * (By - Ay) = (Ax + Bx) / 2 - s * (Ay - By) by ring,
      show (Ay + By) / 2 + s * (Ax - Bx) = (Ay + By) / 2 - s * (Bx - Ax) by ring] at h1
    rw [add_comm Bx, add_comm By] at h2
    exact ⟨_, _, _, _, h1, k2, h2, k1, Or.inr k3⟩
  · have := mul_pos (sub_pos.2 gt) hD
    have key := swept_across ps hp ((Ax + Bx) / 2) ((Ay + By) / 2) ((t + t') / 2) (By - Ay) (Ax - Bx) (by linarith) (by linarith) hx hy ho
      (by rw [show By - Ay = -(Ay - By) by ring, ex, ey]; nlinarith)
    have ev : ∀ᶠ s in nhdsWithin (0 : ℝ) (Set.Ioi 0), 0 < s := self_mem_nhdsWithin
    obtain ⟨s, ⟨⟨h1, h2⟩, h3⟩, h0⟩ := ((((cf.and cg).and key).filter_mono nhdsWithin_le_nhds).and ev).exists
    obtain ⟨k1, k2, k3⟩ := h3 h0
    have h2 := h2 h0
    rw [show (Bx + Ax) / 2 + s * (Ay - By) = (Ax + Bx) / 2 - s * (By - Ay) by ring,
      show (By + Ay) / 2 + s * (Bx - Ax) = (Ay + By) / 2 - s * (Ax - Bx) by ring] at h2
    exact ⟨_, _, _, _, h1 h0, k1, h2, k2, Or.inl k3⟩

/-! ### C114 -/

/-- C114.  When a polygon consists of constrained edges, its winding number is the same at all points, not on the polygon, of the
faces that `fill` paints. -/
theorem C114_same (h : Reach limit m) {f g info : Nat} (u : Used m f) {ps : List V2} (W : m.Walled ps) (r : Region m info f g)
    {x y x' y' : ℝ} (hf : m.Has f x y) (o : Off ps x y) (hg : m.Has g x' y') (o' : Off ps x' y') :
    swept x y (polyEdges ps) = swept x' y' (polyEdges ps) := by
  obtain ⟨x0, y0, c0⟩ := core_exists h u
  have main : Used m g ∧ ∀ x' y', m.Has g x' y' → Off ps x' y' → swept x0 y0 (polyEdges ps) = swept x' y' (polyEdges ps) := by
    clear hg o'
    induction r with
    | here => exact ⟨u, fun x' y' i o => face_same h u W c0 i o⟩
    | @next g j _ hj free _ ih =>
      obtain ⟨ug, ih⟩ := ih
      obtain ⟨u', X, Y, i1, i2, off⟩ := through h ug hj free W
      refine ⟨u', fun x' y' i o => ?_⟩
      obtain ⟨x1, y1, c1⟩ := core_exists h u'
      rw [ih X Y i1 off, ← face_same h u' W c1 i2 off, face_same h u' W c1 i o]
  rw [← face_same h u W c0 hf o, main.2 x' y' hg o']

/-- C114.  `fill` does not leak: `in_polygon` gives the same value for all grid points, not on the polygon, of the faces that change
their info, and this is its value in the face where it started. -/
theorem C114_fill (h : Reach limit m) {f info : Nat} (u : Used m f) (hn : m.fi f ≠ info) {ps : List V2} (W : m.Walled ps) :
    ∃ K, ∀ k, K ≤ k → ∃ m', fill k m (4 * f) info = some m' ∧ m'.fi f = info ∧
      ∀ g, m'.fi g ≠ m.fi g → ∀ p q : V2, m.Has f p.x p.y → Off ps p.x p.y → m.Has g q.x q.y → Off ps q.x q.y →
        ∀ w w', inPolygon p ps = some w → inPolygon q ps = some w' → w = w' := by
  obtain ⟨K, hK⟩ := C76_fill h u hn
  refine ⟨K, fun k hk => ?_⟩
  obtain ⟨m', run, h1, h2, -⟩ := hK k hk
  refine ⟨m', run, h1 f .here, fun g hg p q ip op iq oq w w' hw hw' => ?_⟩
  have r : Region m info f g := by
    by_contra hc
    exact hg (h2 g hc)
  obtain ⟨a, ea, ha⟩ := C50_winding_number p ps w hw op
  obtain ⟨b, eb, hb⟩ := C50_winding_number q ps w' hw' oq
  have := C114_same h u W r ip op iq oq
  rw [ea, eb] at this
  have hab : (a : ℝ) = b := mul_left_cancel₀ (by have := Real.pi_pos; positivity) this
  have hab : a = b := by exact_mod_cast hab
  rw [hab, ← hb] at ha
  exact_mod_cast ha

theorem poly_vertex {ps : List V2} {v : V2} (hv : v ∈ ps) : ∃ e ∈ polyEdges ps, e.2 = v := by
  have from' : ∀ (vs : List V2) (u : V2), v ∈ vs → ∃ e ∈ edgesFrom u vs, e.2 = v := by
    intro vs
    induction vs with
    | nil => intro u h; simp at h
    | cons w vs ih =>
      intro u h
      rcases List.mem_cons.1 h with rfl | h
      · exact ⟨(u, v), by simp [edgesFrom], rfl⟩
      · obtain ⟨e, he, hv⟩ := ih w h
        exact ⟨e, by simp [edgesFrom, he], hv⟩
  unfold polyEdges
  cases hl : ps.getLast? with
  | none => rw [List.getLast?_eq_none_iff] at hl; rw [hl] at hv; simp at hv
  | some u => exact from' ps u hv

/-- C114.  Filling from the corner of the square, when it is not on the polygon, paints only faces outside the polygon: there
the winding number is zero, and `in_polygon` says so. -/
theorem C114_outside (h : Reach limit m) {f g info : Nat} (u : Used m f) (hf : ∃ j, j < 3 ∧ m.corner f j = 0) {ps : List V2}
    (W : m.Walled ps) (o : Off ps (-32768) (-32768)) (r : Region m info f g) {x y : ℝ} (hg : m.Has g x y) (o' : Off ps x y) :
    swept x y (polyEdges ps) = 0 ∧ ∀ q : V2, x = q.x → y = q.y → ∀ w, inPolygon q ps = some w → w = 0 := by
  suffices hs : swept x y (polyEdges ps) = 0 by
    refine ⟨hs, ?_⟩
    rintro q rfl rfl w hw
    obtain ⟨a, ea, ha⟩ := C50_winding_number q ps w hw o'
    rw [hs] at ea
    have : (a : ℝ) = 0 := by
      rcases mul_eq_zero.1 ea.symm with h | h
      · have := Real.pi_pos; linarith
      · exact h
    have : a = 0 := by exact_mod_cast this
    rw [this] at ha
    simpa using ha
  obtain ⟨I, R⟩ := reach_inv h
  rw [← C114_same h u W r (x := -32768) (y := -32768) ?_ o hg o']
  · apply swept_outside
    · intro v hv
      obtain ⟨e, he, rfl⟩ := poly_vertex hv
      obtain ⟨a, b, w, t, t0, t1, hx, hy⟩ := W e he e.2.x e.2.y ⟨1, zero_le_one, le_rfl, by ring, by ring⟩
      have ca := (C72_clockwise h).2 a (w.lt I).1
      have cb := (C72_clockwise h).2 b (w.lt I).2
      simp only [Mesh.place] at hx hy
      have b1 : (-32768 : ℝ) ≤ m.x a := by exact_mod_cast ca.1.1
      have b2 : (-32768 : ℝ) ≤ m.x b := by exact_mod_cast cb.1.1
      have b3 : (-32768 : ℝ) ≤ m.y a := by exact_mod_cast ca.2.1
      have b4 : (-32768 : ℝ) ≤ m.y b := by exact_mod_cast cb.2.1
      rw [hx, hy]
      constructor <;> nlinarith
    · intro v hv
      obtain ⟨e, he, rfl⟩ := poly_vertex hv
      exact (toward_nz (o e he)).2
  · obtain ⟨j, hj, hc⟩ := hf
    have cw := (C72_clockwise h).1 f u
    have e1 : (m.x (m.corner f j) : ℝ) = -32768 := by rw [hc, R.xy0.1]; norm_num
    have e2 : (m.y (m.corner f j) : ℝ) = -32768 := by rw [hc, R.xy0.2]; norm_num
    have := has_corner cw hj
    rwa [e1, e2] at this

/-- C114.  The polygon separates: on the two sides of an edge that it passes exactly once the winding numbers differ by one, -/
theorem C114_sides (h : Reach limit m) {f g i j : Nat} (uf : Used m f) (ug : Used m g) (hi : i < 3) (hj : j < 3)
    (s1 : m.corner f i = m.corner g (j + 1)) (s2 : m.corner f (i + 1) = m.corner g j) {ps : List V2} (W : m.Walled ps)
    (once : m.Once ps (m.corner f i) (m.corner f (i + 1))) {x y x' y' : ℝ} (hf : m.Has f x y) (o : Off ps x y) (hg : m.Has g x' y')
    (o' : Off ps x' y') :
    swept x y (polyEdges ps) = swept x' y' (polyEdges ps) + 2 * Real.pi ∨
      swept x' y' (polyEdges ps) = swept x y (polyEdges ps) + 2 * Real.pi := by
  obtain ⟨a, b, c, d, h1, -, h2, -, h3⟩ := sides_differ h uf ug hi hj s1 s2 once
  rwa [face_same h uf W h1 hf o, face_same h ug W h2 hg o'] at h3

/-- C114.  and so `fill` from one side of it never paints the face on the other side, whatever way there may be around. -/
theorem C114_separated (h : Reach limit m) {f0 f g i j info : Nat} (u : Used m f0) (hn : m.fi f0 ≠ info) (uf : Used m f) (ug : Used m g)
    (hi : i < 3) (hj : j < 3) (s1 : m.corner f i = m.corner g (j + 1)) (s2 : m.corner f (i + 1) = m.corner g j) {ps : List V2}
    (W : m.Walled ps) (once : m.Once ps (m.corner f i) (m.corner f (i + 1))) :
    ∃ K, ∀ k, K ≤ k → ∃ m', fill k m (4 * f0) info = some m' ∧ m'.fi f0 = info ∧ (m'.fi f = m.fi f ∨ m'.fi g = m.fi g) := by
  obtain ⟨K, hK⟩ := C76_fill h u hn
  refine ⟨K, fun k hk => ?_⟩
  obtain ⟨m', run, h1, h2, -⟩ := hK k hk
  refine ⟨m', run, h1 f0 .here, ?_⟩
  by_contra hc
  push Not at hc
  have r1 : Region m info f0 f := by
    by_contra hr; exact hc.1 (h2 f hr)
  have r2 : Region m info f0 g := by
    by_contra hr; exact hc.2 (h2 g hr)
  obtain ⟨a, b, c, d, k1, o1, k2, o2, k3⟩ := sides_differ h uf ug hi hj s1 s2 once
  obtain ⟨x0, y0, c0⟩ := core_exists h u
  have off0 : Off ps x0 y0 := by
    intro e he hon
    obtain ⟨a, b, w, on⟩ := W e he _ _ hon
    exact wall_core h u w c0 on
  have e1 := C114_same h u W r1 (fun j hj => (c0 j hj).le) off0 (fun j hj => (k1 j hj).le) o1
  have e2 := C114_same h u W r2 (fun j hj => (c0 j hj).le) off0 (fun j hj => (k2 j hj).le) o2
  have := Real.pi_pos
  rcases k3 with h | h <;> linarith

/-- C114.  A polygon between vertices whose sides are fences (as `constrain_edge` and `insert_edge` make them, C82 and C83) consists
of constrained edges. -/
theorem C114_fences {ps : List V2}
    (hf : ∀ e ∈ polyEdges ps, ∃ a b, e = (m.place a, m.place b) ∧ a ≠ b ∧ m.Fence a b) : m.Walled ps := by
  intro e he x y on
  obtain ⟨u, v, rfl, hne, F⟩ := hf e he
  exact fence_cover F hne on

/-- a square drawn with four edges -/
def ring1 : Mesh := ((insertEdge 100 60 sample0 (-100) (-100) (-100) 100 0).get (by decide +kernel)).1
/-- second side -/
def ring2 : Mesh := ((insertEdge 100 60 ring1 (-100) 100 100 100 0).get (by decide +kernel)).1
/-- third side -/
def ring3 : Mesh := ((insertEdge 100 60 ring2 100 100 100 (-100) 0).get (by decide +kernel)).1
/-- fourth side -/
def ring4 : Mesh := ((insertEdge 100 60 ring3 100 (-100) (-100) (-100) 0).get (by decide +kernel)).1

theorem ring4_reach : Reach 100 ring4 := by
  unfold ring4 ring3 ring2 ring1
  exact .edge (.edge (.edge (.edge (.reset _) (get_pair _ _)) (get_pair _ _)) (get_pair _ _)) (get_pair _ _)

theorem ring4_walled : ring4.Walled [⟨-100, -100⟩, ⟨-100, 100⟩, ⟨100, 100⟩, ⟨100, -100⟩] := by
  apply C114_fences
  intro e he
  have he : e ∈ [((⟨100, -100⟩ : V2), (⟨-100, -100⟩ : V2)), (⟨-100, -100⟩, ⟨-100, 100⟩), (⟨-100, 100⟩, ⟨100, 100⟩),
    (⟨100, 100⟩, ⟨100, -100⟩)] := he
  simp only [List.mem_cons, List.not_mem_nil, or_false] at he
  rcases he with rfl | rfl | rfl | rfl
  · exact ⟨7, 4, by decide +kernel, by decide, wall_fence ⟨15, 1, by unfold Used; decide +kernel, by decide, by decide +kernel, by decide +kernel⟩⟩
  · exact ⟨4, 5, by decide +kernel, by decide, wall_fence ⟨11, 0, by unfold Used; decide +kernel, by decide, by decide +kernel, by decide +kernel⟩⟩
  · exact ⟨5, 6, by decide +kernel, by decide, wall_fence ⟨11, 1, by unfold Used; decide +kernel, by decide, by decide +kernel, by decide +kernel⟩⟩
  · exact ⟨6, 7, by decide +kernel, by decide, wall_fence ⟨15, 0, by unfold Used; decide +kernel, by decide, by decide +kernel, by decide +kernel⟩⟩

example : Off [⟨-100, -100⟩, ⟨-100, 100⟩, ⟨100, 100⟩, ⟨100, -100⟩] (-32768) (-32768) := by
  intro e he
  have he : e ∈ [((⟨100, -100⟩ : V2), (⟨-100, -100⟩ : V2)), (⟨-100, -100⟩, ⟨-100, 100⟩), (⟨-100, 100⟩, ⟨100, 100⟩),
    (⟨100, 100⟩, ⟨100, -100⟩)] := he
  simp only [List.mem_cons, List.not_mem_nil, or_false] at he
  rcases he with rfl | rfl | rfl | rfl <;> rintro ⟨t, t0, t1, hx, hy⟩ <;> push_cast at hx hy <;> linarith

example : Used ring4 9 ∧ ring4.corner 9 0 = 0 ∧ ((fill 60 ring4 36 7).map fun m => (List.range 16).map m.fi) =
    some [0, 0, 0, 0, 0, 0, 7, 7, 7, 7, 7, 0, 7, 7, 7, 0] := by
  unfold Used; decide +kernel

example : inPolygon ⟨0, 0⟩ [⟨-100, -100⟩, ⟨-100, 100⟩, ⟨100, 100⟩, ⟨100, -100⟩] ≠ some 0 ∧
    inPolygon ⟨101, 0⟩ [⟨-100, -100⟩, ⟨-100, 100⟩, ⟨100, 100⟩, ⟨100, -100⟩] = some 0 := by decide +kernel

theorem ring4_once : ring4.Once [⟨-100, -100⟩, ⟨-100, 100⟩, ⟨100, 100⟩, ⟨100, -100⟩] 4 5 := by
  have e1 : ring4.x 4 = -100 ∧ ring4.y 4 = -100 ∧ ring4.x 5 = -100 ∧ ring4.y 5 = 100 := by decide +kernel
  obtain ⟨e1, e2, e3, e4⟩ := e1
  refine ⟨[(⟨100, -100⟩, ⟨-100, -100⟩)], (⟨-100, -100⟩, ⟨-100, 100⟩), [(⟨-100, 100⟩, ⟨100, 100⟩), (⟨100, 100⟩, ⟨100, -100⟩)], rfl,
    ⟨0, le_rfl, zero_le_one, by rw [e1]; push_cast; ring, by rw [e2]; push_cast; ring⟩,
    ⟨1, zero_le_one, le_rfl, by rw [e3]; push_cast; ring, by rw [e4]; push_cast; ring⟩, ?_⟩
  rw [e1, e2, e3, e4]
  intro e he
  simp only [List.cons_append, List.nil_append, List.mem_cons, List.not_mem_nil, or_false] at he
  rcases he with rfl | rfl | rfl <;> rintro ⟨t, t0, t1, hx, hy⟩ <;> push_cast at hx hy <;> linarith

example : ∃ K, ∀ k, K ≤ k → ∃ m', fill k ring4 36 7 = some m' ∧ m'.fi 9 = 7 ∧ (m'.fi 11 = ring4.fi 11 ∨ m'.fi 7 = ring4.fi 7) :=
  C114_separated (f0 := 9) (f := 11) (g := 7) (i := 1) (j := 0) ring4_reach (by unfold Used; decide +kernel) (by decide +kernel)
    (by unfold Used; decide +kernel) (by unfold Used; decide +kernel) (by decide) (by decide) (by decide +kernel) (by decide +kernel)
    ring4_walled (by
      rw [show ring4.corner 11 1 = 4 by decide +kernel, show ring4.corner 11 (1 + 1) = 5 by decide +kernel]
      exact ring4_once)

end CE.Cdt
