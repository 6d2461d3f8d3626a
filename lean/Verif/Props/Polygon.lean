import Verif.Proof.Polygon
/-!
# C50: in_polygon is the winding number
-/
namespace CE.Vec

open Complex Real

/-- complex number of a vector -/
noncomputable def toC (a : V2) : ℂ := ⟨a.x, a.y⟩

theorem turn_eq (a b : V2) : turn (toC a) (toC b) = crossing a b := by
  unfold turn crossing xorNeg toC
  dsimp only
  have c1 : ∀ n : ℤ, (0 : ℝ) ≤ (n : ℝ) ↔ ¬(n < 0) := by
    intro n; rw [not_lt]; exact_mod_cast Iff.rfl
  have c2 : ∀ n : ℤ, (n : ℝ) < 0 ↔ n < 0 := by intro n; exact_mod_cast Iff.rfl
  have c3 : (0 : ℝ) < (a.x : ℝ) * b.y - a.y * b.x ↔ 0 < a.x * b.y - a.y * b.x := by
    exact_mod_cast Iff.rfl
  have c4 : (a.x : ℝ) * b.y - a.y * b.x < 0 ↔ a.x * b.y - a.y * b.x < 0 := by
    exact_mod_cast Iff.rfl
  simp only [c1, c2, c3, c4]
  generalize a.x * b.y - a.y * b.x = q
  by_cases h1 : a.y < 0 <;> by_cases h2 : b.y < 0 <;> rcases lt_trichotomy q 0 with h3 | h3 | h3 <;>
    simp [h1, h2, h3, not_lt_of_gt]

theorem toward_neg (p v : V2) : toward p.x p.y v = -toC (rel p v) := by
  unfold toward toC rel
  apply Complex.ext <;> simp

theorem seenAngle_eq (p : V2) (e : V2 × V2) :
    seenAngle p.x p.y e = arg (toC (rel p e.2) / toC (rel p e.1)) := by
  unfold seenAngle
  rw [toward_neg, toward_neg, neg_div_neg_eq]

theorem toC_ne {p u : V2} (h : p ≠ u) : toC (rel p u) ≠ 0 := by
  intro hc
  apply h
  have h1 := congrArg Complex.re hc
  have h2 := congrArg Complex.im hc
  simp only [toC, rel, Complex.zero_re, Complex.zero_im] at h1 h2
  have h1' : p.x - u.x = 0 := by exact_mod_cast h1
  have h2' : p.y - u.y = 0 := by exact_mod_cast h2
  exact V2.ext (by omega) (by omega)

theorem off_edge_ne {p : V2} {e : V2 × V2} (h : ¬OnEdge p.x p.y e) : p ≠ e.1 ∧ p ≠ e.2 := by
  constructor
  · intro hc
    exact h ⟨0, le_refl _, zero_le_one, by rw [hc]; simp, by rw [hc]; simp⟩
  · intro hc
    exact h ⟨1, zero_le_one, le_refl _, by rw [hc]; simp, by rw [hc]; simp⟩

theorem off_edge_pi {p : V2} {e : V2 × V2} (h : ¬OnEdge p.x p.y e) :
    arg (toC (rel p e.2) / toC (rel p e.1)) ≠ π := by
  apply arg_ne_pi (toC_ne (off_edge_ne h).1)
  rintro ⟨t, h0, h1, h2, h3⟩
  apply h
  simp only [toC, rel] at h2 h3
  push_cast at h2 h3
  exact ⟨t, h0, h1, by linarith, by linarith⟩

theorem seenAngle_turn {p : V2} {e : V2 × V2} (h : ¬OnEdge p.x p.y e) :
    seenAngle p.x p.y e = arg (toC (rel p e.2)) - arg (toC (rel p e.1)) + 2 * π * cr p e := by
  obtain ⟨h1, h2⟩ := off_edge_ne h
  rw [seenAngle_eq, arg_turn (toC_ne h1) (toC_ne h2) (off_edge_pi h), turn_eq]
  rfl

theorem swept_from (p u : V2) (vs : List V2) (h : ∀ e ∈ edgesFrom u vs, ¬OnEdge p.x p.y e) :
    swept p.x p.y (edgesFrom u vs) = arg (toC (rel p ((u :: vs).getLast (by simp)))) -
      arg (toC (rel p u)) + 2 * π * (((edgesFrom u vs).map (cr p)).sum : ℤ) := by
  induction vs generalizing u with
  | nil => simp [swept, edgesFrom]
  | cons v vs ih =>
    have h1 := seenAngle_turn (h (u, v) (by simp [edgesFrom]))
    have h2 := ih v (fun e he => h e (by simp [edgesFrom, he]))
    unfold swept at *
    rw [edgesFrom, List.map_cons, List.sum_cons, h1, h2, List.map_cons, List.sum_cons]
    have hl : (u :: v :: vs).getLast (by simp) = (v :: vs).getLast (by simp) :=
      List.getLast_cons (by simp)
    rw [hl]
    push_cast
    ring

/-- C50.  For every polygon and every point off its edges: `in_polygon` is, modulo 2^64, the integer
`k` with `2π k` the total angle swept by the polygon around the point, i.e. its winding number. -/
theorem C50_winding_number (p : V2) (ps : List V2) (w : Nat) (h : inPolygon p ps = some w)
    (hoff : ∀ e ∈ polyEdges ps, ¬OnEdge p.x p.y e) :
    ∃ k : ℤ, swept p.x p.y (polyEdges ps) = 2 * π * k ∧ (w : ℤ) = k % 2 ^ 64 := by
  refine ⟨((polyEdges ps).map (cr p)).sum, ?_, inPolygon_some h⟩
  cases ps with
  | nil => simp [swept, polyEdges]
  | cons v vs =>
    have e : polyEdges (v :: vs) = edgesFrom ((v :: vs).getLast (by simp)) (v :: vs) := by
      unfold polyEdges
      rw [List.getLast?_eq_getLast_of_ne_nil (by simp)]
    rw [e] at hoff ⊢
    rw [swept_from p _ _ hoff, List.getLast_cons (by simp), sub_self, zero_add]

/-- C50.  No overflow for coordinates up to `2^30 - 1`. -/
theorem C50_defined (p : V2) (ps : List V2)
    (hp : (-(2 ^ 30 - 1) ≤ p.x ∧ p.x ≤ 2 ^ 30 - 1) ∧ (-(2 ^ 30 - 1) ≤ p.y ∧ p.y ≤ 2 ^ 30 - 1))
    (hps : ∀ v ∈ ps, (-(2 ^ 30 - 1) ≤ v.x ∧ v.x ≤ 2 ^ 30 - 1) ∧ (-(2 ^ 30 - 1) ≤ v.y ∧ v.y ≤ 2 ^ 30 - 1)) :
    ∃ w, inPolygon p ps = some w := by
  have loop : ∀ (vs : List V2) (a : V2) (w : Nat), (∀ v ∈ vs, (-(2 ^ 30 - 1) ≤ v.x ∧ v.x ≤ 2 ^ 30 - 1) ∧
      (-(2 ^ 30 - 1) ≤ v.y ∧ v.y ≤ 2 ^ 30 - 1)) → (-(2 ^ 31 - 1) ≤ a.x ∧ a.x ≤ 2 ^ 31 - 1) →
      (-(2 ^ 31 - 1) ≤ a.y ∧ a.y ≤ 2 ^ 31 - 1) → ∃ r, polyLoop p.x p.y a w vs = some r := by
    intro vs
    induction vs with
    | nil => intro a w _ _ _; exact ⟨w, rfl⟩
    | cons v vs ih =>
      intro a w hv hax hay
      have hv0 := hv v (by simp)
      have hbx : -(2 ^ 31 - 1) ≤ p.x - v.x ∧ p.x - v.x ≤ 2 ^ 31 - 1 := by omega
      have hby : -(2 ^ 31 - 1) ≤ p.y - v.y ∧ p.y - v.y ≤ 2 ^ 31 - 1 := by omega
      have m1 := mul_bounds hax hby
      have m2 := mul_bounds hay hbx
      norm_num only at m1 m2
      have : ∃ w', polyRound p.x p.y a w v = some (⟨p.x - v.x, p.y - v.y⟩, w') := by
        unfold polyRound
        rw [i64_eq (n := p.x - v.x) ⟨by omega, by omega⟩, i64_eq (n := p.y - v.y) ⟨by omega, by omega⟩]
        simp only [Option.bind_eq_bind, Option.bind_some]
        split
        · rw [i64_eq (n := a.x * _) ⟨by omega, by omega⟩, i64_eq (n := a.y * _) ⟨by omega, by omega⟩]
          simp only [Option.bind_some]
          rw [i64_eq (n := _ - _) ⟨by omega, by omega⟩]
          exact ⟨_, rfl⟩
        · exact ⟨_, rfl⟩
      obtain ⟨w', hw'⟩ := this
      rw [polyLoop, hw']
      exact ih _ _ (fun u hu => hv u (by simp [hu])) hbx hby
  unfold inPolygon
  cases hl : ps.getLast? with
  | none => exact ⟨0, rfl⟩
  | some v =>
    have hv := hps v (List.mem_of_getLast? hl)
    dsimp only
    rw [i64_eq (n := p.x - v.x) ⟨by omega, by omega⟩, i64_eq (n := p.y - v.y) ⟨by omega, by omega⟩]
    exact loop ps _ _ hps ⟨by dsimp only; omega, by dsimp only; omega⟩
      ⟨by dsimp only; omega, by dsimp only; omega⟩

/-- C50.  The starting vertex does not matter (points on edges included). -/
theorem C50_rotate (p : V2) (ps : List V2) (k w w' : Nat) (h : inPolygon p ps = some w)
    (h' : inPolygon p (ps.rotate k) = some w') : w' = w := by
  have e1 := inPolygon_some h
  have e2 := inPolygon_some h'
  rw [((polyEdges_rotate ps k).map (cr p)).sum_eq, ← e1] at e2
  exact_mod_cast e2

/-- C50.  Reversing the orientation changes the sign (modulo 2^64). -/
theorem C50_reverse (p : V2) (ps : List V2) (w w' : Nat) (h : inPolygon p ps = some w)
    (h' : inPolygon p ps.reverse = some w') : (w + w') % 2 ^ 64 = 0 := by
  have e1 := inPolygon_some h
  have e2 := inPolygon_some h'
  rw [((polyEdges_reverse ps).map (cr p)).sum_eq, List.map_map] at e2
  have : (List.map (cr p ∘ Prod.swap) (polyEdges ps)).sum = -(List.map (cr p) (polyEdges ps)).sum := by
    generalize polyEdges ps = es
    induction es with
    | nil => rfl
    | cons e es ih =>
      rw [List.map_cons, List.sum_cons, List.map_cons, List.sum_cons, ih, Function.comp, cr_swap]
      ring
  rw [this] at e2
  omega

/-- C50.  Cutting along the chord from `u` to `v`: the counts of the parts add up (modulo 2^64). -/
theorem C50_cut (p u v : V2) (as bs : List V2) (w w1 w2 : Nat)
    (h : inPolygon p (u :: as ++ v :: bs) = some w) (h1 : inPolygon p (u :: as ++ [v]) = some w1)
    (h2 : inPolygon p (v :: bs ++ [u]) = some w2) : w = (w1 + w2) % 2 ^ 64 := by
  have e := inPolygon_some h
  have e1 := inPolygon_some h1
  have e2 := inPolygon_some h2
  have hc := ((polyEdges_cut u v as bs).map (cr p)).sum_eq
  rw [List.map_cons, List.sum_cons, List.map_cons, List.sum_cons, List.map_append, List.sum_append] at hc
  have hs : cr p (v, u) = -cr p (u, v) := cr_swap p (u, v)
  omega

/-- C50.  A triangle's count is nonzero exactly for the points strictly inside: the three vertices
are seen in the same strict rotational sense; it is then 1 or -1 (modulo 2^64) by orientation. -/
theorem C50_triangle (p a b c : V2) (w : Nat) (h : inPolygon p [a, b, c] = some w)
    (hoff : ∀ e ∈ polyEdges [a, b, c], ¬OnEdge p.x p.y e) :
    let X := (a.x - p.x) * (b.y - p.y) - (a.y - p.y) * (b.x - p.x)
    let Y := (b.x - p.x) * (c.y - p.y) - (b.y - p.y) * (c.x - p.x)
    let Z := (c.x - p.x) * (a.y - p.y) - (c.y - p.y) * (a.x - p.x)
    w = (if 0 < X ∧ 0 < Y ∧ 0 < Z then 1 else if X < 0 ∧ Y < 0 ∧ Z < 0 then 2 ^ 64 - 1 else 0) := by
  intro X Y Z
  obtain ⟨k, hk, hw⟩ := C50_winding_number p [a, b, c] w h hoff
  have hE : polyEdges [a, b, c] = [(c, a), (a, b), (b, c)] := rfl
  rw [hE] at hk hoff
  unfold swept at hk
  simp only [List.map_cons, List.map_nil, List.sum_cons, List.sum_nil, add_zero] at hk
  have key : ∀ u v : V2, ¬OnEdge p.x p.y (u, v) →
      let q := (u.x - p.x) * (v.y - p.y) - (u.y - p.y) * (v.x - p.x);
      -π < seenAngle p.x p.y (u, v) ∧ seenAngle p.x p.y (u, v) < π ∧
        (q < 0 ∧ seenAngle p.x p.y (u, v) < 0 ∨ 0 < q ∧ 0 < seenAngle p.x p.y (u, v) ∨
          q = 0 ∧ seenAngle p.x p.y (u, v) = 0) := by
    intro u v he q
    rw [seenAngle_eq]
    have hne := toC_ne (off_edge_ne he).1
    have hpi := off_edge_pi he
    dsimp only at hne hpi ⊢
    have hq : (toC (rel p u)).re * (toC (rel p v)).im - (toC (rel p u)).im * (toC (rel p v)).re = (q : ℝ) := by
      simp only [toC, rel, q]; push_cast; ring
    refine ⟨neg_pi_lt_arg _, lt_of_le_of_ne (arg_le_pi _) hpi, ?_⟩
    rcases lt_trichotomy q 0 with h | h | h
    · exact Or.inl ⟨h, (arg_neg_cross hne).2 (by rw [hq]; exact_mod_cast h)⟩
    · refine Or.inr (Or.inr ⟨h, ?_⟩)
      have him : (toC (rel p v) / toC (rel p u)).im = 0 := by rw [im_div, hq, h]; simp
      rcases le_or_gt 0 (toC (rel p v) / toC (rel p u)).re with hr | hr
      · exact arg_eq_zero_iff.2 ⟨hr, him⟩
      · exact absurd (arg_eq_pi_iff.2 ⟨hr, him⟩) hpi
    · exact Or.inr (Or.inl ⟨h, arg_pos_cross hne (by rw [hq]; exact_mod_cast h)⟩)
  obtain ⟨x1, x2, x3⟩ := key a b (hoff _ (by simp))
  obtain ⟨y1, y2, y3⟩ := key b c (hoff _ (by simp))
  obtain ⟨z1, z2, z3⟩ := key c a (hoff _ (by simp))
  have p0 := Real.pi_pos
  change X < 0 ∧ _ ∨ 0 < X ∧ _ ∨ X = 0 ∧ _ at x3
  change Y < 0 ∧ _ ∨ 0 < Y ∧ _ ∨ Y = 0 ∧ _ at y3
  change Z < 0 ∧ _ ∨ 0 < Z ∧ _ ∨ Z = 0 ∧ _ at z3
  generalize seenAngle p.x p.y (a, b) = α at *
  generalize seenAngle p.x p.y (b, c) = β at *
  generalize seenAngle p.x p.y (c, a) = γ at *
  clear_value X Y Z
  rcases x3 with ⟨x3, x4⟩ | ⟨x3, x4⟩ | ⟨x3, x4⟩ <;> rcases y3 with ⟨y3, y4⟩ | ⟨y3, y4⟩ | ⟨y3, y4⟩ <;>
    rcases z3 with ⟨z3, z4⟩ | ⟨z3, z4⟩ | ⟨z3, z4⟩
  case inl.inl.inl =>
    have := int_of_bounds (k := k) (lo := -2) (hi := 0) (by push_cast; linarith) (by push_cast; linarith)
    rw [if_neg (by omega), if_pos ⟨x3, y3, z3⟩]
    omega
  case inr.inl.inr.inl.inr.inl =>
    have := int_of_bounds (k := k) (lo := 0) (hi := 2) (by push_cast; linarith) (by push_cast; linarith)
    rw [if_pos ⟨x3, y3, z3⟩]
    omega
  all_goals
    have := int_of_bounds (k := k) (lo := -1) (hi := 1) (by push_cast; linarith) (by push_cast; linarith)
    rw [if_neg (by omega), if_neg (by omega)]
    omega

/-- a square, a point inside and one outside; a square traversed twice; reversed -/
example : inPolygon ⟨1, 1⟩ [⟨0, 0⟩, ⟨3, 0⟩, ⟨3, 3⟩, ⟨0, 3⟩] = some 1 ∧
    inPolygon ⟨5, 1⟩ [⟨0, 0⟩, ⟨3, 0⟩, ⟨3, 3⟩, ⟨0, 3⟩] = some 0 ∧
    inPolygon ⟨1, 1⟩ [⟨0, 0⟩, ⟨3, 0⟩, ⟨3, 3⟩, ⟨0, 3⟩, ⟨0, 0⟩, ⟨3, 0⟩, ⟨3, 3⟩, ⟨0, 3⟩] = some 2 ∧
    inPolygon ⟨1, 1⟩ [⟨0, 3⟩, ⟨3, 3⟩, ⟨3, 0⟩, ⟨0, 0⟩] = some (2 ^ 64 - 1) := by decide +kernel

/-- the point (1, 1) is on no edge of the triangle (0,0) (3,0) (0,3) -/
example : ∀ e ∈ polyEdges [⟨0, 0⟩, ⟨3, 0⟩, ⟨0, 3⟩], ¬OnEdge ((1 : ℤ) : ℝ) ((1 : ℤ) : ℝ) e := by
  intro e he
  have hE : polyEdges [⟨0, 0⟩, ⟨3, 0⟩, ⟨0, 3⟩] = [(⟨0, 3⟩, ⟨0, 0⟩), (⟨0, 0⟩, ⟨3, 0⟩), (⟨3, 0⟩, ⟨0, 3⟩)] := rfl
  rw [hE] at he
  rintro ⟨t, h0, h1, h2, h3⟩
  simp only [List.mem_cons, List.not_mem_nil, or_false] at he
  rcases he with rfl | rfl | rfl
  · norm_num at h2
  · norm_num at h3
  · norm_num at h2 h3; linarith

/-- C50.  Coordinates near the ends of the 32-bit range do overflow 64-bit products. -/
theorem C50_overflow_beyond_bound :
    inPolygon ⟨2147483647, 2147483647⟩ [⟨-2147483648, -2147483648⟩, ⟨2147483647, 2147483647⟩,
      ⟨-2147483648, -2147483648⟩] = some 0 ∧
    inPolygon ⟨2147483647, 0⟩ [⟨-2147483648, -2147483648⟩, ⟨-2147483648, 2147483647⟩] = none := by
  decide +kernel

end CE.Vec
