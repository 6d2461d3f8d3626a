import Verif.Props.Vec
import Verif.Props.IsqrtMono
/-!
# C139: the range tests fit together

How the answers of `in_range_rr`, `in_range_rr_line`, `_ray`, `_segment`, `_edge` and `hypot` for the same ball relate.
-/
namespace CE.Vec

open CE.Isqrt

theorem near_mono {px py rr rr' dx dy : ℤ} {t : ℝ} (h : rr ≤ rr') (hn : Near px py rr dx dy t) : Near px py rr' dx dy t := by
  unfold Near at *
  have : (rr : ℝ) ≤ rr' := by exact_mod_cast h
  linarith

/-- the same point of the line seen from the other end -/
theorem near_reverse (px py rr dx dy : ℤ) (t : ℝ) :
    Near (px - dx) (py - dy) rr (-dx) (-dy) t ↔ Near px py rr dx dy (1 - t) := by
  unfold Near
  push_cast
  have e1 : (px : ℝ) - dx - t * -dx = px - (1 - t) * dx := by ring
  have e2 : (py : ℝ) - dy - t * -dy = py - (1 - t) * dy := by ring
  rw [e1, e2]

/-- the part of a line in a ball has no gaps -/
theorem near_between {px py rr dx dy : ℤ} {s t u : ℝ} (hs : Near px py rr dx dy s) (hu : Near px py rr dx dy u)
    (h1 : s ≤ t) (h2 : t ≤ u) : Near px py rr dx dy t := by
  rcases eq_or_lt_of_le (le_trans h1 h2) with e | e
  · have : t = s := by linarith
    rw [this]; exact hs
  · unfold Near at *
    have hpos : 0 < u - s := by linarith
    have key : (u - s) * (((px : ℝ) - t * dx) ^ 2 + ((py : ℝ) - t * dy) ^ 2) =
        (u - t) * (((px : ℝ) - s * dx) ^ 2 + ((py : ℝ) - s * dy) ^ 2) +
        (t - s) * (((px : ℝ) - u * dx) ^ 2 + ((py : ℝ) - u * dy) ^ 2) -
        (u - s) * (t - s) * (u - t) * ((dx : ℝ) ^ 2 + (dy : ℝ) ^ 2) := by ring
    have h3 : 0 ≤ (u - s) * (t - s) * (u - t) * ((dx : ℝ) ^ 2 + (dy : ℝ) ^ 2) := by
      have := sub_nonneg.2 h1
      have := sub_nonneg.2 h2
      positivity
    have h4 : (u - t) * (((px : ℝ) - s * dx) ^ 2 + ((py : ℝ) - s * dy) ^ 2) ≤ (u - t) * rr :=
      mul_le_mul_of_nonneg_left hs.le (sub_nonneg.2 h2)
    have h5 : (t - s) * (((px : ℝ) - u * dx) ^ 2 + ((py : ℝ) - u * dy) ^ 2) ≤ (t - s) * rr :=
      mul_le_mul_of_nonneg_left hu.le (sub_nonneg.2 h1)
    have h6 : (u - t) * (((px : ℝ) - s * dx) ^ 2 + ((py : ℝ) - s * dy) ^ 2) +
        (t - s) * (((px : ℝ) - u * dx) ^ 2 + ((py : ℝ) - u * dy) ^ 2) < (u - s) * rr := by
      rcases eq_or_lt_of_le h1 with e1 | e1
      · have := mul_lt_mul_of_pos_left hs (show 0 < u - t by linarith)
        nlinarith
      · have := mul_lt_mul_of_pos_left hu (show 0 < t - s by linarith)
        nlinarith
    have h7 : (u - s) * (((px : ℝ) - t * dx) ^ 2 + ((py : ℝ) - t * dy) ^ 2) < (u - s) * rr := by
      rw [key]; linarith
    exact lt_of_mul_lt_mul_left h7 hpos.le

/-- C139.  What touches the beginning of a segment touches the segment, what touches the segment touches the ray, and what
touches the ray touches the line; an edge that is hit belongs to a segment that is hit. -/
theorem C139_chain (px py rr dx dy : Int) (b s r l e : Bool) (hb : inRange px py rr = some b)
    (hs : inRangeSegment px py rr dx dy = some s) (hr : inRangeRay px py rr dx dy = some r)
    (hl : inRangeLine px py rr dx dy = some l) (he : inRangeEdge px py rr dx dy = some e) :
    (b = true → s = true) ∧ (s = true → r = true) ∧ (r = true → l = true) ∧
      (¬(dx = 0 ∧ dy = 0) → e = true → s = true) := by
  rw [C45_in_range _ _ _ _ hb, C45_segment _ _ _ _ _ _ hs, C45_ray _ _ _ _ _ _ hr, C45_line _ _ _ _ _ _ hl]
  refine ⟨?_, fun ⟨t, h1, _, h2⟩ => ⟨t, h1, h2⟩, fun ⟨t, _, h⟩ => ⟨t, h⟩, ?_⟩
  · intro h
    refine ⟨0, le_refl _, zero_le_one, ?_⟩
    unfold Near
    simpa using h
  · intro hd h
    rw [C46_edge_exact _ _ _ _ _ _ hd he] at h
    rcases h with ⟨-, h⟩ | ⟨⟨t, h0, h1, ht⟩, u, hu⟩
    · exact ⟨0, le_refl _, zero_le_one, (near_zero ..).2 h⟩
    · refine ⟨t, h0, h1, ?_⟩
      unfold Near at *
      nlinarith [sq_nonneg ((u - t) * dx), sq_nonneg ((u - t) * dy), congrArg (fun z => (u - t) * z) ht]

/-- C139.  A larger ball touches whatever a smaller one touches. -/
theorem C139_mono (px py rr rr' dx dy : Int) (h : rr ≤ rr') :
    (∀ a b, inRange px py rr = some a → inRange px py rr' = some b → a = true → b = true) ∧
    (∀ a b, inRangeLine px py rr dx dy = some a → inRangeLine px py rr' dx dy = some b → a = true → b = true) ∧
    (∀ a b, inRangeRay px py rr dx dy = some a → inRangeRay px py rr' dx dy = some b → a = true → b = true) ∧
    (∀ a b, inRangeSegment px py rr dx dy = some a → inRangeSegment px py rr' dx dy = some b → a = true → b = true) ∧
    (∀ a b, ¬(dx = 0 ∧ dy = 0) → inRangeEdge px py rr dx dy = some a → inRangeEdge px py rr' dx dy = some b →
      a = true → b = true) := by
  refine ⟨?_, ?_, ?_, ?_, ?_⟩
  · intro a b ha hb
    rw [C45_in_range _ _ _ _ ha, C45_in_range _ _ _ _ hb]
    have : (rr : ℝ) ≤ rr' := by exact_mod_cast h
    intro h; linarith
  · intro a b ha hb
    rw [C45_line _ _ _ _ _ _ ha, C45_line _ _ _ _ _ _ hb]
    exact fun ⟨t, k⟩ => ⟨t, near_mono h k⟩
  · intro a b ha hb
    rw [C45_ray _ _ _ _ _ _ ha, C45_ray _ _ _ _ _ _ hb]
    exact fun ⟨t, h0, k⟩ => ⟨t, h0, near_mono h k⟩
  · intro a b ha hb
    rw [C45_segment _ _ _ _ _ _ ha, C45_segment _ _ _ _ _ _ hb]
    exact fun ⟨t, h0, h1, k⟩ => ⟨t, h0, h1, near_mono h k⟩
  · intro a b hd ha hb
    rw [C46_edge_exact _ _ _ _ _ _ hd ha, C46_edge_exact _ _ _ _ _ _ hd hb]
    rintro (⟨h0, k⟩ | ⟨h0, t, k⟩)
    · exact .inl ⟨h0, by omega⟩
    · exact .inr ⟨h0, t, near_mono h k⟩

/-- C139.  It does not matter which end of a segment, or which two points of a line in which order, are given first. -/
theorem C139_reverse (px py rr dx dy : Int) :
    (∀ a b, inRangeSegment px py rr dx dy = some a → inRangeSegment (px - dx) (py - dy) rr (-dx) (-dy) = some b → a = b) ∧
    (∀ a b, inRangeLine px py rr dx dy = some a → inRangeLine (px - dx) (py - dy) rr (-dx) (-dy) = some b → a = b) := by
  constructor
  · intro a b ha hb
    rw [Bool.eq_iff_iff, C45_segment _ _ _ _ _ _ ha, C45_segment _ _ _ _ _ _ hb]
    simp only [near_reverse]
    constructor
    · rintro ⟨t, h0, h1, h⟩
      exact ⟨1 - t, by linarith, by linarith, by rwa [sub_sub_cancel]⟩
    · rintro ⟨t, h0, h1, h⟩
      exact ⟨1 - t, by linarith, by linarith, h⟩
  · intro a b ha hb
    rw [Bool.eq_iff_iff, C45_line _ _ _ _ _ _ ha, C45_line _ _ _ _ _ _ hb]
    simp only [near_reverse]
    exact ⟨fun ⟨t, h⟩ => ⟨1 - t, by rwa [sub_sub_cancel]⟩, fun ⟨t, h⟩ => ⟨1 - t, h⟩⟩

/-- C139.  A ball touches a segment exactly when it touches the rays from both ends through the other. -/
theorem C139_segment_rays (px py rr dx dy : Int) (s r r' : Bool) (hs : inRangeSegment px py rr dx dy = some s)
    (hr : inRangeRay px py rr dx dy = some r) (hr' : inRangeRay (px - dx) (py - dy) rr (-dx) (-dy) = some r') :
    s = (r && r') := by
  rw [Bool.eq_iff_iff, Bool.and_eq_true, C45_segment _ _ _ _ _ _ hs, C45_ray _ _ _ _ _ _ hr, C45_ray _ _ _ _ _ _ hr']
  simp only [near_reverse]
  constructor
  · rintro ⟨t, h0, h1, h⟩
    exact ⟨⟨t, h0, h⟩, 1 - t, by linarith, by rwa [sub_sub_cancel]⟩
  · rintro ⟨⟨t, h0, h⟩, u, h1, h'⟩
    by_cases ht : t ≤ 1
    · exact ⟨t, h0, ht, h⟩
    · exact ⟨1, zero_le_one, le_refl _, near_between h' h (by linarith) (by linarith)⟩

/-- C139.  A ball touches a segment exactly when it touches one of the ends or the edge. -/
theorem C139_segment_edge (px py rr dx dy : Int) (hd : ¬(dx = 0 ∧ dy = 0)) (s e a b : Bool)
    (hs : inRangeSegment px py rr dx dy = some s) (he : inRangeEdge px py rr dx dy = some e)
    (ha : inRange px py rr = some a) (hb : inRange (px - dx) (py - dy) rr = some b) : s = (a || b || e) := by
  rw [Bool.eq_iff_iff, Bool.or_eq_true, Bool.or_eq_true, C45_segment _ _ _ _ _ _ hs, C45_in_range _ _ _ _ ha,
    C45_in_range _ _ _ _ hb, C46_edge_exact _ _ _ _ _ _ hd he]
  constructor
  · rintro ⟨t, h0, h1, h⟩
    by_cases hp : ProjectsOn px py dx dy
    · exact .inr (.inr ⟨hp, t, h⟩)
    · left
      rw [projectsOn_iff _ _ _ _ hd] at hp
      unfold Near at h
      by_cases hneg : px * dx + py * dy < 0
      · left
        have : ((px * dx + py * dy : ℤ) : ℝ) < 0 := by exact_mod_cast hneg
        push_cast at this
        nlinarith [mul_nonneg h0 (neg_nonneg.2 this.le), sq_nonneg (t * dx), sq_nonneg (t * dy)]
      · right
        have hgt : dx * dx + dy * dy < px * dx + py * dy := by
          by_contra hc; exact hp ⟨by omega, by omega⟩
        have hgt : ((dx * dx + dy * dy : ℤ) : ℝ) < ((px * dx + py * dy : ℤ) : ℝ) := by exact_mod_cast hgt
        push_cast at hgt ⊢
        nlinarith [mul_nonneg (sub_nonneg.2 h1) (sub_pos.2 hgt).le, sq_nonneg ((1 - t) * dx), sq_nonneg ((1 - t) * dy)]
  · rintro ((h | h) | ⟨-, h⟩ | ⟨⟨t, h0, h1, ht⟩, u, hu⟩)
    · exact ⟨0, le_refl _, zero_le_one, by unfold Near; simpa using h⟩
    · exact ⟨1, zero_le_one, le_refl _, by unfold Near; push_cast at h; simpa using h⟩
    · exact ⟨0, le_refl _, zero_le_one, (near_zero ..).2 h⟩
    · refine ⟨t, h0, h1, ?_⟩
      unfold Near at *
      nlinarith [sq_nonneg ((u - t) * dx), sq_nonneg ((u - t) * dy), congrArg (fun z => (u - t) * z) ht]

/-- the range test in whole numbers -/
theorem inRange_int {x y rr : Int} {b : Bool} (h : inRange x y rr = some b) : b = true ↔ x * x + y * y < rr := by
  rw [C45_in_range _ _ _ _ h, ← Int.cast_lt (R := ℝ)]
  push_cast
  rw [pow_two, pow_two]

/-- C139.  `hypot` against the range test: a length below `r` means in range, in range means a length of at most `r`. -/
theorem C139_hypot (x y r h : Int) (b : Bool) (hr : 0 ≤ r) (hh : hypot x y = some h) (h0 : 0 ≤ h)
    (hb : inRange x y (r * r) = some b) : (h < r → b = true) ∧ (b = true → h ≤ r) := by
  rw [inRange_int hb]
  unfold hypot at hh
  split at hh
  · next hlt =>
    injection hh with hh
    have hx := mul_self_nonneg x
    have hy := mul_self_nonneg y
    rcases eq_or_lt_of_le (show 0 ≤ x * x + y * y by omega) with e | e
    · rw [← e] at hh ⊢
      have h00 : h = 0 := by rw [← hh]; rfl
      subst h00
      exact ⟨fun k => mul_pos k k, fun _ => hr⟩
    · obtain ⟨k1, k2⟩ := C53_error_below_one _ e hlt h hh h0
      constructor
      · intro k
        have := mul_self_le_mul_self (show 0 ≤ h + 1 by omega) (show h + 1 ≤ r by omega)
        omega
      · intro k
        by_contra hc
        have := mul_self_le_mul_self hr (show r ≤ h - 1 by omega)
        omega
  · cases hh

/-- C139.  Off x86, where the length is rounded down, the two agree for lengths below 2^26. -/
theorem C139_hypot_generic (x y r h : Int) (b : Bool) (hr : 0 ≤ r) (hs : x * x + y * y < 2 ^ 52)
    (hh : hypotGeneric x y = some h) (hb : inRange x y (r * r) = some b) : h < r ↔ b = true := by
  rw [inRange_int hb]
  rw [C53_generic_floor x y hs] at hh
  injection hh with hh
  have hx := mul_self_nonneg x
  have hy := mul_self_nonneg y
  obtain ⟨R, rfl⟩ : ∃ R : Nat, r = R := ⟨r.toNat, by omega⟩
  obtain ⟨v, hv⟩ : ∃ v : Nat, x * x + y * y = v := ⟨(x * x + y * y).toNat, by omega⟩
  rw [hv] at hh ⊢
  rw [Int.toNat_natCast] at hh
  rw [← hh]
  have := @Nat.sqrt_lt v R
  constructor
  · intro k; exact_mod_cast this.1 (by omega)
  · intro k
    have k : v < R * R := by exact_mod_cast k
    have := this.2 k
    omega

/-- C139.  On x86 the length is rounded to nearest: a point in range of 3 has the length 3. -/
theorem C139_hypot_strict_false : hypot 2 2 = some 3 ∧ inRange 2 2 (3 * 3) = some true :=
  ⟨C53_platforms_differ.1, by decide +kernel⟩

/-- C139.  The edge test is not symmetric, unlike that of the segment: seen from the other end the answer differs. -/
theorem C139_edge_reverse_false : inRangeEdge 5 0 100 1 0 = some true ∧ inRangeEdge (5 - 1) (0 - 0) 100 (-1) (-0) = some false := by
  decide +kernel

/-- the hypotheses are met, and each step of the chain can be strict -/
example : inRange 3 1 4 = some false ∧ inRangeSegment 3 1 4 2 0 = some true ∧
    inRangeSegment 5 1 4 2 0 = some false ∧ inRangeRay 5 1 4 2 0 = some true ∧
    inRangeRay (-5) 1 4 2 0 = some false ∧ inRangeLine (-5) 1 4 2 0 = some true ∧
    inRangeEdge 1 1 2 2 0 = some true ∧ inRangeEdge 3 1 4 2 0 = some false := by decide +kernel

example : inRangeRay (3 - 2) (1 - 0) 4 (-2) (-0) = some true ∧ inRangeRay 3 1 4 2 0 = some true := by decide +kernel

end CE.Vec
