import Verif.Proof.IsqrtMono
import Mathlib.Algebra.Order.Ring.Abs
/-!
# C136: lengths are ordered

What a program that compares lengths relies on: `isqrt` and `hypot` never order two lengths the wrong way
round, a length is at least each of the components and at most their sum, and the length of a sum is at most
the sum of the lengths plus a bounded error.  Lengths that do not fit in 32 bits answer the least number
on x86, which is excluded by `0 ≤ r`.
-/
namespace CE.Isqrt

/-- C136.  `isqrt` keeps the order, up to the first argument whose root does not fit. -/
theorem C136_isqrt_mono (v w : Int) (hv : 0 ≤ v) (h : v ≤ w) (hw : w < 2 ^ 63) (hf : 0 ≤ isqrt w) :
    0 ≤ isqrt v ∧ isqrt v ≤ isqrt w := by
  obtain ⟨a, rfl⟩ : ∃ a : Nat, v = a := ⟨v.toNat, by omega⟩
  obtain ⟨b, rfl⟩ : ∃ b : Nat, w = b := ⟨w.toNat, by omega⟩
  have hab : a ≤ b := by omega
  by_cases ha : a = 0
  · subst ha
    have : isqrt ((0 : Nat) : Int) = 0 := rfl
    rw [this]; exact ⟨le_rfl, hf⟩
  · have pa := toDouble_pos (n := a) (by omega)
    have pb := toDouble_pos (n := b) (by omega)
    have hm := toDouble_mono hab
    have hbb := toDouble_bounds b
    have hl : (toDouble b).log2 ≤ 105 := by
      have : (toDouble b).log2 ≤ 63 := log2_le_of_lt (by norm_num at *; omega)
      omega
    have ea : isqrt (a : Int) = cvtNearest (sqrtSig (toDouble a)) (scale (toDouble a)) := by
      unfold isqrt
      rw [if_neg (by omega), Int.toNat_natCast]
      dsimp only
      rw [if_neg (by omega)]
    have eb : isqrt (b : Int) = cvtNearest (sqrtSig (toDouble b)) (scale (toDouble b)) := by
      unfold isqrt
      rw [if_neg (by omega), Int.toNat_natCast]
      dsimp only
      rw [if_neg (by omega)]
    rw [eb] at hf
    rw [ea, eb]
    have hr := rne_mono_frac (d := 2 ^ scale (toDouble a)) (e := 2 ^ scale (toDouble b)) (by positivity)
      (by positivity) (root_mono pa hm hl)
    unfold cvtNearest at *
    generalize rne (sqrtSig (toDouble a) / _) _ _ = p at *
    generalize rne (sqrtSig (toDouble b) / _) _ _ = q at *
    unfold fit32 at *
    split at hf
    · rw [if_pos (by omega)]; omega
    · omega

/-- squares are ordered like magnitudes -/
theorem sq_le_of_abs {x x' : Int} (h : |x| ≤ |x'|) : x * x ≤ x' * x' := by
  rw [← abs_mul_abs_self x, ← abs_mul_abs_self x']
  exact mul_le_mul h h (abs_nonneg _) (abs_nonneg _)

/-- C136.  A vector whose components are no larger has no larger `hypot` (x86). -/
theorem C136_hypot_mono (x y x' y' r' : Int) (hx : |x| ≤ |x'|) (hy : |y| ≤ |y'|)
    (h : hypot x' y' = some r') (hr : 0 ≤ r') : ∃ r, hypot x y = some r ∧ 0 ≤ r ∧ r ≤ r' := by
  have h1 := sq_le_of_abs hx
  have h2 := sq_le_of_abs hy
  unfold hypot at *
  split at h
  · next hlt =>
    injection h with h
    subst h
    rw [if_pos (by omega)]
    have := C136_isqrt_mono (x * x + y * y) (x' * x' + y' * y')
      (by nlinarith [mul_self_nonneg x, mul_self_nonneg y]) (by omega) hlt hr
    exact ⟨_, rfl, this⟩
  · cases h

/-- C136.  `hypot` depends on the magnitudes of its arguments only and not on their order (both variants). -/
theorem C136_hypot_symm (x y : Int) : hypot x y = hypot y x ∧ hypot x y = hypot |x| |y| ∧
    hypotGeneric x y = hypotGeneric y x ∧ hypotGeneric x y = hypotGeneric |x| |y| := by
  refine ⟨?_, ?_, ?_, ?_⟩
  · unfold hypot; rw [Int.add_comm]
  · unfold hypot; rw [abs_mul_abs_self, abs_mul_abs_self]
  · unfold hypotGeneric; rw [Nat.add_comm]
  · unfold hypotGeneric; rw [abs_mul_abs_self, abs_mul_abs_self]

/-- C136.  `hypot` is at least each component and at most their sum (x86). -/
theorem C136_hypot_bounds (x y r : Int) (h : hypot x y = some r) (hr : 0 ≤ r) :
    |x| ≤ r ∧ |y| ≤ r ∧ r ≤ |x| + |y| := by
  have hx := abs_nonneg x
  have hy := abs_nonneg y
  unfold hypot at h
  rw [← abs_mul_abs_self x, ← abs_mul_abs_self y] at h
  generalize |x| = a at *
  generalize |y| = b at *
  split at h
  · next hlt =>
    injection h with h
    by_cases h0 : a * a + b * b = 0
    · have ha : a = 0 := by nlinarith
      have hb : b = 0 := by nlinarith
      subst ha hb
      have : isqrt (0 * 0 + 0 * 0) = 0 := rfl
      omega
    · have hp : 0 < a * a + b * b := by
        rcases lt_or_eq_of_le (show 0 ≤ a * a + b * b by positivity) with h | h
        · exact h
        · exact absurd h.symm h0
      obtain ⟨e1, e2⟩ := C53_error_below_one _ hp hlt r h hr
      refine ⟨?_, ?_, ?_⟩
      · by_contra hc; nlinarith
      · by_contra hc; nlinarith
      · by_contra hc
        nlinarith [mul_nonneg hx hy]
  · cases h

/-- the error bound of `hypot`, with the length as a real number left out: `n² = x² + y²` lies strictly
between `(r-1)²` and `(r+1)²` -/
theorem hypot_error {x y r : Int} (h : hypot x y = some r) (hr : 0 ≤ r) (h0 : 0 < x * x + y * y) :
    (r - 1) * (r - 1) < x * x + y * y ∧ x * x + y * y < (r + 1) * (r + 1) := by
  unfold hypot at h
  split at h
  · next hlt => injection h with h; exact C53_error_below_one _ h0 hlt r h hr
  · cases h

theorem cauchy_le {a b c d M : Int} (hM : 0 ≤ M) (h : (a * a + b * b) * (c * c + d * d) ≤ M * M) :
    a * c + b * d ≤ M := by
  have hcs : (a * c + b * d) * (a * c + b * d) ≤ (a * a + b * b) * (c * c + d * d) := by
    nlinarith [mul_self_nonneg (a * d - b * c)]
  by_contra hn
  have hn : M < a * c + b * d := by omega
  generalize a * c + b * d = w at *
  nlinarith

/-- C136.  Triangle inequality: the `hypot` of a sum is at most the sum of the `hypot`s plus two. -/
theorem C136_triangle (a b c d p q r : Int) (hp : hypot a b = some p) (hp0 : 0 ≤ p) (hq : hypot c d = some q)
    (hq0 : 0 ≤ q) (hr : hypot (a + c) (b + d) = some r) (hr0 : 0 ≤ r) : r ≤ p + q + 2 := by
  by_contra hc
  have hpos : 0 < (a + c) * (a + c) + (b + d) * (b + d) := by
    by_contra hn
    have e1 : a + c = 0 := by nlinarith [mul_self_nonneg (a + c), mul_self_nonneg (b + d)]
    have e2 : b + d = 0 := by nlinarith [mul_self_nonneg (a + c), mul_self_nonneg (b + d)]
    rw [e1, e2] at hr
    have : hypot 0 0 = some 0 := rfl
    rw [this] at hr
    injection hr with hr
    omega
  have er := (hypot_error hr hr0 hpos).1
  have ep : a * a + b * b < (p + 1) * (p + 1) := by
    by_cases h : 0 < a * a + b * b
    · exact (hypot_error hp hp0 h).2
    · nlinarith
  have eq : c * c + d * d < (q + 1) * (q + 1) := by
    by_cases h : 0 < c * c + d * d
    · exact (hypot_error hq hq0 h).2
    · nlinarith
  -- Cauchy
  have hcs : (a * c + b * d) * (a * c + b * d) ≤ (a * a + b * b) * (c * c + d * d) := by
    nlinarith [mul_self_nonneg (a * d - b * c)]
  have hm : (a * a + b * b) * (c * c + d * d) ≤ ((p + 1) * (q + 1)) * ((p + 1) * (q + 1)) := by
    have := mul_le_mul (le_of_lt ep) (le_of_lt eq)
      (by nlinarith [mul_self_nonneg c, mul_self_nonneg d]) (by positivity)
    calc _ ≤ _ := this
      _ = _ := by ring
  have hcs2 : a * c + b * d ≤ (p + 1) * (q + 1) := by
    have hpq : 0 ≤ (p + 1) * (q + 1) := by positivity
    by_contra hn
    have hn : (p + 1) * (q + 1) < a * c + b * d := by omega
    nlinarith
  nlinarith

/-- the nearest length: `r - 1/2 < n ≤ r + 1/2` -/
theorem hypot_near {x y r : Int} (h : hypot x y = some r) (hr : 0 ≤ r) (h50 : x * x + y * y < 2 ^ 50)
    (h0 : 0 < x * x + y * y) : r * r - r < x * x + y * y ∧ x * x + y * y ≤ r * r + r := by
  unfold hypot at h
  split at h
  · injection h with h; exact C53_nearest _ h0 h50 r h hr
  · cases h

/-- C136.  Triangle inequality for vectors whose squared lengths are below 2^50: the `hypot` of a sum is at
most the sum of the `hypot`s plus one. -/
theorem C136_triangle_near (a b c d p q r : Int) (hp : hypot a b = some p) (hp0 : 0 ≤ p) (hq : hypot c d = some q)
    (hq0 : 0 ≤ q) (hr : hypot (a + c) (b + d) = some r) (hr0 : 0 ≤ r) (h1 : a * a + b * b < 2 ^ 50)
    (h2 : c * c + d * d < 2 ^ 50) (h3 : (a + c) * (a + c) + (b + d) * (b + d) < 2 ^ 50) : r ≤ p + q + 1 := by
  by_contra hc
  have hpos : 0 < (a + c) * (a + c) + (b + d) * (b + d) := by
    by_contra hn
    have e1 : a + c = 0 := by nlinarith [mul_self_nonneg (a + c), mul_self_nonneg (b + d)]
    have e2 : b + d = 0 := by nlinarith [mul_self_nonneg (a + c), mul_self_nonneg (b + d)]
    rw [e1, e2] at hr
    have : hypot 0 0 = some 0 := rfl
    rw [this] at hr
    injection hr with hr
    omega
  have er := (hypot_near hr hr0 h3 hpos).1
  have ep : 4 * (a * a + b * b) ≤ (2 * p + 1) * (2 * p + 1) := by
    by_cases h : 0 < a * a + b * b
    · nlinarith [(hypot_near hp hp0 h1 h).2]
    · nlinarith
  have eq : 4 * (c * c + d * d) ≤ (2 * q + 1) * (2 * q + 1) := by
    by_cases h : 0 < c * c + d * d
    · nlinarith [(hypot_near hq hq0 h2 h).2]
    · nlinarith
  have hm : (4 * (a * a + b * b)) * (4 * (c * c + d * d)) ≤
      ((2 * p + 1) * (2 * q + 1)) * ((2 * p + 1) * (2 * q + 1)) := by
    have := mul_le_mul ep eq (by nlinarith [mul_self_nonneg c, mul_self_nonneg d]) (by positivity)
    calc _ ≤ _ := this
      _ = _ := by ring
  have hcs2 := cauchy_le (a := 2 * a) (b := 2 * b) (c := 2 * c) (d := 2 * d) (M := (2 * p + 1) * (2 * q + 1))
    (by positivity) (by calc _ = _ := by ring
      _ ≤ _ := hm)
  have e1 : (2 * a * (2 * c) + 2 * b * (2 * d)) = 4 * (a * c + b * d) := by ring
  rw [e1] at hcs2
  have e2 : 4 * ((a + c) * (a + c) + (b + d) * (b + d)) =
      4 * (a * a + b * b) + 4 * (c * c + d * d) + 2 * (4 * (a * c + b * d)) := by ring
  have e3 : (2 * p + 1) * (2 * p + 1) + (2 * q + 1) * (2 * q + 1) + 2 * ((2 * p + 1) * (2 * q + 1)) =
      (2 * (p + q + 1)) * (2 * (p + q + 1)) := by ring
  have e4 : (2 * (p + q + 1)) * (2 * (p + q + 1)) ≤ (2 * r - 2) * (2 * r - 2) := by
    apply mul_le_mul <;> omega
  have e5 : (2 * r - 2) * (2 * r - 2) = 4 * (r * r - r) + 4 - 4 * r := by ring
  omega

/-- C136.  The exact triangle inequality does not hold, the components being rounded: (1,1) has the
`hypot` 1 and (2,2) has 3. -/
theorem C136_triangle_exact_false : hypot 1 1 = some 1 ∧ hypot (1 + 1) (1 + 1) = some 3 := by
  refine ⟨?_, C53_platforms_differ.1⟩
  have hd : toDouble 2 = 2 := by decide +kernel
  have hs : scale 2 = 52 := by decide +kernel
  have hq : sqrtSig 2 = 6369051672525773 := sqrtSig_of _ hs rfl (by decide +kernel)
  have : isqrt 2 = 1 := by
    unfold isqrt
    rw [if_neg (by norm_num), show (2 : Int).toNat = 2 from rfl, hd]
    dsimp only
    rw [if_neg (by norm_num), hs, hq]
    decide +kernel
  unfold hypot
  norm_num [this]

/-- C136.  Beyond the range the order is lost: the root of 2^62 is answered with the least number, below
the root of every smaller argument. -/
theorem C136_isqrt_mono_range_false : isqrt (2147483647 * 2147483647) = 2147483647 ∧
    (2147483647 * 2147483647 : Int) ≤ (-2 ^ 31) * (-2 ^ 31) ∧ isqrt ((-2 ^ 31) * (-2 ^ 31)) = -2 ^ 31 :=
  ⟨C53_perfect_square 2147483647 (by norm_num) (by norm_num), by norm_num, C53_int_min⟩

/-! ## Other processors -/

/-- the rounded sum of the rounded squares -/
theorem generic_sum_mono {a b a' b' : Nat} (ha : a ≤ a') (hb : b ≤ b') :
    toDouble (toDouble (a * a) + toDouble (b * b)) ≤ toDouble (toDouble (a' * a') + toDouble (b' * b')) :=
  toDouble_mono (Nat.add_le_add (toDouble_mono (Nat.mul_le_mul ha ha)) (toDouble_mono (Nat.mul_le_mul hb hb)))

theorem sq_toNat (x : Int) : (x * x).toNat = x.natAbs * x.natAbs := by
  rw [← Int.natAbs_mul_self]; exact Int.toNat_natCast _

theorem generic_log2 {a b : Nat} (ha : a ≤ 2 ^ 31) (hb : b ≤ 2 ^ 31) :
    (toDouble (toDouble (a * a) + toDouble (b * b))).log2 ≤ 105 := by
  have e1 := Nat.mul_le_mul ha ha
  have e2 := Nat.mul_le_mul hb hb
  have d1 := toDouble_bounds (a * a)
  have d2 := toDouble_bounds (b * b)
  have d3 := toDouble_bounds (toDouble (a * a) + toDouble (b * b))
  have : (toDouble (toDouble (a * a) + toDouble (b * b))).log2 ≤ 64 := log2_le_of_lt (by norm_num at *; omega)
  omega

/-- C136.  The order on other processors: a vector whose components are no larger has no larger `hypot`. -/
theorem C136_generic_mono (x y x' y' r' : Int) (hx : |x| ≤ |x'|) (hy : |y| ≤ |y'|)
    (rx : |x'| ≤ 2 ^ 31) (ry : |y'| ≤ 2 ^ 31) (h : hypotGeneric x' y' = some r') :
    ∃ r, hypotGeneric x y = some r ∧ 0 ≤ r ∧ r ≤ r' := by
  unfold hypotGeneric at *
  simp only [sq_toNat, Int.abs_eq_natAbs] at *
  generalize x.natAbs = a at *
  generalize y.natAbs = b at *
  generalize x'.natAbs = a' at *
  generalize y'.natAbs = b' at *
  have hm := generic_sum_mono (a := a) (b := b) (a' := a') (b' := b') (by omega) (by omega)
  have hl := generic_log2 (a := a') (b := b') (by omega) (by omega)
  generalize toDouble (toDouble (a * a) + toDouble (b * b)) = D at *
  generalize toDouble (toDouble (a' * a') + toDouble (b' * b')) = D' at *
  by_cases h0 : D = 0
  · rw [if_pos h0]
    refine ⟨0, rfl, le_rfl, ?_⟩
    split at h
    · injection h; omega
    · split at h
      · injection h with h
        rw [← h]; exact Int.natCast_nonneg _
      · cases h
  · rw [if_neg (by omega)] at h
    rw [if_neg h0]
    have hf := froot_mono (by omega) hm hl
    split at h
    · injection h with h
      rw [if_pos (by omega)]
      exact ⟨_, rfl, Int.natCast_nonneg _, by omega⟩
    · cases h

/-- the truncated root of the sum of the rounded squares -/
theorem generic_root {x y r : Int} (h : hypotGeneric x y = some r) :
    (x = 0 ∧ y = 0 ∧ r = 0) ∨
      (0 < toDouble (toDouble (x.natAbs * x.natAbs) + toDouble (y.natAbs * y.natAbs)) ∧
        r = (sqrtSig (toDouble (toDouble (x.natAbs * x.natAbs) + toDouble (y.natAbs * y.natAbs))) /
          2 ^ scale (toDouble (toDouble (x.natAbs * x.natAbs) + toDouble (y.natAbs * y.natAbs))) : Nat)) := by
  unfold hypotGeneric at h
  simp only [sq_toNat] at h
  split at h
  · next h0 =>
    left
    have hz : toDouble (x.natAbs * x.natAbs) + toDouble (y.natAbs * y.natAbs) = 0 := by
      by_contra hc
      have := toDouble_pos (Nat.pos_of_ne_zero hc)
      omega
    have hx : x.natAbs = 0 := by
      by_contra hc
      have := toDouble_pos (n := x.natAbs * x.natAbs) (by positivity)
      omega
    have hy : y.natAbs = 0 := by
      by_contra hc
      have := toDouble_pos (n := y.natAbs * y.natAbs) (by positivity)
      omega
    injection h
    omega
  · next h0 =>
    right
    split at h
    · injection h with h
      exact ⟨by omega, h.symm⟩
    · cases h

theorem generic_ge {a b : Nat} (ha : 0 < a) (ha' : a ≤ 2 ^ 31) (hb' : b ≤ 2 ^ 31) :
    a ≤ sqrtSig (toDouble (toDouble (a * a) + toDouble (b * b))) /
      2 ^ scale (toDouble (toDouble (a * a) + toDouble (b * b))) := by
  have hm : toDouble (a * a) ≤ toDouble (toDouble (a * a) + toDouble (b * b)) := by
    have := toDouble_mono (Nat.le_add_right (toDouble (a * a)) (toDouble (b * b)))
    rwa [toDouble_idem] at this
  have := froot_mono (toDouble_pos (by positivity)) hm (generic_log2 ha' hb')
  rwa [froot_square ha (by omega)] at this

/-- the rounded squares add up to no more than the square of the sum -/
theorem generic_sum_le {a b : Nat} (ha : 0 < a) (hb : 0 < b) (ha' : a ≤ 2 ^ 31) (hb' : b ≤ 2 ^ 31) :
    toDouble (a * a) + toDouble (b * b) ≤ (a + b) * (a + b) := by
  have d1 := (toDouble_bounds (a * a)).1
  have d2 := (toDouble_bounds (b * b)).1
  have e1 : a * a ≤ 2 ^ 31 * (a * b) := by
    calc a * a ≤ 2 ^ 31 * a := Nat.mul_le_mul_right _ ha'
      _ ≤ 2 ^ 31 * (a * b) := Nat.mul_le_mul_left _ (Nat.le_mul_of_pos_right _ hb)
  have e2 : b * b ≤ 2 ^ 31 * (a * b) := by
    calc b * b ≤ 2 ^ 31 * b := Nat.mul_le_mul_right _ hb'
      _ ≤ 2 ^ 31 * (a * b) := Nat.mul_le_mul_left _ (Nat.le_mul_of_pos_left _ ha)
  have e3 : (a + b) * (a + b) = a * a + b * b + 2 * (a * b) := by ring
  rw [e3]
  generalize a * a = p at *
  generalize b * b = q at *
  generalize a * b = s at *
  norm_num at *
  omega

theorem generic_le {a b : Nat} (h : 0 < a + b) (ha' : a ≤ 2 ^ 31) (hb' : b ≤ 2 ^ 31) (hab : a + b < 2 ^ 32) :
    sqrtSig (toDouble (toDouble (a * a) + toDouble (b * b))) /
      2 ^ scale (toDouble (toDouble (a * a) + toDouble (b * b))) ≤ a + b := by
  have hpos : 0 < toDouble (toDouble (a * a) + toDouble (b * b)) := by
    apply toDouble_pos
    rcases Nat.eq_zero_or_pos a with h0 | h0
    · have := toDouble_pos (n := b * b) (Nat.mul_pos (by omega) (by omega))
      omega
    · have := toDouble_pos (n := a * a) (by positivity)
      omega
  have hm : toDouble (toDouble (a * a) + toDouble (b * b)) ≤ toDouble ((a + b) * (a + b)) := by
    rcases Nat.eq_zero_or_pos a with h0 | h0
    · subst h0
      have : toDouble (0 * 0) = 0 := rfl
      rw [this, Nat.zero_add, Nat.zero_add, toDouble_idem]
    · rcases Nat.eq_zero_or_pos b with h1 | h1
      · subst h1
        have : toDouble (0 * 0) = 0 := rfl
        rw [this, Nat.add_zero, Nat.add_zero, toDouble_idem]
      · exact toDouble_mono (generic_sum_le h0 h1 ha' hb')
  have hl : (toDouble ((a + b) * (a + b))).log2 ≤ 105 := by
    have d := toDouble_bounds ((a + b) * (a + b))
    have := Nat.mul_lt_mul'' hab hab
    have : (toDouble ((a + b) * (a + b))).log2 ≤ 64 := log2_le_of_lt (by norm_num at *; omega)
    omega
  have := froot_mono hpos hm hl
  rwa [froot_square h hab] at this

/-- C136.  On other processors `hypot` is at least each component and at most their sum. -/
theorem C136_generic_bounds (x y r : Int) (rx : |x| < 2 ^ 31) (ry : |y| < 2 ^ 31) (h : hypotGeneric x y = some r) :
    |x| ≤ r ∧ |y| ≤ r ∧ r ≤ |x| + |y| := by
  rcases generic_root h with ⟨rfl, rfl, rfl⟩ | ⟨hpos, hr⟩
  · simp
  · simp only [Int.abs_eq_natAbs] at *
    generalize x.natAbs = a at *
    generalize y.natAbs = b at *
    subst hr
    have ha : a ≤ 2 ^ 31 := by omega
    have hb : b ≤ 2 ^ 31 := by omega
    have h1 : 0 < a → _ := fun h => generic_ge (b := b) h ha hb
    have h2 : 0 < b → _ := fun h => generic_ge (b := a) h hb ha
    rw [Nat.add_comm (toDouble (b * b))] at h2
    have h3 : 0 < a + b → _ := fun h => generic_le h ha hb (by omega)
    generalize sqrtSig _ / _ = q at *
    refine ⟨?_, ?_, ?_⟩
    · rcases Nat.eq_zero_or_pos a with h | h
      · omega
      · exact_mod_cast h1 h
    · rcases Nat.eq_zero_or_pos b with h | h
      · omega
      · exact_mod_cast h2 h
    · rcases Nat.eq_zero_or_pos (a + b) with h | h
      · have ha0 : a = 0 := by omega
        have hb0 : b = 0 := by omega
        subst ha0 hb0
        exact absurd hpos (by decide +kernel)
      · exact_mod_cast h3 h

/-- C136.  The length of a vector along an axis is exact on all processors. -/
theorem C136_axis (x : Int) (rx : |x| < 2 ^ 31) : hypot x 0 = some |x| ∧ hypotGeneric x 0 = some |x| := by
  constructor
  · have := C53_hypot_pythagorean x 0 |x| (by rw [abs_mul_abs_self]; ring) (abs_nonneg x) rx
    exact this
  · by_cases h0 : x = 0
    · subst h0; rfl
    · have hx : 0 < x.natAbs := Int.natAbs_pos.2 h0
      unfold hypotGeneric
      simp only [sq_toNat, Int.abs_eq_natAbs] at *
      have e : toDouble (Int.natAbs 0 * Int.natAbs 0) = 0 := rfl
      rw [e, Nat.add_zero, toDouble_idem]
      have hp := toDouble_pos (n := x.natAbs * x.natAbs) (by positivity)
      rw [if_neg (by omega), froot_square hx (by omega), if_pos (by omega)]

/-! ## The hypotheses are met -/

example : 0 ≤ isqrt 12 ∧ isqrt 12 ≤ isqrt (12345 * 12345) :=
  C136_isqrt_mono 12 (12345 * 12345) (by norm_num) (by norm_num) (by norm_num)
    (by rw [C53_perfect_square 12345 (by norm_num) (by norm_num)]; norm_num)

example : ∃ r, hypot (-2) 3 = some r ∧ 0 ≤ r ∧ r ≤ 5 :=
  C136_hypot_mono (-2) 3 3 (-4) 5 (by norm_num) (by norm_num)
    (C53_hypot_pythagorean 3 (-4) 5 (by norm_num) (by norm_num) (by norm_num)) (by norm_num)

example : |(3 : Int)| ≤ 5 ∧ |(-4 : Int)| ≤ 5 ∧ 5 ≤ |(3 : Int)| + |(-4 : Int)| :=
  C136_hypot_bounds 3 (-4) 5 (C53_hypot_pythagorean 3 (-4) 5 (by norm_num) (by norm_num) (by norm_num)) (by norm_num)

example : (3 : Int) ≤ 1 + 1 + 1 :=
  C136_triangle_near 1 1 1 1 1 1 3 C136_triangle_exact_false.1 (by norm_num) C136_triangle_exact_false.1 (by norm_num)
    C136_triangle_exact_false.2 (by norm_num) (by norm_num) (by norm_num) (by norm_num)

/-- an instance of the triangle inequality where the error is one -/
example : (3 : Int) ≤ 1 + 1 + 2 :=
  C136_triangle 1 1 1 1 1 1 3 C136_triangle_exact_false.1 (by norm_num) C136_triangle_exact_false.1 (by norm_num)
    C136_triangle_exact_false.2 (by norm_num)

example : ∃ r, hypotGeneric (-2) 1 = some r ∧ 0 ≤ r ∧ r ≤ 2 :=
  C136_generic_mono (-2) 1 2 2 2 (by norm_num) (by norm_num) (by norm_num) (by norm_num) C53_platforms_differ.2

example : |(2 : Int)| ≤ 2 ∧ |(2 : Int)| ≤ 2 ∧ 2 ≤ |(2 : Int)| + |(2 : Int)| :=
  C136_generic_bounds 2 2 2 (by norm_num) (by norm_num) C53_platforms_differ.2

example : hypot (-2147483647) 0 = some 2147483647 ∧ hypotGeneric (-2147483647) 0 = some 2147483647 := by
  have := C136_axis (-2147483647) (by norm_num)
  norm_num at this
  exact this

end CE.Isqrt
