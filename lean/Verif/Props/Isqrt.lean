import Verif.Model.Isqrt
import Mathlib.Tactic.Ring
import Mathlib.Tactic.Linarith
import Mathlib.Tactic.Zify
/-!
# C53: isqrt and hypot
-/
namespace CE.Isqrt

theorem rne_bounds (n d : Nat) (hd : 0 < d) :
    2 * n ≤ 2 * (rne (n / d) (n % d) d * d) + d ∧ 2 * (rne (n / d) (n % d) d * d) ≤ 2 * n + d := by
  have h1 := Nat.mod_add_div n d
  have h2 := Nat.mod_lt n hd
  rw [Nat.mul_comm] at h1
  generalize n / d = q at *
  generalize n % d = r at *
  unfold rne
  split
  · rw [Nat.add_one_mul q d]; omega
  · omega

theorem toDouble_bounds (n : Nat) :
    2 ^ 53 * toDouble n ≤ 2 ^ 53 * n + n ∧ 2 ^ 53 * n ≤ 2 ^ 53 * toDouble n + n := by
  unfold toDouble
  split
  · omega
  · next h =>
    have hL : 2 ^ n.log2 ≤ n := Nat.log2_self_le (by omega)
    have h53 : 53 ≤ n.log2 := (Nat.le_log2 (by omega)).2 (by omega)
    have hb := rne_bounds n (2 ^ (n.log2 - 52)) (by positivity)
    have he : 2 ^ n.log2 = 2 ^ (n.log2 - 52) * 2 ^ 52 := by
      rw [← Nat.pow_add]; congr 1; omega
    rw [he] at hL
    generalize 2 ^ (n.log2 - 52) = d at *
    generalize rne (n / d) (n % d) d * d = e at *
    norm_num at *
    omega

theorem toDouble_pos {n : Nat} (h : 0 < n) : 0 < toDouble n := by
  have := toDouble_bounds n
  norm_num at this
  omega

theorem toDouble_small {n : Nat} (h : n < 2 ^ 53) : toDouble n = n := if_pos h

/-- the root's significand is the nearest integer to the root of the scaled argument -/
theorem sqrtSig_bounds {n : Nat} (h : 0 < n) :
    n * 4 ^ scale n ≤ sqrtSig n * sqrtSig n + sqrtSig n ∧
      sqrtSig n * sqrtSig n < n * 4 ^ scale n + sqrtSig n := by
  unfold sqrtSig
  dsimp only
  have hpos : 0 < n * 4 ^ scale n := by positivity
  generalize n * 4 ^ scale n = s at *
  have h1 := Nat.sqrt_le s
  have h2 := Nat.lt_succ_sqrt s
  have h3 : 0 < s.sqrt := Nat.sqrt_pos.2 hpos
  generalize s.sqrt = r at *
  have e : (r + 1) * (r + 1) = r * r + 2 * r + 1 := by ring
  rw [Nat.succ_eq_add_one, e] at h2
  split
  · rw [e]; omega
  · omega

theorem scale_bounds {n : Nat} (h : 0 < n) (h64 : n.log2 ≤ 105) :
    2 ^ 104 ≤ n * 4 ^ scale n ∧ n * 4 ^ scale n < 2 ^ 106 := by
  have h1 : 2 ^ n.log2 ≤ n := Nat.log2_self_le (by omega)
  have h2 : n < 2 ^ (n.log2 + 1) := Nat.lt_log2_self
  have h4 : (4 : Nat) ^ scale n = 2 ^ (2 * scale n) := by rw [Nat.pow_mul]
  rw [h4]
  constructor
  · calc 2 ^ 104 ≤ 2 ^ (n.log2 + 2 * scale n) := Nat.pow_le_pow_right (by omega) (by unfold scale; omega)
      _ = 2 ^ n.log2 * 2 ^ (2 * scale n) := Nat.pow_add ..
      _ ≤ _ := Nat.mul_le_mul_right _ h1
  · calc n * 2 ^ (2 * scale n) < 2 ^ (n.log2 + 1) * 2 ^ (2 * scale n) :=
        Nat.mul_lt_mul_of_pos_right h2 (by positivity)
      _ = 2 ^ (n.log2 + 1 + 2 * scale n) := (Nat.pow_add ..).symm
      _ ≤ 2 ^ 106 := Nat.pow_le_pow_right (by omega) (by unfold scale; omega)

theorem log2_le_of_lt {n k : Nat} (h : n < 2 ^ (k + 1)) : n.log2 ≤ k := by
  by_cases h0 : n = 0
  · subst h0; simp
  · by_contra hc
    have := (Nat.le_log2 h0).1 (show k + 1 ≤ n.log2 by omega)
    omega

/-- facts about every call with a positive argument -/
theorem isqrt_facts (v : Nat) (hv : 0 < v) (hv63 : v < 2 ^ 63) :
    ∃ k m S : Nat, isqrt v = fit32 (rne (m / 2 ^ k) (m % 2 ^ k) (2 ^ k)) ∧ 20 ≤ k ∧
      (v < 2 ^ 62 → 21 ≤ k) ∧ (v < 2 ^ 50 → 28 ≤ k ∧ S = v * 4 ^ k) ∧
      (S ≤ m * m + m ∧ m * m < S + m) ∧ (2 ^ 104 ≤ S ∧ S < 2 ^ 106) ∧
      (2 ^ 53 * S ≤ 2 ^ 53 * (v * 4 ^ k) + v * 4 ^ k ∧ 2 ^ 53 * (v * 4 ^ k) ≤ 2 ^ 53 * S + v * 4 ^ k) := by
  have hb := toDouble_bounds v
  have hp := toDouble_pos hv
  have h64 : (toDouble v).log2 ≤ 63 := log2_le_of_lt (by norm_num at *; omega)
  have hs := scale_bounds hp (by omega)
  have hq := sqrtSig_bounds hp
  refine ⟨scale (toDouble v), sqrtSig (toDouble v), toDouble v * 4 ^ scale (toDouble v), ?_, ?_, ?_, ?_,
    hq, hs, ?_, ?_⟩
  · unfold isqrt
    rw [if_neg (by omega), Int.toNat_natCast]
    dsimp only
    rw [if_neg (by omega)]
    rfl
  · unfold scale; omega
  · intro h62
    have : (toDouble v).log2 ≤ 62 := log2_le_of_lt (by norm_num at *; omega)
    unfold scale; omega
  · intro h50
    rw [toDouble_small (by omega)]
    have : v.log2 ≤ 49 := log2_le_of_lt h50
    exact ⟨by unfold scale; omega, rfl⟩
  · have := Nat.mul_le_mul_right (4 ^ scale (toDouble v)) hb.1
    rw [Nat.add_mul, Nat.mul_assoc, Nat.mul_assoc] at this
    exact this
  · have := Nat.mul_le_mul_right (4 ^ scale (toDouble v)) hb.2
    rw [Nat.add_mul, Nat.mul_assoc, Nat.mul_assoc] at this
    exact this

theorem rne_near (x j d : Nat) (hd : 4 < d) (m : Nat) (h : m = x * d + j ∨ m + j = x * d) (hj : j ≤ 2) :
    rne (m / d) (m % d) d = x := by
  have hb := rne_bounds m d (by omega)
  generalize rne (m / d) (m % d) d = r at *
  rcases Nat.lt_trichotomy r x with hlt | rfl | hgt
  · have : (r + 1) * d ≤ x * d := Nat.mul_le_mul_right _ hlt
    rw [Nat.add_one_mul] at this
    omega
  · rfl
  · have : (x + 1) * d ≤ r * d := Nat.mul_le_mul_right _ hgt
    rw [Nat.add_one_mul] at this
    omega

/-- C53.  The square root of a perfect square is exact. -/
theorem C53_perfect_square (x : Int) (h1 : -2 ^ 31 < x) (h2 : x < 2 ^ 31) : isqrt (x * x) = |x| := by
  by_cases h0 : x = 0
  · subst h0; rfl
  · have hxx : x * x = ((x.natAbs * x.natAbs : Nat) : Int) := by
      rw [Int.natCast_mul]; exact (Int.natAbs_mul_self' x).symm
    rw [hxx, Int.abs_eq_natAbs]
    have hx0 : 0 < x.natAbs := Int.natAbs_pos.2 h0
    have hx31 : x.natAbs < 2 ^ 31 := by omega
    generalize x.natAbs = y at *
    clear hxx h0 h1 h2
    have hyy : y * y < 2 ^ 62 := by nlinarith
    obtain ⟨k, m, S, he, -, hk, -, ⟨b1, b2⟩, ⟨c1, c2⟩, ⟨d1, d2⟩⟩ :=
      isqrt_facts (y * y) (Nat.mul_pos hx0 hx0) (by omega)
    have hk := hk hyy
    rw [he]
    have hX : y * y * 4 ^ k = (y * 2 ^ k) * (y * 2 ^ k) := by
      rw [show (4 : Nat) = 2 * 2 by norm_num, Nat.mul_pow]; ring
    rw [hX] at d1 d2
    have hk2 : 4 < 2 ^ k := by
      calc 4 < 2 ^ 21 := by norm_num
        _ ≤ 2 ^ k := Nat.pow_le_pow_right (by omega) hk
    generalize hXX : y * 2 ^ k = X at *
    have hXlt : X < 2 ^ 54 := by
      by_contra hc
      have : 2 ^ 108 ≤ X * X := by
        calc (2 : Nat) ^ 108 = 2 ^ 54 * 2 ^ 54 := by norm_num
          _ ≤ X * X := Nat.mul_le_mul (by omega) (by omega)
      norm_num at *
      omega
    have hXgt : 2 ^ 51 < X := by
      by_contra hc
      have : X * X ≤ 2 ^ 102 := by
        calc X * X ≤ 2 ^ 51 * 2 ^ 51 := Nat.mul_le_mul (by omega) (by omega)
          _ = _ := by norm_num
      norm_num at *
      omega
    have hsq : X * X ≤ 2 ^ 54 * X := Nat.mul_le_mul_right _ (by omega)
    have up : m ≤ X + 2 := by
      by_contra hc
      have hm : X + 3 ≤ m := by omega
      have : (X + 3) * (X + 3) + m ≤ m * m + (X + 3) := by
        obtain ⟨t, rfl⟩ := Nat.exists_eq_add_of_le hm
        nlinarith
      have e : (X + 3) * (X + 3) = X * X + 6 * X + 9 := by ring
      norm_num at *
      omega
    have lo : X ≤ m + 2 := by
      by_contra hc
      have hm : m + 3 ≤ X := by omega
      obtain ⟨t, ht⟩ := Nat.exists_eq_add_of_le hm
      have : m * m + m + 5 * X ≤ X * X + 6 := by
        rw [ht]; nlinarith
      norm_num at *
      omega
    have : rne (m / 2 ^ k) (m % 2 ^ k) (2 ^ k) = y := by
      by_cases hle : X ≤ m
      · exact rne_near y (m - X) (2 ^ k) hk2 m (Or.inl (by omega)) (by omega)
      · exact rne_near y (X - m) (2 ^ k) hk2 m (Or.inr (by omega)) (by omega)
    rw [this]
    unfold fit32
    rw [if_pos hx31]

/-- the 32-bit conversion is exact when in range -/
theorem fit32_pos {n : Nat} {r : Int} (h : fit32 n = r) (hr : 0 ≤ r) : r = n := by
  unfold fit32 at h
  split at h <;> omega

/-- a significand far above the scaled integer root contradicts its rounding -/
theorem arith_lo {S W P H m : Nat} (b2 : m * m < S + m) (hW : S ≤ W + 2 ^ 54) (hP : W ≤ P * P)
    (hmP : P + H ≤ m) (hH : 2 ^ 19 ≤ H) (hm : 2 ^ 51 ≤ m) : False := by
  have h1 : H * m ≤ H * m := le_rfl
  have h2 : 2 ^ 19 * m ≤ H * m := Nat.mul_le_mul_right _ hH
  have h3 : P * P + H * m ≤ m * m := by
    have : P * m + H * m ≤ m * m := by
      rw [← Nat.add_mul]; exact Nat.mul_le_mul_right _ hmP
    have : P * P ≤ P * m := Nat.mul_le_mul_left _ (by omega)
    omega
  norm_num at *
  omega

theorem arith_hi {S W P H m : Nat} (b1 : S ≤ m * m + m) (hW : W ≤ S + 2 ^ 54) (hP : P * P ≤ W)
    (hmP : m + H ≤ P) (hH : 2 ^ 19 ≤ H) (hm : 2 ^ 51 ≤ m) : False := by
  have h2 : 2 ^ 19 * m ≤ H * m := Nat.mul_le_mul_right _ hH
  have h3 : m * m + H * m ≤ P * P := by
    have h4 : m * m + H * m ≤ P * m := by
      rw [← Nat.add_mul]; exact Nat.mul_le_mul_right _ hmP
    have : P * m ≤ P * P := Nat.mul_le_mul_left _ (by omega)
    omega
  norm_num at *
  omega

theorem arith_near_lo {w p H m : Nat} (b2 : m * m < w * (2 * H) * (2 * H) + m) (hp : w ≤ p * p + p)
    (hmP : p * (2 * H) + H ≤ m) (hH : 2 ^ 27 ≤ H) (hpb : p ≤ 2 ^ 25) : False := by
  have hw := Nat.mul_le_mul_right ((2 * H) * (2 * H)) hp
  have e1 : w * ((2 * H) * (2 * H)) = w * (2 * H) * (2 * H) := by ring
  have e2 : (p * p + p) * ((2 * H) * (2 * H)) + H * H = (p * (2 * H) + H) * (p * (2 * H) + H) := by ring
  have hpH : p * (2 * H) + H ≤ H * H := by
    have : (2 * p + 1) * H ≤ H * H := Nat.mul_le_mul_right _ (by omega)
    have e : (2 * p + 1) * H = p * (2 * H) + H := by ring
    omega
  generalize p * (2 * H) + H = M at *
  have h3 : M * M + m ≤ m * m + M := by
    obtain ⟨t, rfl⟩ := Nat.exists_eq_add_of_le hmP
    have hM : 1 ≤ M ∨ t = 0 ∨ M = 0 := by omega
    have : (M + t) * (M + t) = M * M + 2 * (M * t) + t * t := by ring
    have : t ≤ t * t := Nat.le_mul_self t
    omega
  omega

theorem arith_near_hi {w q H m : Nat} (b1 : w * (2 * H) * (2 * H) ≤ m * m + m) (hp : q * q + q + 1 ≤ w)
    (hmP : m ≤ q * (2 * H) + H) (hH : 2 ^ 27 ≤ H) (hq : q ≤ 2 ^ 25 + 1) : False := by
  have hw := Nat.mul_le_mul_right ((2 * H) * (2 * H)) hp
  have e1 : w * ((2 * H) * (2 * H)) = w * (2 * H) * (2 * H) := by ring
  have e2 : (q * q + q + 1) * ((2 * H) * (2 * H)) =
    (q * (2 * H) + H) * (q * (2 * H) + H) + 3 * (H * H) := by ring
  have hpH : q * (2 * H) + H ≤ H * H := by
    have : (2 * q + 1) * H ≤ H * H := Nat.mul_le_mul_right _ (by omega)
    have e : (2 * q + 1) * H = q * (2 * H) + H := by ring
    omega
  have hHH : 0 < H * H := Nat.mul_pos (by omega) (by omega)
  generalize q * (2 * H) + H = M at *
  have := Nat.mul_le_mul hmP hmP
  omega

/-- C53.  For every positive argument whose root fits in 32 bits, the result is less than one away
from the root: `(r-1)² < v < (r+1)²`. -/
theorem C53_error_below_one (v : Int) (hv : 0 < v) (hv63 : v < 2 ^ 63) (r : Int) (h : isqrt v = r)
    (hr : 0 ≤ r) : (r - 1) * (r - 1) < v ∧ v < (r + 1) * (r + 1) := by
  obtain ⟨w, rfl⟩ : ∃ w : Nat, v = w := ⟨v.toNat, by omega⟩
  obtain ⟨k, m, S, he, hk, -, -, ⟨b1, b2⟩, ⟨c1, c2⟩, ⟨d1, d2⟩⟩ := isqrt_facts w (by omega) (by omega)
  rw [he] at h
  have hrn := fit32_pos h hr
  have hb := rne_bounds m (2 ^ k) (by positivity)
  generalize rne (m / 2 ^ k) (m % 2 ^ k) (2 ^ k) = q at *
  subst hrn
  obtain ⟨H, hH, hH19⟩ : ∃ H : Nat, 2 ^ k = 2 * H ∧ 2 ^ 19 ≤ H := by
    refine ⟨2 ^ (k - 1), ?_, Nat.pow_le_pow_right (by omega) (by omega)⟩
    rw [← Nat.pow_succ', Nat.succ_eq_add_one]; congr 1; omega
  have h4 : w * 4 ^ k = w * (2 * H) * (2 * H) := by
    rw [show (4 : Nat) = 2 * 2 by norm_num, Nat.mul_pow, hH]; ring
  rw [h4] at d1 d2
  rw [hH] at hb
  have hmlo : 2 ^ 51 ≤ m := by
    by_contra hc
    have : m * m ≤ 2 ^ 51 * 2 ^ 51 := Nat.mul_le_mul (by omega) (by omega)
    norm_num at *
    omega
  have hmhi : m ≤ 2 ^ 53 + 1 := by
    by_contra hc
    have : (2 ^ 53 + 2) * (2 ^ 53 + 2) + m ≤ m * m + (2 ^ 53 + 2) := by
      obtain ⟨t, rfl⟩ := Nat.exists_eq_add_of_le (show 2 ^ 53 + 2 ≤ m by omega)
      nlinarith
    norm_num at *
    omega
  -- everything in units of the scaled root
  have hW : w * (2 * H) * (2 * H) ≤ S + 2 ^ 54 ∧ S ≤ w * (2 * H) * (2 * H) + 2 ^ 54 := by
    generalize w * (2 * H) * (2 * H) = W at *
    norm_num at *
    omega
  obtain ⟨e1, e2⟩ := hb
  constructor
  · by_contra hc
    by_cases hq : q = 0
    · subst hq
      exfalso
      norm_num at e1
      have : 2 * m ≤ 2 * H := by omega
      -- the root of a positive number is at least one unit
      have hw1 : (2 * H) * (2 * H) ≤ w * (2 * H) * (2 * H) := by
        rw [Nat.mul_assoc w]
        exact Nat.le_mul_of_pos_left _ (show 0 < w by omega)
      exact arith_hi b1 hW.1 hw1 (show m + H ≤ 2 * H by omega) hH19 hmlo
    · obtain ⟨p, rfl⟩ : ∃ p, q = p + 1 := ⟨q - 1, by omega⟩
      have hp : w ≤ p * p := by
        have : (w : Int) ≤ p * p := by push_cast at hc; nlinarith
        exact_mod_cast this
      have hP : w * (2 * H) * (2 * H) ≤ (p * (2 * H)) * (p * (2 * H)) := by
        have := Nat.mul_le_mul_right ((2 * H) * (2 * H)) hp
        nlinarith
      have hmP : p * (2 * H) + H ≤ m := by
        rw [Nat.add_one_mul p] at e2; omega
      exact arith_lo b2 hW.2 hP hmP hH19 hmlo
  · by_contra hc
    have hp : (q + 1) * (q + 1) ≤ w := by
      have : ((q : Int) + 1) * (q + 1) ≤ w := not_lt.1 hc
      exact_mod_cast this
    have hP : ((q + 1) * (2 * H)) * ((q + 1) * (2 * H)) ≤ w * (2 * H) * (2 * H) := by
      have := Nat.mul_le_mul_right ((2 * H) * (2 * H)) hp
      nlinarith
    have hmP : m + H ≤ (q + 1) * (2 * H) := by
      rw [Nat.add_one_mul q]; omega
    exact arith_hi b1 hW.1 hP hmP hH19 hmlo

/-- C53.  Below 2^50 the result is the integer nearest to the root: `r - 1/2 < √v < r + 1/2`. -/
theorem C53_nearest (v : Int) (hv : 0 < v) (hv50 : v < 2 ^ 50) (r : Int) (h : isqrt v = r)
    (hr : 0 ≤ r) : r * r - r < v ∧ v ≤ r * r + r := by
  have herr := C53_error_below_one v hv (by omega) r h hr
  obtain ⟨w, rfl⟩ : ∃ w : Nat, v = w := ⟨v.toNat, by omega⟩
  obtain ⟨k, m, S, he, -, -, hS, ⟨b1, b2⟩, ⟨c1, c2⟩, -⟩ := isqrt_facts w (by omega) (by omega)
  obtain ⟨hk, rfl⟩ := hS (by omega)
  rw [he] at h
  have hrn := fit32_pos h hr
  have hb := rne_bounds m (2 ^ k) (by positivity)
  generalize rne (m / 2 ^ k) (m % 2 ^ k) (2 ^ k) = q at *
  subst hrn
  obtain ⟨H, hH, hH27⟩ : ∃ H : Nat, 2 ^ k = 2 * H ∧ 2 ^ 27 ≤ H := by
    refine ⟨2 ^ (k - 1), ?_, Nat.pow_le_pow_right (by omega) (by omega)⟩
    rw [← Nat.pow_succ', Nat.succ_eq_add_one]; congr 1; omega
  have h4 : w * 4 ^ k = w * (2 * H) * (2 * H) := by
    rw [show (4 : Nat) = 2 * 2 by norm_num, Nat.mul_pow, hH]; ring
  rw [h4] at b1 b2
  rw [hH] at hb
  have hq25 : q ≤ 2 ^ 25 + 1 := by
    by_contra hc
    have : ((2 : Int) ^ 25 + 1) * (2 ^ 25 + 1) ≤ ((q : Int) - 1) * (q - 1) := by
      apply mul_le_mul <;> omega
    norm_num at *
    omega
  obtain ⟨e1, e2⟩ := hb
  constructor
  · by_contra hc
    by_cases hq : q = 0
    · subst hq; simp at hc; omega
    · obtain ⟨p, rfl⟩ : ∃ p, q = p + 1 := ⟨q - 1, by omega⟩
      have hp : w ≤ p * p + p := by
        have : (w : Int) ≤ p * p + p := by push_cast at hc; nlinarith
        exact_mod_cast this
      have hmP : p * (2 * H) + H ≤ m := by rw [Nat.add_one_mul p] at e2; omega
      exact arith_near_lo b2 hp hmP hH27 (by omega)
  · by_contra hc
    have hp : q * q + q + 1 ≤ w := by
      have : (q : Int) * q + q + 1 ≤ w := by omega
      exact_mod_cast this
    have hmP : m ≤ q * (2 * H) + H := by omega
    exact arith_near_hi b1 hp hmP hH27 hq25

/-- C53.  `hypot` of the legs of a right triangle with integer sides is the hypotenuse (x86). -/
theorem C53_hypot_pythagorean (x y z : Int) (h : x * x + y * y = z * z) (hz : 0 ≤ z) (hz2 : z < 2 ^ 31) :
    hypot x y = some z := by
  unfold hypot
  rw [h, if_pos (by nlinarith), C53_perfect_square z (by omega) hz2, abs_of_nonneg hz]

/-- evaluation of the root by a certificate -/
theorem sqrtSig_of {n k s : Nat} (m : Nat) (hk : scale n = k) (hs : n * 4 ^ k = s)
    (h : s ≤ m * m + m ∧ m * m < s + m) : sqrtSig n = m := by
  subst hk hs
  unfold sqrtSig
  dsimp only
  generalize n * 4 ^ scale n = s at *
  have h1 := Nat.sqrt_le s
  have h2 := Nat.lt_succ_sqrt s
  have e : (s.sqrt + 1) * (s.sqrt + 1) = s.sqrt * s.sqrt + 2 * s.sqrt + 1 := by ring
  rw [Nat.succ_eq_add_one, e] at h2
  generalize s.sqrt = r at *
  split
  · next hc =>
    rcases Nat.lt_trichotomy (r + 1) m with hl | rfl | hl
    · obtain ⟨t, rfl⟩ := Nat.exists_eq_add_of_lt hl
      exfalso; nlinarith
    · rfl
    · obtain ⟨t, ht⟩ := Nat.exists_eq_add_of_lt hl
      exfalso
      have : r = m + t := by omega
      subst this
      have : (m + t) * (m + t) + (m + t) < s := by omega
      nlinarith
  · next hc =>
    rcases Nat.lt_trichotomy r m with hl | rfl | hl
    · obtain ⟨t, rfl⟩ := Nat.exists_eq_add_of_lt hl
      exfalso
      have : s ≤ r * r + r := by omega
      nlinarith
    · rfl
    · obtain ⟨t, rfl⟩ := Nat.exists_eq_add_of_lt hl
      exfalso; nlinarith

/-- C53.  The bound 2^50 of `C53_nearest` is sharp: just above it, with `r = 2^25 + 1`, the root of
`r² + r` is below `r + 1/2`, yet the result is `r + 1`. -/
theorem C53_not_nearest_beyond :
    isqrt ((2 ^ 25 + 1) * (2 ^ 25 + 1) + (2 ^ 25 + 1)) = 2 ^ 25 + 2 := by
  rw [show ((2 : Int) ^ 25 + 1) * (2 ^ 25 + 1) + (2 ^ 25 + 1) = 1125900007505922 by norm_num]
  have hd : toDouble 1125900007505922 = 1125900007505922 := by decide +kernel
  have hs : scale 1125900007505922 = 27 := by decide +kernel
  have hq : sqrtSig 1125900007505922 = 4503599828697088 := sqrtSig_of _ hs rfl (by decide +kernel)
  unfold isqrt
  rw [if_neg (by norm_num), show (1125900007505922 : Int).toNat = 1125900007505922 from rfl, hd]
  dsimp only
  rw [if_neg (by norm_num), hs, hq]
  decide +kernel

/-- C53.  The square of INT_MIN is the one square whose root does not fit: the conversion answers
INT_MIN. -/
theorem C53_int_min : isqrt ((-2 ^ 31) * (-2 ^ 31)) = -2 ^ 31 := by
  rw [show (-2 ^ 31 : Int) * (-2 ^ 31) = 4611686018427387904 by norm_num]
  have hd : toDouble 4611686018427387904 = 4611686018427387904 := by decide +kernel
  have hs : scale 4611686018427387904 = 21 := by decide +kernel
  have hq : sqrtSig 4611686018427387904 = 4503599627370496 := sqrtSig_of _ hs rfl (by decide +kernel)
  unfold isqrt
  rw [if_neg (by norm_num), show (4611686018427387904 : Int).toNat = 4611686018427387904 from rfl, hd]
  dsimp only
  rw [if_neg (by norm_num), hs, hq]
  decide +kernel

/-- C53.  On other processors `hypot` truncates: (2, 2) gives 2, where x86 gives 3. -/
theorem C53_platforms_differ : hypot 2 2 = some 3 ∧ hypotGeneric 2 2 = some 2 := by
  have hd : toDouble 8 = 8 := by decide +kernel
  have hs : scale 8 = 51 := by decide +kernel
  have hq : sqrtSig 8 = 6369051672525773 := sqrtSig_of _ hs rfl (by decide +kernel)
  constructor
  · have : isqrt 8 = 3 := by
      unfold isqrt
      rw [if_neg (by norm_num), show (8 : Int).toNat = 8 from rfl, hd]
      dsimp only
      rw [if_neg (by norm_num), hs, hq]
      decide +kernel
    unfold hypot
    norm_num [this]
  · unfold hypotGeneric
    rw [show ((2 : Int) * 2).toNat = 4 from rfl, show toDouble 4 = 4 by decide +kernel, hd]
    dsimp only
    rw [if_neg (by norm_num), hs, hq]
    decide +kernel

/-- C53.  On other processors the hypotenuse of an integer right triangle may come out one too small,
because the squares and their sum are rounded first. -/
theorem C53_generic_pythagorean_false :
    (1257921999 : Int) * 1257921999 + 1680097680 * 1680097680 = 2098832049 * 2098832049 ∧
      hypotGeneric 1257921999 1680097680 = some 2098832048 := by
  refine ⟨by norm_num, ?_⟩
  have hd : toDouble (toDouble ((1257921999 : Int) * 1257921999).toNat +
      toDouble ((1680097680 : Int) * 1680097680).toNat) = 4405095969909537792 := by decide +kernel
  have hs : scale 4405095969909537792 = 22 := by decide +kernel
  have hq : sqrtSig 4405095969909537792 = 8803139658448895 := sqrtSig_of _ hs rfl (by decide +kernel)
  unfold hypotGeneric
  rw [hd]
  dsimp only
  rw [if_neg (by norm_num), hs, hq]
  decide +kernel

/-- the truncated root of a number that is not too large -/
theorem sqrtSig_floor {n : Nat} (h0 : 0 < n) (h : n < 2 ^ 52) : sqrtSig n / 2 ^ scale n = n.sqrt := by
  obtain ⟨b1, b2⟩ := sqrtSig_bounds h0
  have hl : n.log2 ≤ 51 := log2_le_of_lt h
  have hk : 27 ≤ scale n := by unfold scale; omega
  have hK : 2 ^ 27 ≤ 2 ^ scale n := Nat.pow_le_pow_right (by omega) hk
  have h4 : (4 : Nat) ^ scale n = 2 ^ scale n * 2 ^ scale n := by rw [← Nat.mul_pow]
  have r1 := Nat.sqrt_le n
  have r2 := Nat.lt_succ_sqrt n
  have r0 : 0 < n.sqrt := Nat.sqrt_pos.2 h0
  have rs : n.sqrt < 2 ^ 26 := by rw [Nat.sqrt_lt]; omega
  rw [h4] at b1 b2
  rw [Nat.succ_eq_add_one] at r2
  generalize 2 ^ scale n = K at *
  generalize sqrtSig n = m at *
  generalize n.sqrt = r at *
  apply Nat.div_eq_of_lt_le
  · by_contra hc
    have hc : m + 1 ≤ r * K := by omega
    have a1 : m * (m + 1) ≤ m * (r * K) := Nat.mul_le_mul_left _ hc
    have a2 : (m + 1) * (r * K) ≤ (r * K) * (r * K) := Nat.mul_le_mul_right _ hc
    have a3 : r * r * (K * K) ≤ n * (K * K) := Nat.mul_le_mul_right _ r1
    have a4 : 0 < r * K := by positivity
    nlinarith
  · by_contra hc
    have hc : (r + 1) * K ≤ m := by omega
    have hm : 0 < m := by nlinarith
    obtain ⟨j, rfl⟩ : ∃ j, m = j + 1 := ⟨m - 1, by omega⟩
    have a1 : (n + 1) * (K * K) ≤ (r + 1) * (r + 1) * (K * K) := Nat.mul_le_mul_right _ r2
    have a2 : (r + 1) * K * ((r + 1) * K) ≤ (j + 1) * ((r + 1) * K) := Nat.mul_le_mul_right _ hc
    have a3 : (j + 1) * ((r + 1) * K) ≤ (j + 1) * (j + 1) := Nat.mul_le_mul_left _ hc
    have a5 : (r + 1) * K + K ≤ K * K := by nlinarith
    have hj : (r + 1) * K ≤ j + 1 := hc
    -- (j+1) * j ≥ P * (P - 1) with P = (r+1) K
    obtain ⟨P, hP⟩ : ∃ P, P = (r + 1) * K := ⟨_, rfl⟩
    have e1 : (r + 1) * (r + 1) * (K * K) = P * P := by rw [hP]; ring
    rw [← hP] at a5 hj
    rw [e1] at a1
    have a6 : P * P + j + 1 ≤ (j + 1) * (j + 1) + P := by nlinarith
    nlinarith

/-- C53.  On other processors `hypot` is the root rounded down, as long as the sum of the squares has at most 52 bits. -/
theorem C53_generic_floor (x y : Int) (h : x * x + y * y < 2 ^ 52) :
    hypotGeneric x y = some ((x * x + y * y).toNat.sqrt : Int) := by
  have hx := mul_self_nonneg x
  have hy := mul_self_nonneg y
  unfold hypotGeneric
  have hn : (x * x).toNat + (y * y).toNat = (x * x + y * y).toNat := by omega
  rw [toDouble_small (n := (x * x).toNat) (by omega), toDouble_small (n := (y * y).toNat) (by omega), hn,
    toDouble_small (by omega)]
  have hb : (x * x + y * y).toNat < 2 ^ 52 := by omega
  generalize (x * x + y * y).toNat = n at *
  dsimp only
  split
  · next h0 => subst h0; rfl
  · rw [sqrtSig_floor (by omega) hb]
    have : n.sqrt < 2 ^ 26 := by rw [Nat.sqrt_lt]; omega
    rw [if_pos (by omega)]

/-- C53.  For two arguments at the end of the range the root does not fit: undefined on other processors, and the least
number on x86. -/
theorem C53_generic_range_undefined : hypotGeneric (2 ^ 31 - 1) (2 ^ 31 - 1) = none ∧ hypotGeneric 1518500250 1518500250 = none ∧
    hypot (2 ^ 31 - 1) (2 ^ 31 - 1) = some (-2 ^ 31) := by
  have h2 : toDouble (toDouble ((2 ^ 31 - 1 : Int) * (2 ^ 31 - 1)).toNat + toDouble ((2 ^ 31 - 1 : Int) * (2 ^ 31 - 1)).toNat) =
      9223372028264841216 := by decide +kernel
  have h3 : toDouble (toDouble ((1518500250 : Int) * 1518500250).toNat + toDouble ((1518500250 : Int) * 1518500250).toNat) =
      4611686018500124672 := by decide +kernel
  have h4 : toDouble (((2 ^ 31 - 1 : Int) * (2 ^ 31 - 1) + (2 ^ 31 - 1 : Int) * (2 ^ 31 - 1))).toNat = 9223372028264841216 := by
    decide +kernel
  have hs : scale 9223372028264841216 = 21 := by decide +kernel
  have hs' : scale 4611686018500124672 = 21 := by decide +kernel
  have hq : sqrtSig 9223372028264841216 = 6369051669559952 := sqrtSig_of _ hs rfl (by decide +kernel)
  have hq' : sqrtSig 4611686018500124672 = 4503599627406012 := sqrtSig_of _ hs' rfl (by decide +kernel)
  refine ⟨?_, ?_, ?_⟩
  · unfold hypotGeneric
    rw [h2]
    dsimp only
    rw [if_neg (by norm_num), hs, hq]
    decide +kernel
  · unfold hypotGeneric
    rw [h3]
    dsimp only
    rw [if_neg (by norm_num), hs', hq']
    decide +kernel
  · unfold hypot isqrt
    rw [if_pos (by norm_num), if_neg (by norm_num), h4]
    dsimp only
    rw [if_neg (by norm_num), hs, hq]
    decide +kernel

example : hypotGeneric (-3) 5 = some 5 := (C53_generic_floor (-3) 5 (by norm_num)).trans (by decide +kernel)

example : isqrt ((-2147483647) * (-2147483647)) = 2147483647 :=
  C53_perfect_square _ (by norm_num) (by norm_num)

example : 2147483647 ^ 2 < 2147483648 * 2147483648 ∧ isqrt (12345 * 12345) = 12345 :=
  ⟨by norm_num, C53_perfect_square 12345 (by norm_num) (by norm_num)⟩

/-- the hypotheses of the error and nearest bounds hold for ordinary arguments -/
example : (12345 - 1) * (12345 - 1) < (152399025 : Int) ∧ (152399025 : Int) ≤ 12345 * 12345 + 12345 :=
  ⟨(C53_error_below_one 152399025 (by norm_num) (by norm_num) 12345
      (C53_perfect_square 12345 (by norm_num) (by norm_num)) (by norm_num)).1,
   (C53_nearest 152399025 (by norm_num) (by norm_num) 12345
      (C53_perfect_square 12345 (by norm_num) (by norm_num)) (by norm_num)).2⟩

example : hypot 3 (-4) = some 5 := C53_hypot_pythagorean 3 (-4) 5 (by norm_num) (by norm_num) (by norm_num)

end CE.Isqrt
