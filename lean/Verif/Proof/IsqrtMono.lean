import Verif.Props.Isqrt
/-!
# Rounding and the square root keep the order
-/
namespace CE.Isqrt

/-- rounding to nearest keeps the order -/
theorem rne_mono {a b d : Nat} (hd : 0 < d) (h : a ≤ b) :
    rne (a / d) (a % d) d ≤ rne (b / d) (b % d) d := by
  have h1 := Nat.mod_add_div a d
  have h2 := Nat.mod_lt a hd
  have h3 := Nat.mod_add_div b d
  have h4 := Nat.mod_lt b hd
  have hq : a / d ≤ b / d := Nat.div_le_div_right h
  by_cases he : a / d = b / d
  · rw [he] at h1 ⊢
    unfold rne
    split <;> split <;> omega
  · have : a / d + 1 ≤ b / d := by omega
    have e1 : rne (a / d) (a % d) d ≤ a / d + 1 := by unfold rne; split <;> omega
    have e2 : b / d ≤ rne (b / d) (b % d) d := by unfold rne; split <;> omega
    omega

/-- rounding a fraction depends on its value only -/
theorem rne_scale (a d c : Nat) (hc : 0 < c) :
    rne ((a * c) / (d * c)) ((a * c) % (d * c)) (d * c) = rne (a / d) (a % d) d := by
  rw [Nat.mul_div_mul_right _ _ hc, Nat.mul_mod_mul_right]
  unfold rne
  have e1 : (d * c < 2 * (a % d * c)) ↔ d < 2 * (a % d) := by
    rw [← Nat.mul_assoc]; exact Nat.mul_lt_mul_right hc
  have e2 : (2 * (a % d * c) = d * c) ↔ 2 * (a % d) = d := by
    rw [← Nat.mul_assoc]; exact Nat.mul_left_inj (by omega)
  simp only [e1, e2]

/-- rounding to nearest keeps the order of fractions -/
theorem rne_mono_frac {a b d e : Nat} (hd : 0 < d) (he : 0 < e) (h : a * e ≤ b * d) :
    rne (a / d) (a % d) d ≤ rne (b / e) (b % e) e := by
  rw [← rne_scale a d e he, ← rne_scale b e d hd, Nat.mul_comm e d]
  exact rne_mono (Nat.mul_pos hd he) h

theorem rne_exact (q d : Nat) (hd : 0 < d) : rne (q * d / d) (q * d % d) d = q := by
  rw [Nat.mul_div_cancel _ hd, Nat.mul_mod_left]
  unfold rne
  split
  · omega
  · rfl

/-- a number rounded to 53 bits stays between the powers of two around it -/
theorem toDouble_between {n : Nat} (h : 2 ^ 53 ≤ n) :
    2 ^ n.log2 ≤ toDouble n ∧ toDouble n ≤ 2 ^ (n.log2 + 1) := by
  have h53 : 53 ≤ n.log2 := (Nat.le_log2 (by omega)).2 h
  have hL : 2 ^ n.log2 ≤ n := Nat.log2_self_le (by omega)
  have hU : n < 2 ^ (n.log2 + 1) := Nat.lt_log2_self
  unfold toDouble
  rw [if_neg (by omega)]
  have hd : 0 < 2 ^ (n.log2 - 52) := by positivity
  have e1 : 2 ^ n.log2 = 2 ^ 52 * 2 ^ (n.log2 - 52) := by rw [← Nat.pow_add]; congr 1; omega
  have e2 : 2 ^ (n.log2 + 1) = 2 ^ 53 * 2 ^ (n.log2 - 52) := by rw [← Nat.pow_add]; congr 1; omega
  rw [e1] at hL ⊢
  rw [e2] at hU ⊢
  generalize 2 ^ (n.log2 - 52) = d at *
  have m1 := rne_mono hd hL
  have m2 := rne_mono hd (le_of_lt hU)
  rw [rne_exact _ _ hd] at m1 m2
  exact ⟨Nat.mul_le_mul_right _ m1, Nat.mul_le_mul_right _ m2⟩

/-- conversion to `double` keeps the order -/
theorem toDouble_mono {a b : Nat} (h : a ≤ b) : toDouble a ≤ toDouble b := by
  by_cases hb : b < 2 ^ 53
  · rw [toDouble_small hb, toDouble_small (by omega)]; exact h
  · have kb := toDouble_between (n := b) (by omega)
    have h53 : 53 ≤ b.log2 := (Nat.le_log2 (by omega)).2 (by omega)
    by_cases ha : a < 2 ^ 53
    · rw [toDouble_small ha]
      have : 2 ^ 53 ≤ 2 ^ b.log2 := Nat.pow_le_pow_right (by omega) h53
      omega
    · have ka := toDouble_between (n := a) (by omega)
      have hl : a.log2 ≤ b.log2 := by
        rw [Nat.le_log2 (by omega)]
        exact le_trans (Nat.log2_self_le (by omega)) h
      by_cases he : a.log2 = b.log2
      · unfold toDouble
        rw [if_neg ha, if_neg hb, he]
        exact Nat.mul_le_mul_right _ (rne_mono (by positivity) h)
      · have : 2 ^ (a.log2 + 1) ≤ 2 ^ b.log2 := Nat.pow_le_pow_right (by omega) (by omega)
        omega

/-- numbers with a significand of 53 bits are kept -/
theorem toDouble_rep {r e : Nat} (h : r ≤ 2 ^ 53) : toDouble (r * 2 ^ e) = r * 2 ^ e := by
  by_cases hs : r * 2 ^ e < 2 ^ 53
  · exact toDouble_small hs
  · have hdvd : 2 ^ ((r * 2 ^ e).log2 - 52) ∣ r * 2 ^ e := by
      rcases Nat.lt_or_eq_of_le h with h | h
      · have : (r * 2 ^ e).log2 ≤ 52 + e := by
          apply log2_le_of_lt
          have : r * 2 ^ e < 2 ^ 53 * 2 ^ e := Nat.mul_lt_mul_of_pos_right h (by positivity)
          rw [← Nat.pow_add] at this
          rw [show 52 + e + 1 = 53 + e by omega]; exact this
        exact Dvd.dvd.mul_left (pow_dvd_pow 2 (by omega)) r
      · rw [h, ← Nat.pow_add, Nat.log2_two_pow]
        exact pow_dvd_pow 2 (by omega)
    unfold toDouble
    rw [if_neg hs]
    generalize 2 ^ ((r * 2 ^ e).log2 - 52) = d at *
    obtain ⟨q, hq⟩ := hdvd
    rw [hq, Nat.mul_comm d q]
    rcases Nat.eq_zero_or_pos d with hd | hd
    · subst hd; simp
    · rw [rne_exact _ _ hd]

/-- converting twice is converting once -/
theorem toDouble_idem (n : Nat) : toDouble (toDouble n) = toDouble n := by
  by_cases h : n < 2 ^ 53
  · rw [toDouble_small h, toDouble_small h]
  · have hU := (toDouble_between (n := n) (by omega)).2
    have h53 : 53 ≤ n.log2 := (Nat.le_log2 (by omega)).2 (by omega)
    unfold toDouble at hU
    rw [if_neg h] at hU
    rw [show n.log2 + 1 = 53 + (n.log2 - 52) by omega, Nat.pow_add] at hU
    have hr := Nat.le_of_mul_le_mul_right hU (by positivity)
    have := toDouble_rep (e := n.log2 - 52) hr
    conv_lhs => rw [show toDouble n = _ from if_neg h]
    rw [this]
    exact (if_neg h).symm

theorem sqrtSig_mono_same {a b : Nat} (ha : 0 < a) (h : a ≤ b) (hs : scale a = scale b) :
    sqrtSig a ≤ sqrtSig b := by
  have h1 := sqrtSig_bounds ha
  have h2 := sqrtSig_bounds (lt_of_lt_of_le ha h)
  rw [← hs] at h2
  have hm : a * 4 ^ scale a ≤ b * 4 ^ scale a := Nat.mul_le_mul_right _ h
  by_contra hc
  have hc : sqrtSig b + 1 ≤ sqrtSig a := by omega
  generalize sqrtSig a = p at *
  generalize sqrtSig b = q at *
  obtain ⟨t, rfl⟩ := Nat.exists_eq_add_of_le hc
  nlinarith

/-- the significand of a root has 53 bits -/
theorem sqrtSig_range {a : Nat} (ha : 0 < a) (hl : a.log2 ≤ 105) : 2 ^ 52 ≤ sqrtSig a ∧ sqrtSig a ≤ 2 ^ 53 := by
  obtain ⟨b1, b2⟩ := sqrtSig_bounds ha
  obtain ⟨c1, c2⟩ := scale_bounds ha hl
  generalize sqrtSig a = m at *
  constructor
  · by_contra hc
    have hc : m + 1 ≤ 2 ^ 52 := by omega
    have : m * (m + 1) ≤ m * 2 ^ 52 := Nat.mul_le_mul_left _ hc
    have : m * 2 ^ 52 ≤ (2 ^ 52 - 1) * 2 ^ 52 := Nat.mul_le_mul_right _ (by omega)
    have e : m * (m + 1) = m * m + m := by ring
    norm_num at *
    omega
  · by_contra hc
    obtain ⟨t, ht⟩ := Nat.exists_eq_add_of_le (show 2 ^ 53 + 1 ≤ m by omega)
    rw [ht] at b2
    nlinarith

/-- the rounded square root keeps the order: `m / 2^k` against `m' / 2^k'` -/
theorem root_mono {a b : Nat} (ha : 0 < a) (h : a ≤ b) (hl : b.log2 ≤ 105) :
    sqrtSig a * 2 ^ scale b ≤ sqrtSig b * 2 ^ scale a := by
  have hll : a.log2 ≤ b.log2 := by
    rw [Nat.le_log2 (by omega)]
    exact le_trans (Nat.log2_self_le (by omega)) h
  by_cases he : scale a = scale b
  · rw [he]; exact Nat.mul_le_mul_right _ (sqrtSig_mono_same ha h he)
  · have hlt : scale b + 1 ≤ scale a := by unfold scale at *; omega
    have h1 := (sqrtSig_range ha (by omega)).2
    have h2 := (sqrtSig_range (a := b) (by omega) hl).1
    calc sqrtSig a * 2 ^ scale b ≤ 2 ^ 53 * 2 ^ scale b := Nat.mul_le_mul_right _ h1
      _ = 2 ^ 52 * 2 ^ (scale b + 1) := by rw [Nat.pow_succ]; ring
      _ ≤ 2 ^ 52 * 2 ^ scale a := Nat.mul_le_mul_left _ (Nat.pow_le_pow_right (by omega) hlt)
      _ ≤ _ := Nat.mul_le_mul_right _ h2

/-- the truncated root keeps the order -/
theorem froot_mono {a b : Nat} (ha : 0 < a) (h : a ≤ b) (hl : b.log2 ≤ 105) :
    sqrtSig a / 2 ^ scale a ≤ sqrtSig b / 2 ^ scale b := by
  have hr := root_mono ha h hl
  rw [Nat.le_div_iff_mul_le (by positivity)]
  have h1 := Nat.div_mul_le_self (sqrtSig a) (2 ^ scale a)
  have hp : 0 < 2 ^ scale a := by positivity
  generalize sqrtSig a / 2 ^ scale a = q at *
  have : q * 2 ^ scale b * 2 ^ scale a ≤ sqrtSig b * 2 ^ scale a := by
    calc q * 2 ^ scale b * 2 ^ scale a = (q * 2 ^ scale a) * 2 ^ scale b := by ring
      _ ≤ sqrtSig a * 2 ^ scale b := Nat.mul_le_mul_right _ h1
      _ ≤ _ := hr
  exact Nat.le_of_mul_le_mul_right this hp

/-- half a unit in the last place -/
theorem toDouble_ulp {n : Nat} (h : 2 ^ 53 ≤ n) :
    2 * n ≤ 2 * toDouble n + 2 ^ (n.log2 - 52) ∧ 2 * toDouble n ≤ 2 * n + 2 ^ (n.log2 - 52) := by
  have := rne_bounds n (2 ^ (n.log2 - 52)) (by positivity)
  rw [show toDouble n = _ from if_neg (by omega)]
  exact this

theorem near_unique {s m X : Nat} (h1 : s ≤ m * m + m) (h2 : m * m < s + m)
    (h3 : s ≤ X * X + X) (h4 : X * X < s + X) : m = X := by
  rcases Nat.lt_trichotomy m X with h | h | h
  · obtain ⟨t, rfl⟩ := Nat.exists_eq_add_of_lt h
    exfalso; nlinarith
  · exact h
  · obtain ⟨t, rfl⟩ := Nat.exists_eq_add_of_lt h
    exfalso; nlinarith

/-- the root of a rounded square is exact -/
theorem sqrtSig_square {z : Nat} (h0 : 0 < z) (hz : z < 2 ^ 32) :
    sqrtSig (toDouble (z * z)) = z * 2 ^ scale (toDouble (z * z)) := by
  have hpos : 0 < toDouble (z * z) := toDouble_pos (by positivity)
  obtain ⟨b1, b2⟩ := sqrtSig_bounds hpos
  have h4 : (4 : Nat) ^ scale (toDouble (z * z)) = 2 ^ scale (toDouble (z * z)) * 2 ^ scale (toDouble (z * z)) := by
    rw [← Nat.mul_pow]
  have hsq : z * 2 ^ scale (toDouble (z * z)) * (z * 2 ^ scale (toDouble (z * z))) =
      z * z * 4 ^ scale (toDouble (z * z)) := by rw [h4]; ring
  by_cases hs : z * z < 2 ^ 53
  · rw [toDouble_small hs] at *
    have hX : 0 < z * 2 ^ scale (z * z) := by positivity
    exact near_unique b1 b2 (by omega) (by omega)
  · have hu := toDouble_ulp (n := z * z) (by omega)
    have hb := toDouble_between (n := z * z) (by omega)
    have h53 : 53 ≤ (z * z).log2 := (Nat.le_log2 (by omega)).2 (by omega)
    have hL : 2 ^ (z * z).log2 ≤ z * z := Nat.log2_self_le (by omega)
    have hdl : (z * z).log2 ≤ (toDouble (z * z)).log2 := (Nat.le_log2 (by omega)).2 hb.1
    have h64 : (z * z).log2 ≤ 63 := log2_le_of_lt (by
      have := Nat.mul_lt_mul'' hz hz; norm_num at *; omega)
    generalize hD : toDouble (z * z) = D at *
    generalize hLL : (z * z).log2 = L at *
    -- the error is less than `z / 2^k`
    have key : 2 ^ (L - 52) * 2 ^ scale D < 2 * z := by
      have h1 : scale D ≤ (105 - L) / 2 := by unfold scale; omega
      have h2 : 2 ^ (L - 52) * 2 ^ scale D ≤ 2 ^ (L - 52 + (105 - L) / 2) := by
        rw [← Nat.pow_add]; exact Nat.pow_le_pow_right (by omega) (by omega)
      by_contra hc
      have h3 : 2 * z ≤ 2 ^ (L - 52 + (105 - L) / 2) := by omega
      have h5 := Nat.mul_le_mul h3 h3
      rw [← Nat.pow_add] at h5
      have h6 : 2 ^ (L - 52 + (105 - L) / 2 + (L - 52 + (105 - L) / 2)) ≤ 2 ^ (L + 1) :=
        Nat.pow_le_pow_right (by omega) (by omega)
      rw [Nat.pow_succ] at h6
      have h7 : 0 < 2 ^ L := by positivity
      nlinarith
    have hK : 0 < 2 ^ scale D := by positivity
    rw [h4] at b1 b2 hsq
    generalize 2 ^ scale D = K at *
    generalize 2 ^ (L - 52) = u at *
    have hk2 := Nat.mul_lt_mul_of_pos_right key hK
    have u1 := Nat.mul_le_mul_right (K * K) hu.1
    have u2 := Nat.mul_le_mul_right (K * K) hu.2
    refine near_unique b1 b2 ?_ ?_ <;> nlinarith

/-- the truncated root of a rounded square is exact -/
theorem froot_square {z : Nat} (h0 : 0 < z) (hz : z < 2 ^ 32) :
    sqrtSig (toDouble (z * z)) / 2 ^ scale (toDouble (z * z)) = z := by
  rw [sqrtSig_square h0 hz, Nat.mul_div_cancel _ (by positivity)]

end CE.Isqrt
