import Verif.Props.CordicTrip
import Verif.Props.Vec
import Mathlib.Analysis.SpecialFunctions.Complex.Arg
/-!
# C118, C119: `cos_2pi`, `sin_2pi`, `atan2_2pi`, `polar_mag`, `polar_ang`, degrees, and `muldiv`
-/
namespace CE.Cordic

/-- C118.  `cos_2pi(r, t)` and `sin_2pi(r, t)` are defined for every angle and every radius other than
INT_MIN and less than two units off, less than one for radii up to 8e8. -/
theorem C118_cos_sin (r t : Int) (h1 : -2 ^ 31 < r) (h2 : r < 2 ^ 31) :
    ∃ c s : Int, cos2pi r t = some c ∧ sin2pi r t = some s ∧
      |c - r * Real.cos (radians t)| < 2 ∧ |s - r * Real.sin (radians t)| < 2 ∧
      (|r| ≤ 8 * 10 ^ 8 → |c - r * Real.cos (radians t)| < 1 ∧ |s - r * Real.sin (radians t)| < 1) := by
  obtain ⟨a, b, h, ha⟩ := C52_to_cartesian r t h1 h2
  unfold toCartesian at h
  exact ⟨a, b, by simp [cos2pi, h], by simp [sin2pi, h], ha⟩

/-- C118.  The identities between them hold exactly, not only up to rounding: a quarter turn on, the
sine is the cosine, and the cosine the negated sine. -/
theorem C118_quarter (r t : Int) (h1 : -2 ^ 31 < r) (h2 : r < 2 ^ 31) :
    ∃ c s : Int, cos2pi r t = some c ∧ sin2pi r t = some s ∧
      cos2pi r (t + 2 ^ 29) = some (-s) ∧ sin2pi r (t + 2 ^ 29) = some c := by
  obtain ⟨a, b, h, -⟩ := C52_to_cartesian r t h1 h2
  unfold toCartesian at h
  have hsq : r ^ 2 + 0 ^ 2 ≤ (2 ^ 31 - 1) ^ 2 := by nlinarith
  have h' := C52_quarter_turn r 0 t a b hsq h
  exact ⟨a, b, by simp [cos2pi, h], by simp [sin2pi, h], by simp only [cos2pi, h']; rfl,
    by simp only [sin2pi, h']; rfl⟩

/-- C118.  Sine and cosine of the same angle are the sides of a right triangle: the root of the sum of
their squares is the radius, within 5/2 units (one unit up to 2^28). -/
theorem C118_pythagoras (r t : Int) (h1 : 0 ≤ r) (h2 : r < 2 ^ 31) :
    ∃ c s : Int, cos2pi r t = some c ∧ sin2pi r t = some s ∧
      |√((c : ℝ) ^ 2 + (s : ℝ) ^ 2) - r| < 5 / 2 ∧
      (r ≤ 2 ^ 28 → |√((c : ℝ) ^ 2 + (s : ℝ) ^ 2) - r| < 1) := by
  have hsq : r ^ 2 + 0 ^ 2 ≤ (2 ^ 31 - 1) ^ 2 := by nlinarith
  obtain ⟨a, b, h, hl, hl'⟩ := C113_length r 0 t hsq
  have hr : (0 : ℝ) ≤ r := by exact_mod_cast h1
  have e : len r 0 = r := by unfold len; simp [Real.sqrt_sq hr]
  rw [e] at hl hl'
  exact ⟨a, b, by simp [cos2pi, h], by simp [sin2pi, h], hl, fun hle => hl' (by exact_mod_cast hle)⟩

/-- C118.  In degrees: `cos_2pi(r, degrees_to_angle(d))` and the sine are those of `d` degrees, up to the
two units above and the rounding of the angle to 2^-31 turns. -/
theorem C118_degrees (r d : Int) (h1 : -2 ^ 31 < r) (h2 : r < 2 ^ 31) (h3 : -360 < d) (h4 : d < 360) :
    ∃ t c s : Int, Vec.degreesToAngle d = some t ∧ cos2pi r t = some c ∧ sin2pi r t = some s ∧
      |c - r * Real.cos (d * Real.pi / 180)| < 2 + |(r : ℝ)| * (3 / 10 ^ 9) ∧
      |s - r * Real.sin (d * Real.pi / 180)| < 2 + |(r : ℝ)| * (3 / 10 ^ 9) := by
  obtain ⟨c, s, hc, hs, e1, e2, -⟩ := C118_cos_sin r ((d * 268435456).tdiv 45) h1 h2
  refine ⟨_, c, s, Vec.C51_degrees d h3 h4, hc, hs, ?_⟩
  have ht := Vec.tdiv45 (d * 268435456)
  generalize (d * 268435456).tdiv 45 = t at *
  have hd : |45 * t - d * 268435456| ≤ 44 := by
    rw [abs_le]
    rcases le_total 0 (d * 268435456) with h | h
    · have := ht.1 h; omega
    · have := ht.2 h; omega
  have hd' : |45 * (t : ℝ) - d * 268435456| ≤ 44 := by exact_mod_cast hd
  have ea : radians t - d * Real.pi / 180 = (45 * (t : ℝ) - d * 268435456) * (Real.pi / (45 * 2 ^ 30)) := by
    unfold radians; ring
  have hang : |radians t - d * Real.pi / 180| ≤ 3 / 10 ^ 9 := by
    rw [ea, abs_mul, abs_of_pos (by positivity : 0 < Real.pi / (45 * 2 ^ 30))]
    have hpi := Real.pi_lt_d2
    have : Real.pi / (45 * 2 ^ 30) ≤ 3.15 / (45 * 2 ^ 30) := by gcongr
    calc _ ≤ (44 : ℝ) * (3.15 / (45 * 2 ^ 30)) := mul_le_mul hd' this (by positivity) (by norm_num)
      _ ≤ _ := by norm_num
  have key : ∀ (f : ℝ → ℝ) (v : ℝ), (∀ a b, |f a - f b| ≤ |a - b|) → |v - r * f (radians t)| < 2 →
      |v - r * f (d * Real.pi / 180)| < 2 + |(r : ℝ)| * (3 / 10 ^ 9) := by
    intro f v hf hv
    have e : v - r * f (d * Real.pi / 180) =
        (v - r * f (radians t)) + r * (f (radians t) - f (d * Real.pi / 180)) := by ring
    rw [e]
    refine (abs_add_le _ _).trans_lt ?_
    rw [abs_mul]
    have := mul_le_mul_of_nonneg_left ((hf (radians t) (d * Real.pi / 180)).trans hang) (abs_nonneg (r : ℝ))
    linarith
  exact ⟨key Real.cos c (fun a b => Real.abs_cos_sub_cos_le a b) e1,
    key Real.sin s (fun a b => Real.abs_sin_sub_sin_le a b) e2⟩

/-- C118.  `atan2_2pi(y, x)`, and `polar_ang(x, y)`, of any vector not on the negative x axis is its
angle in (-π, π), within 0.66 + 27 / length units of 2^-31 turns; `polar_mag` is its length within one
unit. -/
theorem C118_atan2 (x y : Int) (h0 : 0 < x ∨ y ≠ 0) (h : x ^ 2 + y ^ 2 ≤ (2 ^ 31 - 1) ^ 2) :
    ∃ m a : Int, atan2 y x = some a ∧ polarAng x y = some a ∧ polarMag x y = some m ∧
      |m - len x y| < 1 ∧
      |radians a - Complex.arg ⟨x, y⟩| ≤ radians 1 * (66 / 100 + 27 / len x y) := by
  have hne : (x, y) ≠ (0, 0) := by
    intro e; simp only [Prod.mk.injEq] at e; omega
  obtain ⟨m, a, hp, -, hm, β, hβ, hx, hy, hang⟩ := C77_to_polar x y hne h
  unfold toPolar at hp
  refine ⟨m, a, by simp [atan2, hp], by simp [polarAng, hp], by simp [polarMag, hp], hm, ?_⟩
  change |radians a - β| ≤ radians 1 * (66 / 100 + 27 / len x y) at hang
  change (x : ℝ) = len x y * Real.cos β at hx
  change (y : ℝ) = len x y * Real.sin β at hy
  have hlpos : 0 < len x y := by
    refine Real.sqrt_pos.2 ?_
    rcases h0 with h | h
    · have : (0 : ℝ) < x := by exact_mod_cast h
      positivity
    · have : (y : ℝ) ≠ 0 := by exact_mod_cast h
      positivity
  have hb : β ≠ -Real.pi := by
    rintro rfl
    rw [Real.cos_neg, Real.cos_pi] at hx
    rw [Real.sin_neg, Real.sin_pi] at hy
    rcases h0 with h | h
    · have : (0 : ℝ) < x := by exact_mod_cast h
      linarith
    · have : (y : ℝ) ≠ 0 := by exact_mod_cast h
      exact this (by rw [hy]; ring)
  have harg : Complex.arg ⟨x, y⟩ = β := by
    have e : (⟨x, y⟩ : ℂ) = (len x y : ℂ) * (Complex.cos β + Complex.sin β * Complex.I) := by
      apply Complex.ext
      · simp [← hx, ← Complex.ofReal_cos, ← Complex.ofReal_sin]
      · simp [← hy, ← Complex.ofReal_cos, ← Complex.ofReal_sin]
    rw [e]
    exact Complex.arg_mul_cos_add_sin_mul_I hlpos
      ⟨lt_of_le_of_ne (abs_le.1 hβ).1 (Ne.symm hb), (abs_le.1 hβ).2⟩
  rw [harg]; exact hang

/-- C118.  `atan2_2pi` undoes `cos_2pi` and `sin_2pi`: the angle of `(r cos, r sin)` is the angle again,
up to whole turns and 9 / r radians. -/
theorem C118_angle_back (r t : Int) (h1 : 100 ≤ r) (h2 : r ≤ 2 ^ 31 - 4) :
    ∃ c s a k : Int, cos2pi r t = some c ∧ sin2pi r t = some s ∧ atan2 s c = some a ∧
      |radians (a - t - k * 2 ^ 31)| ≤ 9 / r := by
  obtain ⟨c, d, m, a, k, hc, hp, -, -, ha⟩ := C113_cartesian_back r t h1 h2
  unfold toCartesian at hc
  unfold toPolar at hp
  exact ⟨c, d, a, k, by simp [cos2pi, hc], by simp [sin2pi, hc], by simp [atan2, hp], ha⟩

example : cos2pi 1000 (2 ^ 28) = some 707 ∧ sin2pi (-1000) (2 ^ 28) = some (-707) ∧
    atan2 4000 3000 = some 316933406 ∧ polarMag 3000 4000 = some 5000 := by decide +kernel
example : (3 : Int) ^ 2 + (-4) ^ 2 ≤ (2 ^ 31 - 1) ^ 2 ∧ (0 < (3 : Int) ∨ (-4 : Int) ≠ 0) := by decide

end CE.Cordic

namespace CE.Vec

/-- C119.  The 32 bit `muldiv(b, n, d)`: for all 32 bit arguments with `d ≠ 0` nothing overflows on the
way, and each component is the exact quotient `b * n / d` rounded toward zero, whenever that fits in 32
bits. -/
theorem C119_muldiv (b : V2) (n d : Int) (hx : Is32 b.x) (hy : Is32 b.y) (hn : Is32 n) (hd : Is32 d)
    (h0 : d ≠ 0) :
    ∃ r, muldiv32 b n d = some r ∧
      (Is32 ((b.x * n).tdiv d) → r.x = (b.x * n).tdiv d) ∧
      (Is32 ((b.y * n).tdiv d) → r.y = (b.y * n).tdiv d) := by
  have bound : ∀ v, Is32 v → Is64 (v * n) ∧ Is64 ((v * n).tdiv d) := by
    intro v hv
    have h1 := mul_bounds (A := 2 ^ 31) (B := 2 ^ 31) ⟨hv.1, hv.2.le⟩ ⟨hn.1, hn.2.le⟩
    have h2 : |(v * n).tdiv d| ≤ |v * n| := by
      rw [Int.abs_eq_natAbs, Int.abs_eq_natAbs, Int.natAbs_tdiv]
      exact_mod_cast Nat.div_le_self _ _
    have h3 := abs_le.1 (h2.trans (abs_le.2 ⟨by linarith [h1.1], h1.2⟩))
    refine ⟨⟨?_, ?_⟩, ?_, ?_⟩
    · linarith [h1.1]
    · linarith [h1.2]
    · linarith [h3.1]
    · linarith [h3.2]
  have fit : ∀ q, Is32 q → to32 q = q := by
    intro q hq; unfold Is32 at hq; unfold to32; omega
  refine ⟨⟨to32 ((b.x * n).tdiv d), to32 ((b.y * n).tdiv d)⟩, ?_, fit _, fit _⟩
  unfold muldiv32
  rw [i64_eq (bound _ hx).1, i64_eq (bound _ hy).1]
  simp only [Option.bind_eq_bind, Option.bind_some, if_neg h0]
  rw [i64_eq (bound _ hx).2, i64_eq (bound _ hy).2]
  rfl

/-- C119.  So scaling by `n / d` with `|n| ≤ |d|` (a part of a vector) is always exact up to the rounding:
the remainder is less than `d`, and has the sign of the product. -/
theorem C119_part (b : V2) (n d : Int) (hx : Is32 b.x) (hy : Is32 b.y) (hn : Is32 n) (hd : Is32 d)
    (h0 : d ≠ 0) (hnd : |n| ≤ |d|) (hm : b.x ≠ -2 ^ 31 ∧ b.y ≠ -2 ^ 31) :
    ∃ r, muldiv32 b n d = some r ∧ |b.x * n - d * r.x| < |d| ∧ |b.y * n - d * r.y| < |d| ∧
      |r.x| ≤ |b.x| ∧ |r.y| ≤ |b.y| := by
  obtain ⟨r, hr, h1, h2⟩ := C119_muldiv b n d hx hy hn hd h0
  have dp : 0 < |d| := abs_pos.2 h0
  have small : ∀ v, |(v * n).tdiv d| ≤ |v| := by
    intro v
    rw [Int.abs_eq_natAbs, Int.abs_eq_natAbs, Int.natAbs_tdiv, Int.natAbs_mul]
    have hd0 : 0 < d.natAbs := Int.natAbs_pos.2 h0
    have : n.natAbs ≤ d.natAbs := by
      rw [Int.abs_eq_natAbs, Int.abs_eq_natAbs] at hnd; exact_mod_cast hnd
    exact_mod_cast (Nat.div_le_of_le_mul (by nlinarith [Nat.mul_le_mul_left v.natAbs this]) :
      v.natAbs * n.natAbs / d.natAbs ≤ v.natAbs)
  have fits : ∀ v, Is32 v → v ≠ -2 ^ 31 → Is32 ((v * n).tdiv d) := by
    intro v hv hne
    have := abs_le.1 ((small v).trans (abs_le.2 (⟨by have := hv.1; omega, by have := hv.2; omega⟩ :
      -(2 ^ 31 - 1) ≤ v ∧ v ≤ 2 ^ 31 - 1)))
    exact ⟨by omega, by omega⟩
  have ex := h1 (fits _ hx hm.1)
  have ey := h2 (fits _ hy hm.2)
  have rem : ∀ p : Int, |p - d * p.tdiv d| < |d| := by
    intro p
    have : p - d * p.tdiv d = p.tmod d := by have := Int.tmod_add_mul_tdiv p d; omega
    rw [this, Int.abs_eq_natAbs, Int.abs_eq_natAbs, Int.natAbs_tmod]
    exact_mod_cast Nat.mod_lt _ (Int.natAbs_pos.2 h0)
  exact ⟨r, hr, ex ▸ rem _, ey ▸ rem _, ex ▸ small _, ey ▸ small _⟩

/-- C119.  Division by zero is undefined; a quotient that does not fit is reduced modulo 2^32. -/
theorem C119_edge_cases (b : V2) (n : Int) :
    muldiv32 b n 0 = none ∧ muldiv32 ⟨-2 ^ 31, 1⟩ 1 (-1) = some ⟨-2 ^ 31, -1⟩ := by
  refine ⟨?_, by decide +kernel⟩
  unfold muldiv32
  cases i64 (b.x * n) <;> cases i64 (b.y * n) <;> simp

example : muldiv32 ⟨1000000, -1000000⟩ 2000000 3000000 = some ⟨666666, -666666⟩ ∧
    (2000000 : Int).natAbs ≤ (3000000 : Int).natAbs := by decide +kernel

end CE.Vec
