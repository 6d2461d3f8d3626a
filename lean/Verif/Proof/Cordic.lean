import Verif.Proof.CordicTable
import Mathlib.Analysis.SpecialFunctions.Trigonometric.Bounds
/-!
# The iteration of `cordic::rotate` as complex multiplication
-/
namespace CE.Cordic
open Finset Complex

/-- direction of a step -/
def sig (z : Int) : Int := if z < 0 then -1 else 1

/-- one iteration without overflow checks -/
def rotStepP (i : Nat) (s : St) : St :=
  ⟨s.x - sig s.z * s.y / 2 ^ i, s.y + sig s.z * s.x / 2 ^ i, s.z - sig s.z * tb i⟩

/-- `n` iterations without overflow checks -/
def rotP : Nat → St → St
  | 0, s => s
  | n + 1, s => rotStepP n (rotP n s)

/-- the pair as a complex number -/
def St.w (s : St) : ℂ := ⟨s.x, s.y⟩

/-- the angle turned by the first `n` steps -/
noncomputable def phi (s : St) (n : Nat) : ℝ :=
  ∑ i ∈ range n, (sig (rotP i s).z : ℝ) * Real.arctan (1 / 2 ^ i)

/-- the gain of the first `n` steps -/
noncomputable def gain (n : Nat) : ℝ := ∏ i ∈ range n, √(1 + (1 / 2 ^ i) ^ 2)

/-- a bound for the accumulated truncation error -/
noncomputable def errB : Nat → ℝ
  | 0 => 0
  | n + 1 => errB n * (1 + 1 / 2 ^ n) + 2

theorem sig_cases (z : Int) : sig z = 1 ∨ sig z = -1 := by
  unfold sig; split <;> simp

theorem turn_eq (t : ℝ) {σ : ℝ} (h : σ = 1 ∨ σ = -1) :
    (⟨1, σ * t⟩ : ℂ) = √(1 + t ^ 2) * exp (I * ((σ * Real.arctan t : ℝ) : ℂ)) := by
  have hp : (0 : ℝ) < 1 + t ^ 2 := by positivity
  have hs : √(1 + t ^ 2) ≠ 0 := (Real.sqrt_pos.2 hp).ne'
  have e1 : Real.cos (σ * Real.arctan t) = 1 / √(1 + t ^ 2) := by
    rcases h with rfl | rfl
    · rw [one_mul, Real.cos_arctan]
    · rw [neg_one_mul, Real.cos_neg, Real.cos_arctan]
  have e2 : Real.sin (σ * Real.arctan t) = σ * t / √(1 + t ^ 2) := by
    rcases h with rfl | rfl
    · rw [one_mul, Real.sin_arctan, one_mul]
    · rw [neg_one_mul, Real.sin_neg, Real.sin_arctan]; ring
  rw [mul_comm I, exp_mul_I, ← ofReal_cos, ← ofReal_sin, e1, e2]
  apply Complex.ext
  · simp [hs]
  · simp [hs, mul_div_cancel₀]

theorem floor_err (a : Int) (i : Nat) :
    ∃ f : ℝ, 0 ≤ f ∧ f < 1 ∧ ((a / 2 ^ i : Int) : ℝ) = a * (1 / 2 ^ i) - f := by
  have hp : (0 : Int) < 2 ^ i := by positivity
  have h1 := Int.emod_nonneg a hp.ne'
  have h2 := Int.emod_lt_of_pos a hp
  have h3 := Int.mul_ediv_add_emod a (2 ^ i)
  have hpr : (0 : ℝ) < 2 ^ i := by positivity
  refine ⟨((a % 2 ^ i : Int) : ℝ) / 2 ^ i, by positivity, ?_, ?_⟩
  · rw [div_lt_one hpr]; exact_mod_cast h2
  · have : (a : ℝ) = 2 ^ i * ((a / 2 ^ i : Int) : ℝ) + ((a % 2 ^ i : Int) : ℝ) := by
      exact_mod_cast h3.symm
    generalize ((a / 2 ^ i : Int) : ℝ) = q at *
    rw [this]
    field_simp
    ring

/-- one step multiplies by the turn, up to two units -/
theorem step_w (s : St) (i : Nat) :
    ‖(rotStepP i s).w - s.w * ⟨1, (sig s.z : ℝ) * (1 / 2 ^ i)⟩‖ ≤ 2 := by
  obtain ⟨f, f0, f1, hf⟩ := floor_err (sig s.z * s.y) i
  obtain ⟨g, g0, g1, hg⟩ := floor_err (sig s.z * s.x) i
  have : (rotStepP i s).w - s.w * ⟨1, (sig s.z : ℝ) * (1 / 2 ^ i)⟩ = ⟨f, -g⟩ := by
    apply Complex.ext
    · simp only [rotStepP, St.w, sub_re, mul_re]
      push_cast [hf]; ring
    · simp only [rotStepP, St.w, sub_im, mul_im]
      push_cast [hg]; ring
  rw [this]
  refine (Complex.norm_le_abs_re_add_abs_im _).trans ?_
  simp only [abs_neg, abs_of_nonneg f0, abs_of_nonneg g0]
  linarith

theorem turn_norm (t : ℝ) (ht : 0 ≤ t) {σ : ℝ} (h : σ = 1 ∨ σ = -1) : ‖(⟨1, σ * t⟩ : ℂ)‖ ≤ 1 + t := by
  refine (Complex.norm_le_abs_re_add_abs_im _).trans ?_
  rcases h with rfl | rfl
  · simp [abs_of_nonneg ht]
  · simp [abs_of_nonneg ht]

theorem sig_real (z : Int) : (sig z : ℝ) = 1 ∨ (sig z : ℝ) = -1 := by
  rcases sig_cases z with h | h <;> simp [h]

theorem loop_w (s : St) (n : Nat) :
    ‖(rotP n s).w - s.w * (gain n * exp (I * (phi s n : ℂ)))‖ ≤ errB n := by
  induction n with
  | zero => simp [gain, phi, errB, rotP]
  | succ n ih =>
    have h1 := step_w (rotP n s) n
    have ht := turn_eq (1 / 2 ^ n) (sig_real (rotP n s).z)
    have hn := turn_norm (1 / 2 ^ n) (by positivity) (sig_real (rotP n s).z)
    have hm : s.w * (gain (n + 1) * exp (I * (phi s (n + 1) : ℂ))) =
        s.w * (gain n * exp (I * (phi s n : ℂ))) * ⟨1, (sig (rotP n s).z : ℝ) * (1 / 2 ^ n)⟩ := by
      rw [ht]
      unfold gain phi
      rw [prod_range_succ, sum_range_succ, ofReal_mul, ofReal_add, mul_add, exp_add]
      ring
    rw [hm]
    set T : ℂ := ⟨1, (sig (rotP n s).z : ℝ) * (1 / 2 ^ n)⟩
    set W := s.w * (gain n * exp (I * (phi s n : ℂ)))
    have : (rotP (n + 1) s).w - W * T = ((rotStepP n (rotP n s)).w - (rotP n s).w * T) +
        ((rotP n s).w - W) * T := by
      show (rotStepP n (rotP n s)).w - W * T = _
      ring
    rw [this]
    refine (norm_add_le _ _).trans ?_
    rw [norm_mul]
    have hz : 0 ≤ errB n := le_trans (norm_nonneg _) ih
    have := mul_le_mul ih hn (norm_nonneg _) hz
    show _ ≤ errB n * (1 + 1 / 2 ^ n) + 2
    linarith

theorem errB_mono (n : Nat) : 0 ≤ errB n ∧ errB n ≤ errB (n + 1) := by
  have h0 : 0 ≤ errB n := by
    induction n with
    | zero => simp [errB]
    | succ n ih => unfold errB; positivity
  refine ⟨h0, ?_⟩
  show _ ≤ errB n * (1 + 1 / 2 ^ n) + 2
  have : 0 ≤ errB n * (1 / 2 ^ n) := by positivity
  nlinarith

theorem errB_32 : errB 32 ≤ 400 := by
  simp only [errB]
  norm_num

theorem errB_le {n : Nat} (h : n ≤ 32) : errB n ≤ 400 :=
  (monotone_nat_of_le_succ (fun n => (errB_mono n).2) h).trans errB_32

theorem gain_mono (n : Nat) : 1 ≤ gain n ∧ gain n ≤ gain (n + 1) := by
  have h : ∀ i : ℕ, (1 : ℝ) ≤ √(1 + (1 / 2 ^ i) ^ 2) := fun i => by
    rw [Real.one_le_sqrt]
    have : (0 : ℝ) ≤ (1 / 2 ^ i) ^ 2 := by positivity
    linarith
  have h1 : 1 ≤ gain n := by
    induction n with
    | zero => simp [gain]
    | succ n ih =>
      unfold gain at *
      rw [prod_range_succ]
      nlinarith [h n]
  refine ⟨h1, ?_⟩
  unfold gain at *
  rw [prod_range_succ]
  nlinarith [h n]

theorem gain_bounds : (1 - 11 / 10 ^ 11 : ℝ) ≤ 2608131496 / 2 ^ 32 * gain 32 ∧
    2608131496 / 2 ^ 32 * gain 32 ≤ 1 := by
  have hsq : (gain 32) ^ 2 = ∏ i ∈ range 32, (1 + (1 / 2 ^ i : ℝ) ^ 2) := by
    unfold gain
    rw [← prod_pow]
    exact prod_congr rfl (fun i _ => Real.sq_sqrt (by positivity))
  have hg := (gain_mono 32).1
  obtain ⟨h1, h2⟩ := gain_sq
  have h1' : ((2608131496 : ℝ) / 2 ^ 32) ^ 2 * (gain 32) ^ 2 ≤ 1 := by
    rw [hsq]; exact h1
  have h2' : (1 - 11 / 10 ^ 11 : ℝ) ^ 2 ≤ ((2608131496 : ℝ) / 2 ^ 32) ^ 2 * (gain 32) ^ 2 := by
    rw [hsq]; exact h2
  rw [← mul_pow] at h1' h2'
  constructor
  · exact le_of_sq_le_sq h2' (by positivity)
  · exact le_of_sq_le_sq (by simpa using h1') (by norm_num)

/-- what remains to be turned after `n` steps is covered by the rest of the table -/
def restB (n : Nat) : Int := (tbl.drop n).sum + 683565276

theorem restB_step : ∀ n < 32, tb n ≤ restB (n + 1) ∧ restB n = restB (n + 1) + tb n ∧ 0 ≤ tb n := by
  decide +kernel

theorem z_bound (s : St) (h : |s.z| ≤ 2 ^ 61) (n : Nat) (hn : n ≤ 32) : |(rotP n s).z| ≤ restB n := by
  induction n with
  | zero =>
    refine h.trans ?_
    decide +kernel
  | succ n ih =>
    have hr := restB_step n (by omega)
    have ih := ih (by omega)
    rw [abs_le] at ih ⊢
    show _ ≤ (rotP n s).z - sig (rotP n s).z * tb n ∧ (rotP n s).z - sig (rotP n s).z * tb n ≤ _
    unfold sig
    split <;> omega

theorem phi_z (s : St) (n : Nat) (hn : n ≤ 32) :
    |phi s n - ((s.z : ℝ) - (rotP n s).z) * (Real.pi / 2 ^ 62)| ≤ (n : ℝ) / 2 ^ 50 := by
  induction n with
  | zero => simp [phi, rotP]
  | succ n ih =>
    have ih := ih (by omega)
    have ht := tb_arctan (show n < 32 by omega)
    have e : phi s (n + 1) - ((s.z : ℝ) - (rotP (n + 1) s).z) * (Real.pi / 2 ^ 62) =
        (phi s n - (s.z - (rotP n s).z) * (Real.pi / 2 ^ 62)) +
        (sig (rotP n s).z : ℝ) * (Real.arctan (1 / 2 ^ n) - tb n * (Real.pi / 2 ^ 62)) := by
      unfold phi
      rw [sum_range_succ]
      show _ - ((s.z : ℝ) - (((rotP n s).z - sig (rotP n s).z * tb n : Int) : ℝ)) * _ = _
      push_cast
      ring
    rw [e]
    refine (abs_add_le _ _).trans ?_
    have : |(sig (rotP n s).z : ℝ) * (Real.arctan (1 / 2 ^ n) - tb n * (Real.pi / 2 ^ 62))| ≤ 1 / 2 ^ 50 := by
      rw [abs_mul]
      rcases sig_real (rotP n s).z with h | h <;> simpa [h] using ht
    push_cast
    rw [add_div]
    linarith

/-- the whole iteration: the scaled vector turned by the angle -/
theorem loop_accurate (x0 y0 : Int) (z : Int) (hz : |z| ≤ 2 ^ 61) :
    ‖(rotP 32 ⟨x0 * 2608131496, y0 * 2608131496, z⟩).w / 2 ^ 32 -
      (⟨x0, y0⟩ : ℂ) * exp (I * ((z * (Real.pi / 2 ^ 62) : ℝ) : ℂ))‖ ≤
      1 / 10 ^ 7 + ‖(⟨x0, y0⟩ : ℂ)‖ * (58 / 10 ^ 11) := by
  set s : St := ⟨x0 * 2608131496, y0 * 2608131496, z⟩ with hs
  set v : ℂ := ⟨x0, y0⟩ with hv
  have hw : s.w = v * (2608131496 : ℝ) := by
    apply Complex.ext <;> simp [St.w, hs, hv]
  have h1 := loop_w s 32
  have h2 := phi_z s 32 le_rfl
  have h3 := z_bound s hz 32 le_rfl
  have h4 := errB_32
  obtain ⟨g1, g2⟩ := gain_bounds
  set θ : ℝ := z * (Real.pi / 2 ^ 62) with hθ
  -- the angle is off by at most 2^-31 and a bit
  have hang : |phi s 32 - θ| ≤ 4657 / 10 ^ 13 := by
    have hz' : |((rotP 32 s).z : ℝ)| ≤ 683565276 := by
      have : restB 32 = 683565276 := by decide +kernel
      rw [this] at h3
      exact_mod_cast h3
    have p2 := Real.pi_lt_d20
    have p0 := Real.pi_pos
    have e : phi s 32 - θ = (phi s 32 - (s.z - (rotP 32 s).z) * (Real.pi / 2 ^ 62)) -
        (rotP 32 s).z * (Real.pi / 2 ^ 62) := by
      rw [hθ]; show _ = (phi s 32 - ((z : ℝ) - _) * _) - _; ring
    rw [e]
    refine (abs_sub _ _).trans ?_
    have h5 : |((rotP 32 s).z : ℝ) * (Real.pi / 2 ^ 62)| ≤ 683565276 * (3.1415926536 / 2 ^ 62) := by
      rw [abs_mul, abs_of_pos (show 0 < Real.pi / 2 ^ 62 by positivity)]
      apply mul_le_mul hz' _ (by positivity) (by norm_num)
      gcongr
      norm_num at p2 ⊢
      linarith
    have h6 : ((32 : ℕ) : ℝ) / 2 ^ 50 + 683565276 * (3.1415926536 / 2 ^ 62) ≤ 4657 / 10 ^ 13 := by norm_num
    linarith
  have hexp : ‖exp (I * (phi s 32 : ℂ)) - exp (I * (θ : ℂ))‖ ≤ 4657 / 10 ^ 13 := by
    have e : exp (I * (phi s 32 : ℂ)) - exp (I * (θ : ℂ)) =
        exp (I * (θ : ℂ)) * (exp (I * ((phi s 32 - θ : ℝ) : ℂ)) - 1) := by
      rw [mul_sub, ← exp_add, mul_one]
      congr 2
      push_cast
      ring
    rw [e, norm_mul, mul_comm I (θ : ℂ), norm_exp_ofReal_mul_I, one_mul]
    exact (Real.norm_exp_I_mul_ofReal_sub_one_le).trans hang
  have e : (rotP 32 s).w / 2 ^ 32 - v * exp (I * (θ : ℂ)) =
      ((rotP 32 s).w - s.w * (gain 32 * exp (I * (phi s 32 : ℂ)))) / 2 ^ 32 +
      v * (((2608131496 / 2 ^ 32 * gain 32 - 1 : ℝ) : ℂ) * exp (I * (phi s 32 : ℂ)) +
        (exp (I * (phi s 32 : ℂ)) - exp (I * (θ : ℂ)))) := by
    rw [hw]
    push_cast
    ring
  rw [e]
  refine (norm_add_le _ _).trans ?_
  have n1 : ‖((rotP 32 s).w - s.w * (gain 32 * exp (I * (phi s 32 : ℂ)))) / 2 ^ 32‖ ≤ 1 / 10 ^ 7 := by
    rw [norm_div, norm_pow]
    simp only [Complex.norm_ofNat]
    rw [div_le_iff₀ (by norm_num)]
    refine (h1.trans h4).trans ?_
    norm_num
  have n2 : ‖(((2608131496 / 2 ^ 32 * gain 32 - 1 : ℝ) : ℂ) * exp (I * (phi s 32 : ℂ)) +
        (exp (I * (phi s 32 : ℂ)) - exp (I * (θ : ℂ))))‖ ≤ 58 / 10 ^ 11 := by
    refine (norm_add_le _ _).trans ?_
    rw [norm_mul, mul_comm I (phi s 32 : ℂ), norm_exp_ofReal_mul_I, mul_one, mul_comm (phi s 32 : ℂ) I]
    have : ‖((2608131496 / 2 ^ 32 * gain 32 - 1 : ℝ) : ℂ)‖ ≤ 11 / 10 ^ 11 := by
      rw [norm_real, Real.norm_eq_abs, abs_le]
      constructor <;> linarith
    norm_num at this hexp ⊢
    linarith
  rw [norm_mul]
  have := mul_le_mul_of_nonneg_left n2 (norm_nonneg v)
  linarith

/-- magnitudes stay in range -/
theorem loop_norm (x0 y0 z : Int) (hv : ‖(⟨x0, y0⟩ : ℂ)‖ ≤ 2 ^ 31 - 1) (n : Nat) (hn : n ≤ 32) :
    ‖(rotP n ⟨x0 * 2608131496, y0 * 2608131496, z⟩).w‖ ≤ 2 ^ 63 - 2 ^ 32 + 400 := by
  set s : St := ⟨x0 * 2608131496, y0 * 2608131496, z⟩ with hs
  have hw : s.w = (⟨x0, y0⟩ : ℂ) * (2608131496 : ℝ) := by
    apply Complex.ext <;> simp [St.w, hs]
  have h1 := loop_w s n
  have h2 := errB_le hn
  have h3 : gain n ≤ gain 32 := monotone_nat_of_le_succ (fun n => (gain_mono n).2) hn
  have h4 := (gain_mono n).1
  have g2 := gain_bounds.2
  set T : ℂ := gain n * exp (I * (phi s n : ℂ)) with hT
  have hTn : ‖T‖ = gain n := by
    rw [hT, norm_mul, mul_comm I, norm_exp_ofReal_mul_I, mul_one, norm_real, Real.norm_eq_abs,
      abs_of_nonneg (by linarith)]
  have h5 : ‖s.w * T‖ ≤ (2 ^ 31 - 1) * 2 ^ 32 := by
    rw [hw, norm_mul, norm_mul, hTn, norm_real, Real.norm_eq_abs, abs_of_pos (by norm_num)]
    have : 2608131496 * gain n ≤ 2 ^ 32 := by
      have : 2608131496 * gain 32 ≤ 2 ^ 32 := by
        rw [div_mul_eq_mul_div, div_le_one (by norm_num)] at g2
        exact g2
      linarith
    rw [mul_assoc]
    exact mul_le_mul hv this (by positivity) (by norm_num)
  have h6 : (rotP n s).w = ((rotP n s).w - s.w * T) + s.w * T := by ring
  rw [h6]
  refine (norm_add_le _ _).trans ?_
  linarith

theorem comp_bound (x0 y0 z : Int) (hv : ‖(⟨x0, y0⟩ : ℂ)‖ ≤ 2 ^ 31 - 1) (n : Nat) (hn : n ≤ 32) :
    |(rotP n ⟨x0 * 2608131496, y0 * 2608131496, z⟩).x| ≤ 2 ^ 63 - 2 ^ 32 + 400 ∧
    |(rotP n ⟨x0 * 2608131496, y0 * 2608131496, z⟩).y| ≤ 2 ^ 63 - 2 ^ 32 + 400 := by
  have h := loop_norm x0 y0 z hv n hn
  have h1 := (Complex.abs_re_le_norm _).trans h
  have h2 := (Complex.abs_im_le_norm _).trans h
  change |((rotP n ⟨x0 * 2608131496, y0 * 2608131496, z⟩).x : ℝ)| ≤ _ at h1
  change |((rotP n ⟨x0 * 2608131496, y0 * 2608131496, z⟩).y : ℝ)| ≤ _ at h2
  norm_num at h1 h2 ⊢
  exact ⟨by exact_mod_cast h1, by exact_mod_cast h2⟩

theorem i64_some {v : Int} (h1 : -2 ^ 63 ≤ v) (h2 : v < 2 ^ 63) : i64 v = some v := if_pos ⟨h1, h2⟩

theorem i32_some {v : Int} (h1 : -2 ^ 31 ≤ v) (h2 : v < 2 ^ 31) : i32 v = some v := if_pos ⟨h1, h2⟩

theorem sgn_some {z v : Int} (h : |v| < 2 ^ 63) : sgn (decide (z < 0)) v = some (sig z * v) := by
  rw [abs_lt] at h
  unfold sgn sig
  by_cases hz : z < 0
  · simp only [hz, decide_true, if_true]
    rw [i64_some (by omega) (by omega), neg_one_mul]
  · simp [hz]

theorem loop_checked (x0 y0 z : Int) (hv : ‖(⟨x0, y0⟩ : ℂ)‖ ≤ 2 ^ 31 - 1) (hz : |z| ≤ 2 ^ 61)
    (n : Nat) (hn : n ≤ 32) :
    rotLoop ks n ⟨x0 * 2608131496, y0 * 2608131496, z⟩ =
      some (rotP n ⟨x0 * 2608131496, y0 * 2608131496, z⟩) := by
  set s : St := ⟨x0 * 2608131496, y0 * 2608131496, z⟩ with hs
  induction n with
  | zero => rfl
  | succ n ih =>
    have b0 := comp_bound x0 y0 z hv n (by omega)
    have b1 := comp_bound x0 y0 z hv (n + 1) hn
    have z0 := z_bound s hz n (by omega)
    have z1 := z_bound s hz (n + 1) hn
    have hr : ∀ n ≤ 32, restB n < 2 ^ 62 := by decide +kernel
    have ht : ∀ n < 32, |tb n| < 2 ^ 62 := by decide +kernel
    have r0 := hr n (by omega)
    have r1 := hr (n + 1) hn
    have t0 := ht n (by omega)
    rw [← hs] at b0 b1
    unfold rotLoop
    rw [ih (by omega)]
    show rotStep ks n (rotP n s) = some (rotStepP n (rotP n s))
    change |(rotStepP n (rotP n s)).x| ≤ _ ∧ |(rotStepP n (rotP n s)).y| ≤ _ at b1
    change |(rotStepP n (rotP n s)).z| ≤ _ at z1
    generalize rotP n s = u at *
    unfold rotStep
    unfold rotStepP at b1 z1 ⊢
    obtain ⟨b0x, b0y⟩ := b0
    have e1 := sgn_some (z := u.z) (v := u.y) (by omega)
    have e2 := sgn_some (z := u.z) (v := u.x) (by omega)
    have e3 := sgn_some (z := u.z) (v := tb n) (by omega)
    dsimp only
    rw [ks_eq (by omega), e1, e2, e3]
    simp only [abs_le] at b1 z1
    dsimp only [Option.bind_eq_bind, Option.bind_some] at b1 z1 ⊢
    rw [i64_some (by omega) (by omega), i64_some (by omega) (by omega), i64_some (by omega) (by omega)]
    rfl

theorem roundOut_some {x : Int} (h : |x| ≤ 2 ^ 63 - 2 ^ 32 + 400) :
    ∃ a, roundOut x = some a ∧ |a| ≤ 2 ^ 31 - 1 ∧ |(a : ℝ) - x / 2 ^ 32| ≤ 1 / 2 := by
  rw [abs_le] at h
  refine ⟨(x + 2 ^ 31) / 2 ^ 32, ?_, ?_, ?_⟩
  · unfold roundOut
    rw [i64_some (by omega) (by omega)]
    exact i32_some (by omega) (by omega)
  · rw [abs_le]; omega
  · have h1 := Int.mul_ediv_add_emod (x + 2 ^ 31) (2 ^ 32)
    have h2 := Int.emod_nonneg (x + 2 ^ 31) (show (2 ^ 32 : Int) ≠ 0 by norm_num)
    have h3 := Int.emod_lt_of_pos (x + 2 ^ 31) (show (0 : Int) < 2 ^ 32 by norm_num)
    generalize (x + 2 ^ 31) / 2 ^ 32 = q at *
    generalize (x + 2 ^ 31) % 2 ^ 32 = r at *
    have e : x = 2 ^ 32 * q + r - 2 ^ 31 := by omega
    have h2' : (0 : ℝ) ≤ r := by exact_mod_cast h2
    have h3' : (r : ℝ) < 2 ^ 32 := by exact_mod_cast h3
    rw [e]
    push_cast
    rw [abs_le]
    have e2 : (4294967296 * (q : ℝ) + r - 2147483648) / 2 ^ 32 = q + r / 2 ^ 32 - 1 / 2 := by
      norm_num; ring
    rw [e2]
    have h4 : (0 : ℝ) ≤ r / 2 ^ 32 := by positivity
    have h5 : (r : ℝ) / 2 ^ 32 ≤ 1 := by rw [div_le_one (by norm_num)]; exact h3'.le
    constructor <;> linarith

end CE.Cordic
