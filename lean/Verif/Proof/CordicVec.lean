import Verif.Proof.Cordic
import Mathlib.Analysis.SpecialFunctions.Complex.Arg
/-!
# The iteration of `cordic::vector`: the vector is turned onto the positive x axis
-/
namespace CE.Cordic
open Finset Complex

/-- one iteration without overflow checks -/
def vecStepP (i : Nat) (s : St) : St :=
  ⟨s.x + sig s.y * s.y / 2 ^ i, s.y - sig s.y * s.x / 2 ^ i, s.z + sig s.y * tb i⟩

/-- `n` iterations without overflow checks -/
def vecP : Nat → St → St
  | 0, s => s
  | n + 1, s => vecStepP n (vecP n s)

/-- the angle turned back by the first `n` steps -/
noncomputable def psi (s : St) (n : Nat) : ℝ :=
  ∑ i ∈ range n, (sig (vecP i s).y : ℝ) * Real.arctan (1 / 2 ^ i)

theorem neg_sig_real (z : Int) : -(sig z : ℝ) = 1 ∨ -(sig z : ℝ) = -1 := by
  rcases sig_cases z with h | h <;> simp [h]

theorem vstep_w (s : St) (i : Nat) :
    ‖(vecStepP i s).w - s.w * ⟨1, -(sig s.y : ℝ) * (1 / 2 ^ i)⟩‖ ≤ 2 := by
  obtain ⟨f, f0, f1, hf⟩ := floor_err (sig s.y * s.y) i
  obtain ⟨g, g0, g1, hg⟩ := floor_err (sig s.y * s.x) i
  have : (vecStepP i s).w - s.w * ⟨1, -(sig s.y : ℝ) * (1 / 2 ^ i)⟩ = ⟨-f, g⟩ := by
    apply Complex.ext
    · simp only [vecStepP, St.w, sub_re, mul_re]
      push_cast [hf]; ring
    · simp only [vecStepP, St.w, sub_im, mul_im]
      push_cast [hg]; ring
  rw [this]
  refine (Complex.norm_le_abs_re_add_abs_im _).trans ?_
  simp only [abs_neg, abs_of_nonneg f0, abs_of_nonneg g0]
  linarith

theorem vloop_w (s : St) (n : Nat) :
    ‖(vecP n s).w - s.w * (gain n * exp (I * ((-psi s n : ℝ) : ℂ)))‖ ≤ errB n := by
  induction n with
  | zero => simp [gain, psi, errB, vecP]
  | succ n ih =>
    have h1 := vstep_w (vecP n s) n
    have ht := turn_eq (1 / 2 ^ n) (neg_sig_real (vecP n s).y)
    have hn := turn_norm (1 / 2 ^ n) (by positivity) (neg_sig_real (vecP n s).y)
    have hm : s.w * (gain (n + 1) * exp (I * ((-psi s (n + 1) : ℝ) : ℂ))) =
        s.w * (gain n * exp (I * ((-psi s n : ℝ) : ℂ))) * ⟨1, -(sig (vecP n s).y : ℝ) * (1 / 2 ^ n)⟩ := by
      rw [ht]
      unfold gain psi
      rw [prod_range_succ, sum_range_succ, ofReal_mul, neg_add, ofReal_add, mul_add, exp_add, neg_mul]
      ring
    rw [hm]
    set T : ℂ := ⟨1, -(sig (vecP n s).y : ℝ) * (1 / 2 ^ n)⟩
    set W := s.w * (gain n * exp (I * ((-psi s n : ℝ) : ℂ)))
    have : (vecP (n + 1) s).w - W * T = ((vecStepP n (vecP n s)).w - (vecP n s).w * T) +
        ((vecP n s).w - W) * T := by
      show (vecStepP n (vecP n s)).w - W * T = _
      ring
    rw [this]
    refine (norm_add_le _ _).trans ?_
    rw [norm_mul]
    have hz : 0 ≤ errB n := le_trans (norm_nonneg _) ih
    have := mul_le_mul ih hn (norm_nonneg _) hz
    show _ ≤ errB n * (1 + 1 / 2 ^ n) + 2
    linarith

theorem vloop_norm (s : St) (n : Nat) (hn : n ≤ 32) :
    |‖(vecP n s).w‖ - ‖s.w‖ * gain n| ≤ 400 := by
  have h1 := (vloop_w s n).trans (errB_le hn)
  have hT : ‖s.w * (gain n * exp (I * ((-psi s n : ℝ) : ℂ)))‖ = ‖s.w‖ * gain n := by
    rw [norm_mul, norm_mul, mul_comm I, norm_exp_ofReal_mul_I, mul_one, norm_real, Real.norm_eq_abs,
      abs_of_nonneg (by linarith [(gain_mono n).1])]
  rw [← hT]
  exact (abs_norm_sub_norm_le _ _).trans h1

/-- adding a short vector changes the angle little -/
theorem perturb {u e : ℂ} {γ L : ℝ} (hL : 10 ^ 9 ≤ L) (hu : L ≤ ‖u‖) (he : ‖e‖ ≤ 2)
    (hγ : u = ‖u‖ * exp (I * γ)) :
    ∃ γ' : ℝ, u + e = ‖u + e‖ * exp (I * γ') ∧ |γ' - γ| ≤ 3.15 / L := by
  have hL0 : 0 < L := by norm_num at hL; linarith
  have hu0 : 0 < ‖u‖ := lt_of_lt_of_le hL0 hu
  have hune : u ≠ 0 := norm_pos_iff.1 hu0
  set ε := e / u with hε
  have hεn : ‖ε‖ ≤ 2 / L := by
    rw [hε, norm_div]
    exact div_le_div₀ (by norm_num) he hL0 hu
  have hε1 : ‖ε‖ ≤ 1 / 10 ^ 6 := by
    refine hεn.trans ?_
    rw [div_le_div_iff₀ hL0 (by norm_num)]
    norm_num at hL ⊢
    linarith
  set q := 1 + ε with hq
  have hue : u + e = u * q := by rw [hq, hε]; field_simp
  have hre : 0 ≤ q.re := by
    have := abs_re_le_norm ε
    rw [abs_le] at this
    rw [hq]; simp only [add_re, one_re]
    norm_num at hε1
    linarith
  have hqn : 1 - 1 / 10 ^ 6 ≤ ‖q‖ := by
    have := norm_sub_norm_le (1 : ℂ) (-ε)
    rw [norm_one, norm_neg, sub_neg_eq_add] at this
    linarith
  have harg : |arg q| ≤ 3.15 / L := by
    have h1 := Real.mul_abs_le_abs_sin (abs_arg_le_pi_div_two_iff.2 hre)
    rw [sin_arg] at h1
    have him : |q.im / ‖q‖| ≤ 2 / L / (1 - 1 / 10 ^ 6) := by
      rw [abs_div, abs_norm]
      apply div_le_div₀ (by positivity) _ (by norm_num) hqn
      have : q.im = ε.im := by rw [hq]; simp
      rw [this]
      exact (abs_im_le_norm ε).trans hεn
    have h2 := h1.trans him
    have p2 := Real.pi_lt_d20
    have p0 := Real.pi_pos
    have h3 : |arg q| ≤ Real.pi / 2 * (2 / L / (1 - 1 / 10 ^ 6)) := by
      have : |arg q| = Real.pi / 2 * (2 / Real.pi * |arg q|) := by field_simp
      rw [this]
      gcongr
    refine h3.trans ?_
    have e : Real.pi / 2 * (2 / L / (1 - 1 / 10 ^ 6)) = Real.pi / (1 - 1 / 10 ^ 6) / L := by
      field_simp
    rw [e]
    apply div_le_div_of_nonneg_right _ hL0.le
    rw [div_le_iff₀ (by norm_num)]
    norm_num at p2 ⊢
    linarith
  refine ⟨γ + arg q, ?_, by rwa [add_sub_cancel_left]⟩
  rw [hue, norm_mul]
  conv_lhs => rw [hγ, ← norm_mul_exp_arg_mul_I q]
  push_cast
  rw [mul_add, exp_add, mul_comm I (arg q : ℂ)]
  ring

/-- angle units to radians -/
noncomputable def c62 : ℝ := Real.pi / 2 ^ 62

theorem c62_pos : 0 < c62 := by unfold c62; positivity

theorem restB_facts : ∀ n ≤ 32, 0 ≤ restB n ∧ restB n ≤ 2559049316771792589 ∧ 2305843009213693952 ≤ restB 0 := by
  decide +kernel

/-- the angle of the vector after `n` steps -/
theorem vangle (s : St) (hx : 0 ≤ s.x) {L : ℝ} (hL : 10 ^ 9 ≤ L) (hw : L + 400 ≤ ‖s.w‖)
    (n : Nat) (hn : n ≤ 32) :
    ∃ β : ℝ, (vecP n s).w = ‖(vecP n s).w‖ * exp (I * β) ∧
      |β| ≤ restB n * c62 + n * (1 / 2 ^ 50 + 3.15 / L) ∧
      |β + psi s n - arg s.w| ≤ n * (3.15 / L) := by
  have hL0 : 0 < L := by norm_num at hL; linarith
  have hp := Real.pi_pos
  have hp2 := Real.pi_gt_d20
  have hc := c62_pos
  induction n with
  | zero =>
    refine ⟨arg s.w, ?_, ?_, ?_⟩
    · rw [mul_comm I]; exact (norm_mul_exp_arg_mul_I _).symm
    · have h1 : |arg s.w| ≤ Real.pi / 2 := abs_arg_le_pi_div_two_iff.2 (by
        show (0 : ℝ) ≤ (s.x : ℝ); exact_mod_cast hx)
      have h2 := (restB_facts 0 (by omega)).2.2
      have h3 : (2305843009213693952 : ℝ) ≤ restB 0 := by exact_mod_cast h2
      have h4 : Real.pi / 2 = 2305843009213693952 * c62 := by unfold c62; norm_num; ring
      rw [h4] at h1
      have := mul_le_mul_of_nonneg_right h3 hc.le
      simp only [Nat.cast_zero, zero_mul, add_zero]
      linarith
    · simp [psi]
  | succ n ih =>
    obtain ⟨β, e1, e2, e3⟩ := ih (by omega)
    have hN := vloop_norm s n (by omega)
    have hg := (gain_mono n).1
    have hwn : L ≤ ‖(vecP n s).w‖ := by
      rw [abs_le] at hN
      have : ‖s.w‖ * 1 ≤ ‖s.w‖ * gain n := mul_le_mul_of_nonneg_left hg (norm_nonneg _)
      linarith
    have hst := vstep_w (vecP n s) n
    have ht := turn_eq (1 / 2 ^ n) (neg_sig_real (vecP n s).y)
    set u := vecP n s with hu
    set T : ℂ := ⟨1, -(sig u.y : ℝ) * (1 / 2 ^ n)⟩ with hT
    set a := Real.arctan (1 / 2 ^ n) with ha
    have hsq : 1 ≤ √(1 + (1 / 2 ^ n : ℝ) ^ 2) := by
      rw [Real.one_le_sqrt]
      have : (0 : ℝ) ≤ (1 / 2 ^ n) ^ 2 := by positivity
      linarith
    set g := √(1 + (1 / 2 ^ n : ℝ) ^ 2) with hgd
    have hTn : ‖T‖ = g := by
      rw [ht, norm_mul, mul_comm I, norm_exp_ofReal_mul_I, mul_one, norm_real, Real.norm_eq_abs,
        abs_of_nonneg (by linarith)]
    have hU : u.w * T = ‖u.w * T‖ * exp (I * ((β - sig u.y * a : ℝ) : ℂ)) := by
      rw [norm_mul, hTn]
      conv_lhs => rw [e1, ht]
      push_cast
      rw [mul_sub, sub_eq_add_neg, exp_add]
      rw [show I * (-(sig u.y : ℂ) * (a : ℂ)) = -(I * ((sig u.y : ℂ) * (a : ℂ))) by ring]
      ring
    have hUn : L ≤ ‖u.w * T‖ := by
      rw [norm_mul, hTn]
      nlinarith [norm_nonneg u.w]
    obtain ⟨γ, g1, g2⟩ := perturb hL hUn hst hU
    have hsum : u.w * T + ((vecStepP n u).w - u.w * T) = (vecStepP n u).w := by ring
    rw [hsum] at g1
    have hδ : 0 < 3.15 / L := by positivity
    set δ := 3.15 / L with hδd
    refine ⟨γ, g1, ?_, ?_⟩
    · -- sign of the step
      have hta := tb_arctan (show n < 32 by omega)
      rw [← ha] at hta
      change |a - tb n * c62| ≤ _ at hta
      obtain ⟨r1, r2, r3⟩ := restB_step n (by omega)
      obtain ⟨f1, f2, -⟩ := restB_facts n (by omega)
      have r1' : (tb n : ℝ) ≤ restB (n + 1) := by exact_mod_cast r1
      have r2' : (restB n : ℝ) = restB (n + 1) + tb n := by exact_mod_cast r2
      have f2' : (restB n : ℝ) ≤ 2559049316771792589 := by exact_mod_cast f2
      have hR : (restB n : ℝ) * c62 = restB (n + 1) * c62 + tb n * c62 := by rw [r2']; ring
      have hm1 := mul_le_mul_of_nonneg_right r1' hc.le
      have hm2 := mul_le_mul_of_nonneg_right f2' hc.le
      have hδs : δ ≤ 1 / 10 ^ 3 := by
        rw [hδd, div_le_div_iff₀ hL0 (by norm_num)]
        norm_num at hL ⊢; linarith
      have hn' : (n : ℝ) ≤ 32 := by exact_mod_cast (show n ≤ 32 by omega)
      have hβπ : |β| < Real.pi := by
        have h1 : (2559049316771792589 : ℝ) * c62 ≤ 0.6 * Real.pi := by
          unfold c62; rw [← mul_div_assoc, div_le_iff₀ (by norm_num)]; nlinarith
        have h2 : (n : ℝ) * (1 / 2 ^ 50 + δ) ≤ 32 * (1 / 2 ^ 50 + 1 / 10 ^ 3) := by
          apply mul_le_mul hn' _ (by positivity) (by norm_num)
          linarith
        norm_num at h2 hp2
        linarith
      have hy : (u.y : ℝ) = ‖u.w‖ * Real.sin β := by
        have := congrArg im e1
        rw [mul_comm I, exp_mul_I, ← ofReal_cos, ← ofReal_sin] at this
        generalize Real.cos β = c at *
        generalize Real.sin β = d at *
        simpa [St.w] using this
      have hpos : 0 < ‖u.w‖ := lt_of_lt_of_le hL0 hwn
      have hpn : ((n + 1 : ℕ) : ℝ) * (1 / 2 ^ 50 + δ) = n * (1 / 2 ^ 50 + δ) + 1 / 2 ^ 50 + δ := by
        push_cast; ring
      rw [hpn]
      have hnn : 0 ≤ (n : ℝ) * (1 / 2 ^ 50 + δ) := by positivity
      rw [abs_le] at e2 g2 hta ⊢
      rw [abs_lt] at hβπ
      rcases lt_or_ge u.y 0 with hlt | hge
      · have hs : (sig u.y : ℝ) = -1 := by simp [sig, hlt]
        have hβ : β < 0 := by
          by_contra hc
          have h1 := Real.sin_nonneg_of_nonneg_of_le_pi (not_lt.1 hc) hβπ.2.le
          have h2 : (0 : ℝ) ≤ u.y := by rw [hy]; positivity
          have : (0 : Int) ≤ u.y := by exact_mod_cast h2
          omega
        rw [hs] at g2
        constructor <;> linarith
      · have hs : (sig u.y : ℝ) = 1 := by simp [sig, not_lt.2 hge]
        have hβ : 0 ≤ β := by
          by_contra hc
          have h1 := Real.sin_neg_of_neg_of_neg_pi_lt (not_le.1 hc) hβπ.1
          have h2 : (u.y : ℝ) < 0 := by rw [hy]; exact mul_neg_of_pos_of_neg hpos h1
          have : u.y < 0 := by exact_mod_cast h2
          omega
        rw [hs] at g2
        constructor <;> linarith
    · have hps : psi s (n + 1) = psi s n + sig u.y * a := by
        unfold psi; rw [sum_range_succ]
      rw [hps]
      have e : γ + (psi s n + sig u.y * a) - arg s.w =
          (β + psi s n - arg s.w) + (γ - (β - sig u.y * a)) := by ring
      rw [e]
      refine (abs_add_le _ _).trans ?_
      push_cast
      linarith

theorem psi_z (s : St) (n : Nat) (hn : n ≤ 32) :
    |psi s n - (((vecP n s).z : ℝ) - s.z) * c62| ≤ (n : ℝ) / 2 ^ 50 := by
  induction n with
  | zero => simp [psi, vecP]
  | succ n ih =>
    have ih := ih (by omega)
    have ht := tb_arctan (show n < 32 by omega)
    change |_ - _ * c62| ≤ _ at ht
    have e : psi s (n + 1) - (((vecP (n + 1) s).z : ℝ) - s.z) * c62 =
        (psi s n - (((vecP n s).z : ℝ) - s.z) * c62) +
        (sig (vecP n s).y : ℝ) * (Real.arctan (1 / 2 ^ n) - tb n * c62) := by
      unfold psi
      rw [sum_range_succ]
      show _ - ((((vecP n s).z + sig (vecP n s).y * tb n : Int) : ℝ) - (s.z : ℝ)) * _ = _
      push_cast
      ring
    rw [e]
    refine (abs_add_le _ _).trans ?_
    have : |(sig (vecP n s).y : ℝ) * (Real.arctan (1 / 2 ^ n) - tb n * c62)| ≤ 1 / 2 ^ 50 := by
      rw [abs_mul]
      rcases sig_real (vecP n s).y with h | h <;> simpa [h] using ht
    push_cast
    rw [add_div]
    linarith

/-- no overflow -/
theorem vloop_checked (s : St) (hw : ‖s.w‖ ≤ (2 ^ 31 - 1) * 2608131496) (hz : |s.z| ≤ 2 ^ 62)
    (n : Nat) (hn : n ≤ 32) :
    vecLoop ks n s = some (vecP n s) ∧ |(vecP n s).x| ≤ 2 ^ 63 - 2 ^ 32 + 400 ∧
      |(vecP n s).y| ≤ 2 ^ 63 - 2 ^ 32 + 400 ∧ |(vecP n s).z| + restB n ≤ 2 ^ 62 + restB 0 := by
  have hxy : |(vecP n s).x| ≤ 2 ^ 63 - 2 ^ 32 + 400 ∧ |(vecP n s).y| ≤ 2 ^ 63 - 2 ^ 32 + 400 := by
    have h1 := vloop_norm s n hn
    have h3 : gain n ≤ gain 32 := monotone_nat_of_le_succ (fun n => (gain_mono n).2) hn
    have h4 := (gain_mono n).1
    have g2 := gain_bounds.2
    have h2 : 2608131496 * gain 32 ≤ 2 ^ 32 := by
      rw [div_mul_eq_mul_div, div_le_one (by norm_num)] at g2
      exact g2
    have h5 : ‖s.w‖ * gain n ≤ (2 ^ 31 - 1) * 2608131496 * gain n :=
      mul_le_mul_of_nonneg_right hw (by linarith)
    have h6 : ‖(vecP n s).w‖ ≤ 2 ^ 63 - 2 ^ 32 + 400 := by
      rw [abs_le] at h1
      norm_num at *
      linarith
    have r1 := (Complex.abs_re_le_norm _).trans h6
    have r2 := (Complex.abs_im_le_norm _).trans h6
    change |((vecP n s).x : ℝ)| ≤ _ at r1
    change |((vecP n s).y : ℝ)| ≤ _ at r2
    norm_num at r1 r2 ⊢
    exact ⟨by exact_mod_cast r1, by exact_mod_cast r2⟩
  suffices h : vecLoop ks n s = some (vecP n s) ∧ |(vecP n s).z| + restB n ≤ 2 ^ 62 + restB 0 from
    ⟨h.1, hxy.1, hxy.2, h.2⟩
  induction n with
  | zero => exact ⟨rfl, by show |s.z| + _ ≤ _; omega⟩
  | succ n ih =>
    have hxy0 := (show |(vecP n s).x| ≤ 2 ^ 63 - 2 ^ 32 + 400 ∧ |(vecP n s).y| ≤ 2 ^ 63 - 2 ^ 32 + 400 by
      have h1 := vloop_norm s n (by omega)
      have h3 : gain n ≤ gain 32 := monotone_nat_of_le_succ (fun n => (gain_mono n).2) (by omega)
      have h4 := (gain_mono n).1
      have g2 := gain_bounds.2
      have h2 : 2608131496 * gain 32 ≤ 2 ^ 32 := by
        rw [div_mul_eq_mul_div, div_le_one (by norm_num)] at g2
        exact g2
      have h5 : ‖s.w‖ * gain n ≤ (2 ^ 31 - 1) * 2608131496 * gain n :=
        mul_le_mul_of_nonneg_right hw (by linarith)
      have h6 : ‖(vecP n s).w‖ ≤ 2 ^ 63 - 2 ^ 32 + 400 := by
        rw [abs_le] at h1
        norm_num at *
        linarith
      have r1 := (Complex.abs_re_le_norm _).trans h6
      have r2 := (Complex.abs_im_le_norm _).trans h6
      change |((vecP n s).x : ℝ)| ≤ _ at r1
      change |((vecP n s).y : ℝ)| ≤ _ at r2
      norm_num at r1 r2 ⊢
      exact ⟨by exact_mod_cast r1, by exact_mod_cast r2⟩)
    obtain ⟨i1, i2⟩ := ih (by omega) hxy0
    obtain ⟨q1, q2, q3⟩ := restB_step n (by omega)
    obtain ⟨f1, -, -⟩ := restB_facts n (by omega)
    obtain ⟨f1', -, -⟩ := restB_facts (n + 1) (by omega)
    obtain ⟨-, f2, -⟩ := restB_facts 0 (by omega)
    have ht : ∀ n < 32, |tb n| < 2 ^ 62 := by decide +kernel
    have t0 := ht n (by omega)
    have hz1 : |(vecStepP n (vecP n s)).z| + restB (n + 1) ≤ 2 ^ 62 + restB 0 := by
      show |(vecP n s).z + sig (vecP n s).y * tb n| + _ ≤ _
      have := abs_add_le (vecP n s).z (sig (vecP n s).y * tb n)
      have h7 : |sig (vecP n s).y * tb n| ≤ tb n := by
        rw [abs_mul, abs_of_nonneg q3]
        rcases sig_cases (vecP n s).y with h | h <;> simp [h]
      omega
    refine ⟨?_, hz1⟩
    unfold vecLoop
    rw [i1]
    show vecStep ks n (vecP n s) = some (vecStepP n (vecP n s))
    change |(vecStepP n (vecP n s)).x| ≤ _ ∧ |(vecStepP n (vecP n s)).y| ≤ _ at hxy
    clear i1 ih
    generalize vecP n s = u at *
    unfold vecStep
    unfold vecStepP at hxy hz1 ⊢
    obtain ⟨b0x, b0y⟩ := hxy0
    obtain ⟨b1x, b1y⟩ := hxy
    have e1 := sgn_some (z := u.y) (v := u.y) (by omega)
    have e2 := sgn_some (z := u.y) (v := u.x) (by omega)
    have e3 := sgn_some (z := u.y) (v := tb n) (by omega)
    dsimp only
    rw [ks_eq (by omega), e1, e2, e3]
    have hz2 : |u.z + sig u.y * tb n| ≤ 2 ^ 62 + 2559049316771792589 := by
      change |u.z + sig u.y * tb n| + _ ≤ _ at hz1; omega
    dsimp only at b1x b1y
    rw [abs_le] at b1x b1y hz2
    dsimp only [Option.bind_eq_bind, Option.bind_some]
    rw [i64_some (by omega) (by omega), i64_some (by omega) (by omega), i64_some (by omega) (by omega)]
    rfl

end CE.Cordic
