import Verif.Proof.Crc
import Verif.Spec.CrcPoly
import Mathlib.Algebra.Polynomial.BigOperators
import Mathlib.Algebra.Polynomial.Degree.Lemmas
import Mathlib.Algebra.Polynomial.Monic
import Mathlib.Algebra.Polynomial.Div
import Mathlib.Algebra.Polynomial.FieldDivision
import Mathlib.Algebra.Field.ZMod
import Mathlib.RingTheory.Polynomial.Basic
import Mathlib.Tactic.LinearCombination
namespace CE.Crc
open Polynomial

theorem bit2_xor (a b : Bool) : bit2 (a ^^ b) = bit2 a + bit2 b := by
  cases a <;> cases b <;> decide

theorem bit2_inj {a b : Bool} (h : bit2 a = bit2 b) : a = b := by
  revert a b; decide

theorem two_eq_zero' : (2 : (ZMod 2)[X]) = 0 := by
  have : (2 : ZMod 2) = 0 := by decide
  rw [← C_ofNat, this, C_0]

theorem regPoly_xor (v w : U32) : regPoly (v ^^^ w) = regPoly v + regPoly w := by
  simp only [regPoly, ← Finset.sum_add_distrib]
  apply Finset.sum_congr rfl
  intro i _
  rw [BitVec.getLsbD_xor, bit2_xor, C_add, add_mul]

theorem regPoly_zero : regPoly 0 = 0 := by
  simp [regPoly, bit2]

theorem regPoly_coeff (v : U32) (i : Nat) (hi : i < 32) :
    (regPoly v).coeff i = bit2 (v.getLsbD (31 - i)) := by
  simp only [regPoly, finset_sum_coeff, coeff_C_mul, coeff_X_pow]
  rw [Finset.sum_eq_single i]
  · simp
  · intro j _ hj; simp [Ne.symm hj]
  · intro h; simp at h; omega

theorem regPoly_inj {v w : U32} (h : regPoly v = regPoly w) : v = w := by
  apply BitVec.eq_of_getLsbD_eq
  intro i hi
  have : (regPoly v).coeff (31 - i) = (regPoly w).coeff (31 - i) := by rw [h]
  rw [regPoly_coeff _ _ (by omega), regPoly_coeff _ _ (by omega)] at this
  have := bit2_inj this
  rwa [show 31 - (31 - i) = i by omega] at this

theorem regPoly_degree (v : U32) : (regPoly v).degree < 32 := by
  unfold regPoly
  refine lt_of_le_of_lt (degree_sum_le _ _) ?_
  rw [Finset.sup_lt_iff (by exact WithBot.bot_lt_coe 32)]
  intro i hi
  simp only [Finset.mem_range] at hi
  refine lt_of_le_of_lt (degree_C_mul_X_pow_le i _) ?_
  exact_mod_cast hi

theorem genPoly_monic (P : U32) : (genPoly P).Monic := by
  unfold genPoly
  exact monic_X_pow_add (regPoly_degree P)

theorem genPoly_degree (P : U32) : (genPoly P).degree = 32 := by
  unfold genPoly
  rw [degree_add_eq_left_of_degree_lt]
  · simp
  · rw [degree_X_pow]; exact regPoly_degree P

theorem regPoly_shift (v : U32) :
    regPoly (v >>> 1) = X * regPoly v - C (bit2 (v.getLsbD 0)) * X ^ 32 := by
  unfold regPoly
  rw [Finset.sum_range_succ']
  have h31 : (v >>> 1).getLsbD (31 - 0) = false := by
    rw [BitVec.getLsbD_ushiftRight]; exact BitVec.getLsbD_of_ge _ _ (by omega)
  rw [h31]
  rw [Finset.sum_range_succ (n := 31), mul_add, Finset.mul_sum]
  have e : ∀ i ∈ Finset.range 31, C (bit2 ((v >>> 1).getLsbD (31 - (i + 1)))) * X ^ (i + 1) =
      X * (C (bit2 (v.getLsbD (31 - i))) * X ^ i) := by
    intro i hi
    simp only [Finset.mem_range] at hi
    rw [BitVec.getLsbD_ushiftRight, show 1 + (31 - (i + 1)) = 31 - i by omega]
    ring
  rw [Finset.sum_congr rfl e]
  rw [show bit2 false = 0 from rfl, C_0, show 31 - 31 = 0 from rfl]
  ring

theorem regPoly_step (P v : U32) (b : Bool) :
    ∃ q, regPoly (serialStep P v b) = X * regPoly v + C (bit2 b) * X ^ 32 + q * genPoly P := by
  have hx := regPoly_shift v
  have h2 := two_eq_zero'
  unfold serialStep
  by_cases hc : (v.getLsbD 0 ^^ b) = true
  · rw [if_pos hc, regPoly_xor, hx]
    refine ⟨1, ?_⟩
    have : C (bit2 (v.getLsbD 0)) + C (bit2 b) = (1 : (ZMod 2)[X]) := by
      rw [← C_add, ← bit2_xor, hc]; simp [bit2]
    unfold genPoly
    linear_combination (-X ^ 32) * this + (-X ^ 32) * h2
  · rw [if_neg hc, hx]
    refine ⟨0, ?_⟩
    have : C (bit2 (v.getLsbD 0)) + C (bit2 b) = (0 : (ZMod 2)[X]) := by
      rw [← C_add, ← bit2_xor]; simp only [Bool.not_eq_true] at hc; rw [hc]; simp [bit2]
    linear_combination (-X ^ 32) * this

theorem msgPoly_foldl (bs : List Bool) (p : (ZMod 2)[X]) :
    bs.foldl (fun p b => p * X + C (bit2 b)) p = p * X ^ bs.length + msgPoly bs := by
  induction bs generalizing p with
  | nil => simp [msgPoly]
  | cons b bs ih =>
    simp only [List.foldl_cons, List.length_cons]
    have e : msgPoly (b :: bs) = (0 * X + C (bit2 b)) * X ^ bs.length + msgPoly bs := ih _
    rw [ih, e]
    ring

theorem msgPoly_cons (b : Bool) (bs : List Bool) :
    msgPoly (b :: bs) = C (bit2 b) * X ^ bs.length + msgPoly bs := by
  rw [msgPoly, List.foldl_cons, msgPoly_foldl]; simp

theorem regPoly_serial (P v : U32) (bs : List Bool) :
    ∃ q, regPoly (serial P v bs) =
      X ^ bs.length * regPoly v + X ^ 32 * msgPoly bs + q * genPoly P := by
  induction bs generalizing v with
  | nil => exact ⟨0, by simp [serial, msgPoly]⟩
  | cons b bs ih =>
    obtain ⟨q1, h1⟩ := regPoly_step P v b
    obtain ⟨q2, h2⟩ := ih (serialStep P v b)
    refine ⟨X ^ bs.length * q1 + q2, ?_⟩
    have e : serial P v (b :: bs) = serial P (serialStep P v b) bs := rfl
    rw [e, h2, h1, msgPoly_cons, List.length_cons]
    ring

theorem genPoly_coprime (P : U32) (hP : P.getLsbD 31 = true) : IsCoprime (genPoly P) (X ^ 32) := by
  apply IsCoprime.pow_right
  have hX : Irreducible (X : (ZMod 2)[X]) := irreducible_X
  rw [isCoprime_comm, hX.coprime_iff_not_dvd, X_dvd_iff]
  unfold genPoly
  rw [coeff_add, regPoly_coeff P 0 (by omega), hP]
  simp [bit2]

theorem serial_eq_iff (P v : U32) (hP : P.getLsbD 31 = true) (a b : List Bool)
    (hl : a.length = b.length) :
    serial P v a = serial P v b ↔ genPoly P ∣ msgPoly a - msgPoly b := by
  obtain ⟨q1, h1⟩ := regPoly_serial P v a
  obtain ⟨q2, h2⟩ := regPoly_serial P v b
  have hd : regPoly (serial P v a) - regPoly (serial P v b) =
      (msgPoly a - msgPoly b) * X ^ 32 + (q1 - q2) * genPoly P := by
    rw [h1, h2, hl]; ring
  constructor
  · intro h
    rw [h, sub_self] at hd
    have : genPoly P ∣ (msgPoly a - msgPoly b) * X ^ 32 :=
      ⟨-(q1 - q2), by linear_combination -hd⟩
    exact (genPoly_coprime P hP).dvd_of_dvd_mul_right this
  · rintro ⟨r, hr⟩
    have hdvd : genPoly P ∣ regPoly (serial P v a) - regPoly (serial P v b) := by
      rw [hd, hr]; exact ⟨r * X ^ 32 + (q1 - q2), by ring⟩
    have hdeg : (regPoly (serial P v a) - regPoly (serial P v b)).degree < (genPoly P).degree := by
      rw [genPoly_degree]
      exact lt_of_le_of_lt (degree_sub_le _ _) (max_lt (regPoly_degree _) (regPoly_degree _))
    have := eq_zero_of_dvd_of_degree_lt hdvd hdeg
    exact regPoly_inj (sub_eq_zero.mp this)

end CE.Crc
