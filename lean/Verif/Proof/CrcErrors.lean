import Verif.Spec.CrcErrors
import Verif.Proof.CrcPoly
import Verif.Proof.Gf2
import Mathlib.RingTheory.AdjoinRoot
import Mathlib.GroupTheory.OrderOfElement
import Mathlib.NumberTheory.LucasLehmer
/-! The order of `x` modulo the Castagnoli polynomial, and polynomials with few terms. -/
namespace CE.Crc
open Polynomial

theorem msgPoly_sum (bs : List Bool) : msgPoly bs = ∑ i ∈ Finset.range bs.length, C (bit2 (bs.getD i false)) * X ^ (bs.length - 1 - i) := by
  induction bs with
  | nil => simp [msgPoly]
  | cons b bs ih =>
    rw [msgPoly_cons, ih, List.length_cons, Finset.sum_range_succ', add_comm]
    congr 1
    apply Finset.sum_congr rfl
    intro i hi
    have := Finset.mem_range.1 hi
    rw [List.getD_cons_succ]
    congr 2
    omega

theorem msgPoly_diff (a b : List Bool) (hl : a.length = b.length) : msgPoly a - msgPoly b =
    ∑ i ∈ (Finset.range a.length).filter (fun i => a.getD i false ≠ b.getD i false), X ^ (a.length - 1 - i) := by
  rw [msgPoly_sum, msgPoly_sum, ← hl, ← Finset.sum_sub_distrib, Finset.sum_filter]
  apply Finset.sum_congr rfl
  intro i _
  rw [← sub_mul, ← C_sub]
  cases a.getD i false <;> cases b.getD i false <;> simp [bit2]

theorem flatMap_getD (m : List (BitVec 8)) (i : Nat) (hi : i < 8 * m.length) : (m.flatMap bitsOf).getD i false = bitAt m i := by
  induction m generalizing i with
  | nil => simp at hi
  | cons x m ih =>
    have h8 : (bitsOf x).length = 8 := by simp [bitsOf]
    rw [List.flatMap_cons]
    by_cases h : i < 8
    · rw [List.getD_append _ _ _ _ (by omega)]
      unfold bitAt
      rw [show i / 8 = 0 by omega, show i % 8 = i by omega]
      simp [bitsOf, h]
    · rw [List.getD_append_right _ _ _ _ (by omega), h8, ih _ (by simp at hi; omega)]
      unfold bitAt
      rw [show i / 8 = (i - 8) / 8 + 1 by omega, show i % 8 = (i - 8) % 8 by omega]
      simp

theorem flatMap_length (m : List (BitVec 8)) : (m.flatMap bitsOf).length = 8 * m.length := by
  induction m with
  | nil => rfl
  | cons x m ih => rw [List.flatMap_cons, List.length_append, ih, List.length_cons]; simp [bitsOf]; omega

theorem diff_errors (a b : List (BitVec 8)) (hl : a.length = b.length) :
    msgPoly (a.flatMap bitsOf) - msgPoly (b.flatMap bitsOf) = ∑ i ∈ errors a b, X ^ (8 * a.length - 1 - i) := by
  rw [msgPoly_diff _ _ (by rw [flatMap_length, flatMap_length, hl]), flatMap_length]
  apply Finset.sum_congr _ fun _ _ => rfl
  unfold errors
  apply Finset.filter_congr
  intro i hi
  have := Finset.mem_range.1 hi
  rw [flatMap_getD _ _ this, flatMap_getD _ _ (by omega)]

/-- an odd number of terms is not divisible by a polynomial that vanishes at 1 -/
theorem odd_not_dvd {G : (ZMod 2)[X]} (hG : G.eval 1 = 0) (s : Finset Nat) (f : Nat → Nat) (hs : Odd s.card) :
    ¬ G ∣ ∑ i ∈ s, X ^ f i := by
  rintro ⟨q, h⟩
  have := congrArg (eval 1) h
  rw [eval_finset_sum, eval_mul, hG, zero_mul] at this
  simp only [eval_pow, eval_X, one_pow, Finset.sum_const, nsmul_eq_mul, mul_one] at this
  rw [ZMod.natCast_eq_zero_iff] at this
  obtain ⟨k, hk⟩ := hs
  omega

theorem gen_explicit : genPoly crc32cPoly =
    X ^ 32 + X ^ 28 + X ^ 27 + X ^ 26 + X ^ 25 + X ^ 23 + X ^ 22 + X ^ 20 + X ^ 19 + X ^ 18 + X ^ 14 +
      X ^ 13 + X ^ 11 + X ^ 10 + X ^ 9 + X ^ 8 + X ^ 6 + 1 := by
  have h : ∀ i, i < 32 → crc32cPoly.getLsbD (31 - i) =
      decide (i ∈ [28, 27, 26, 25, 23, 22, 20, 19, 18, 14, 13, 11, 10, 9, 8, 6, 0]) := by decide
  have e : regPoly crc32cPoly = ∑ i ∈ Finset.range 32,
      C (bit2 (decide (i ∈ [28, 27, 26, 25, 23, 22, 20, 19, 18, 14, 13, 11, 10, 9, 8, 6, 0]))) * X ^ i := by
    unfold regPoly
    exact Finset.sum_congr rfl fun i hi => by rw [h i (Finset.mem_range.mp hi)]
  rw [genPoly, e]
  simp only [Finset.sum_range_succ, Finset.sum_range_zero]
  simp [bit2]
  ring

theorem gen_one : (genPoly crc32cPoly).eval 1 = 0 := by
  rw [gen_explicit]
  simp only [eval_add, eval_pow, eval_X, eval_one, one_pow]
  decide

theorem root_two (G : (ZMod 2)[X]) (x : AdjoinRoot G) : x + x = 0 := by
  rw [← two_mul, ← map_ofNat (AdjoinRoot.mk G) 2]
  have : (OfNat.ofNat 2 : (ZMod 2)[X]) = 0 := two_eq_zero'
  rw [this, map_zero, zero_mul]

theorem root_ev {R : Type} [CommRing R] (t : R) : CE.Gf2.ev t 33 0x11EDC6F41 =
    t ^ 32 + t ^ 28 + t ^ 27 + t ^ 26 + t ^ 25 + t ^ 23 + t ^ 22 + t ^ 20 + t ^ 19 + t ^ 18 + t ^ 14 +
      t ^ 13 + t ^ 11 + t ^ 10 + t ^ 9 + t ^ 8 + t ^ 6 + 1 := by
  simp only [CE.Gf2.ev]
  norm_num
  ring

theorem root_gen (G : (ZMod 2)[X]) (hG : genPoly crc32cPoly = G) : CE.Gf2.ev (AdjoinRoot.root G) 33 0x11EDC6F41 = 0 := by
  have e : AdjoinRoot.mk G G = 0 := AdjoinRoot.mk_self
  rw [gen_explicit] at hG
  have e2 := congrArg (AdjoinRoot.mk G) hG
  rw [e] at e2
  simp only [map_add, map_pow, map_one, AdjoinRoot.mk_X] at e2
  rw [root_ev, e2]

theorem root_pow (G : (ZMod 2)[X]) (n : Nat) : AdjoinRoot.root G ^ n = 1 ↔ G ∣ X ^ n - 1 := by
  rw [← AdjoinRoot.mk_eq_zero, map_sub, map_pow, AdjoinRoot.mk_X, map_one, sub_eq_zero]

theorem prime31 : Nat.Prime 2147483647 := by
  have := lucas_lehmer_sufficiency 31 (by norm_num) (by norm_num)
  norm_num [mersenne] at this
  exact this

theorem pow_table : CE.Gf2.pow 32 0x11EDC6F41 31 2 2147483647 = 1 := by decide +kernel

theorem root_order_of (G : (ZMod 2)[X]) (hG : genPoly crc32cPoly = G) (N : Nat) (hp : Nat.Prime N) (hN : N < 2 ^ 31)
    (ht : CE.Gf2.pow 32 0x11EDC6F41 31 2 N = 1) : orderOf (AdjoinRoot.root G) = N := by
  haveI : Fact (Nat.Prime N) := ⟨hp⟩
  apply orderOf_eq_prime
  · have h := CE.Gf2.ev_pow (AdjoinRoot.root G) 32 0x11EDC6F41 (root_gen G hG) (by norm_num) (by decide +kernel) (root_two G) (by norm_num) 31 2 N (by norm_num) hN
    rw [CE.Gf2.ev_two _ _ (by norm_num), ht, CE.Gf2.ev_one _ _ (by norm_num)] at h
    exact h.symm
  · intro h
    have : AdjoinRoot.root G ^ 1 = 1 := by rw [pow_one]; exact h
    rw [root_pow, pow_one] at this
    have hd : (X - 1 : (ZMod 2)[X]).degree < G.degree := by
      rw [← hG, genPoly_degree]
      have : (X - 1 : (ZMod 2)[X]).degree = 1 := by
        have := degree_X_sub_C (1 : ZMod 2)
        simpa using this
      rw [this]; decide
    have := eq_zero_of_dvd_of_degree_lt this hd
    have h1 := congrArg (fun f => f.coeff 1) this
    simp [coeff_one] at h1

theorem root_order (G : (ZMod 2)[X]) (hG : genPoly crc32cPoly = G) : orderOf (AdjoinRoot.root G) = 2147483647 :=
  root_order_of G hG _ prime31 (by norm_num) pow_table

/-- two terms: divisible exactly when the distance is a multiple of the order -/
theorem two_dvd {i j : Nat} (h : i ≤ j) : genPoly crc32cPoly ∣ X ^ j + X ^ i ↔ 2147483647 ∣ j - i := by
  have e : (X ^ j + X ^ i : (ZMod 2)[X]) = (X ^ (j - i) - 1) * X ^ i := by
    have e2 : (X ^ j : (ZMod 2)[X]) = X ^ (j - i) * X ^ i := by rw [← pow_add]; congr 1; omega
    rw [e2]
    linear_combination (X ^ i) * two_eq_zero'
  have hc : IsCoprime (genPoly crc32cPoly) (X ^ i) := by
    have := genPoly_coprime crc32cPoly (by decide)
    exact IsCoprime.pow_right ((IsCoprime.pow_right_iff (by norm_num)).1 this)
  rw [e]
  constructor
  · intro h
    rw [← root_order _ rfl, orderOf_dvd_iff_pow_eq_one, root_pow]
    exact hc.dvd_of_dvd_mul_right h
  · intro h
    rw [← root_order _ rfl, orderOf_dvd_iff_pow_eq_one, root_pow] at h
    exact h.mul_right _

end CE.Crc
