import Verif.Props.CrcErrors
import Mathlib.Dynamics.PeriodicPts.Defs

/-! # C144: zero bytes put into a message, under CRC-32C

The register fed with zero bits is a permutation of the 32-bit words.  Multiplication by `x` has
the prime order `2^31 - 1` modulo the Castagnoli polynomial, so a word either keeps its place at
every step or comes back only after a multiple of `2^31 - 1` steps. -/

open Polynomial
namespace CE.CrcZeros
open CE.Crc

/-- one zero bit -/
def feed (v : BitVec 32) : BitVec 32 := serialStep crc32cPoly v false

theorem feed_iter (k : Nat) (v : BitVec 32) : feed^[k] v = serial crc32cPoly v (List.replicate k false) := by
  induction k generalizing v with
  | zero => rfl
  | succ k ih => rw [Function.iterate_succ_apply, ih]; rfl

theorem feed_inj : Function.Injective feed := by
  intro v w h
  exact serial_inj crc32cPoly (by decide) v w [false] h

theorem zero_bits (n : Nat) : (List.replicate n (0 : BitVec 8)).flatMap bitsOf = List.replicate (8 * n) false := by
  induction n with
  | zero => rfl
  | succ n ih =>
    have e : bitsOf (0 : BitVec 8) = List.replicate 8 false := by decide
    rw [List.replicate_succ, List.flatMap_cons, ih, e, List.replicate_append_replicate]
    congr 1; omega

theorem msg_zero (k : Nat) : msgPoly (List.replicate k false) = 0 := by
  induction k with
  | zero => simp [msgPoly]
  | succ k ih => rw [List.replicate_succ, msgPoly_cons, ih]; simp [bit2]

theorem feed_order (N : Nat) (hN : orderOf (AdjoinRoot.root (genPoly crc32cPoly)) = N) (v : BitVec 32) :
    Function.IsPeriodicPt feed N v := by
  show feed^[N] v = v
  rw [feed_iter]
  obtain ⟨q, hq⟩ := regPoly_serial crc32cPoly v (List.replicate N false)
  rw [msg_zero, List.length_replicate] at hq
  obtain ⟨t, ht⟩ := (root_pow (genPoly crc32cPoly) N).1 (by
    have := pow_orderOf_eq_one (AdjoinRoot.root (genPoly crc32cPoly))
    rwa [hN] at this)
  have hd : genPoly crc32cPoly ∣ regPoly (serial crc32cPoly v (List.replicate N false)) - regPoly v :=
    ⟨t * regPoly v + q, by rw [hq]; linear_combination (regPoly v) * ht⟩
  have hdeg : (regPoly (serial crc32cPoly v (List.replicate N false)) - regPoly v).degree <
      (genPoly crc32cPoly).degree := by
    rw [genPoly_degree]
    exact lt_of_le_of_lt (degree_sub_le _ _) (max_lt (regPoly_degree _) (regPoly_degree _))
  exact regPoly_inj (sub_eq_zero.mp (eq_zero_of_dvd_of_degree_lt hd hdeg))

/-- `2^31 - 1` zero bits bring every word back -/
theorem feed_period (v : BitVec 32) : Function.IsPeriodicPt feed 2147483647 v :=
  feed_order _ (root_order _ rfl) v

/-- the two words that one zero bit leaves alone -/
theorem feed_fixed (v : BitVec 32) : feed v = v ↔ v = 0 ∨ v = 0xfca42daf#32 := by
  constructor
  · intro h
    have hb : ∀ i, i < 32 → (v.getLsbD i) = (v.getLsbD (i + 1) ^^ (v.getLsbD 0 && crc32cPoly.getLsbD i)) := by
      intro i hi
      conv_lhs => rw [← h]
      unfold feed serialStep
      cases h0 : v.getLsbD 0 <;> simp [BitVec.getLsbD_xor, BitVec.getLsbD_ushiftRight, Nat.add_comm]
    have hs : ∀ (w : BitVec 32) (b : Bool), v.getLsbD 0 = b →
        (∀ i, i < 32 → w.getLsbD i = (w.getLsbD (i + 1) ^^ (b && crc32cPoly.getLsbD i))) → v = w := by
      intro w b h0 hw
      apply BitVec.eq_of_getLsbD_eq
      have key : ∀ k, k ≤ 32 → v.getLsbD (32 - k) = w.getLsbD (32 - k) := by
        intro k
        induction k with
        | zero => intro _; simp
        | succ k ih =>
          intro hk
          rw [hb _ (by omega), hw _ (by omega), show 32 - (k + 1) + 1 = 32 - k by omega, ih (by omega), h0]
      intro i hi
      have := key (32 - i) (by omega)
      rwa [show 32 - (32 - i) = i by omega] at this
    cases h0 : v.getLsbD 0 with
    | false => exact Or.inl (hs 0 false h0 (by decide))
    | true => exact Or.inr (hs _ true h0 (by decide))
  · rintro (rfl | rfl) <;> decide

/-- a word comes back after `k` zero bits exactly when `k` is a multiple of `2^31 - 1` or it never moves -/
theorem feed_back (k : Nat) (v : BitVec 32) :
    feed^[k] v = v ↔ 2147483647 ∣ k ∨ v = 0 ∨ v = 0xfca42daf#32 := by
  rw [← feed_fixed]
  constructor
  · intro h
    by_cases hd : 2147483647 ∣ k
    · exact Or.inl hd
    · right
      have hg := Function.IsPeriodicPt.gcd (feed_period v) (show Function.IsPeriodicPt feed k v from h)
      rwa [(Nat.Prime.coprime_iff_not_dvd prime31).2 hd] at hg
  · rintro (⟨t, rfl⟩ | h)
    · exact (feed_period v).mul_const t
    · exact Function.iterate_fixed h k

/-- C144.  **Zero bytes in a message.**  Two messages that differ only in the number of zero bytes
at one place, at the end, in front or in between, have the same CRC-32C exactly when the numbers
differ by a multiple of `2^31 - 1` or the CRC of what stands before is one of two values. -/
theorem C144_zeros (c r : BitVec 32) (a b : List (BitVec 8)) (n m : Nat) (hnm : n ≤ m)
    (hr : crc32Bytes crc32cPoly c a = some r) :
    crc32Bytes crc32cPoly c (a ++ List.replicate n 0 ++ b) = crc32Bytes crc32cPoly c (a ++ List.replicate m 0 ++ b) ↔
      (2 ^ 31 - 1) ∣ m - n ∨ r = 0xffffffff#32 ∨ r = 0x035bd250#32 := by
  rw [C06_crc32_bytes_is_serial] at hr
  rw [C06_crc32_bytes_is_serial, C06_crc32_bytes_is_serial]
  simp only [crcSpec, Option.some.injEq, BitVec.not_inj, List.flatMap_append, serial_append, zero_bits] at hr ⊢
  generalize serial crc32cPoly (~~~c) (a.flatMap bitsOf) = s at hr
  rw [← feed_iter, ← feed_iter]
  have e : (serial crc32cPoly (feed^[8 * n] s) (b.flatMap bitsOf) =
      serial crc32cPoly (feed^[8 * m] s) (b.flatMap bitsOf)) ↔ feed^[8 * (m - n)] s = s := by
    have e2 : feed^[8 * m] s = feed^[8 * n] (feed^[8 * (m - n)] s) := by
      rw [← Function.iterate_add_apply]; congr 2; omega
    rw [e2]
    constructor
    · intro h
      exact (feed_inj.iterate _ (serial_inj _ (by decide) _ _ _ h)).symm
    · intro h; rw [h]
  rw [e, feed_back, ← hr]
  have h8 : (2147483647 ∣ 8 * (m - n)) ↔ (2 ^ 31 - 1) ∣ m - n := by
    norm_num only
    exact ⟨fun h => (Nat.Coprime.dvd_of_dvd_mul_left (by norm_num) h), fun h => h.mul_left 8⟩
  have f1 : (~~~s = 0xffffffff#32) ↔ s = 0 := by
    rw [show (0xffffffff#32) = ~~~(0 : BitVec 32) by decide, BitVec.not_inj]
  have f2 : (~~~s = 0x035bd250#32) ↔ s = 0xfca42daf#32 := by
    rw [show (0x035bd250#32) = ~~~(0xfca42daf#32) by decide, BitVec.not_inj]
  rw [h8, f1, f2]

/-- C144.  Fewer than `2^31 - 1` zero bytes in front of a message always change its CRC-32C when
the starting value is the default zero. -/
theorem C144_front (m : List (BitVec 8)) (n : Nat) (h0 : 0 < n) (h : n < 2 ^ 31 - 1) :
    crc32Bytes crc32cPoly 0 (List.replicate n 0 ++ m) ≠ crc32Bytes crc32cPoly 0 m := by
  intro he
  have := (C144_zeros 0 0 [] m 0 n (by omega) (by simp [crc32Bytes])).1 (by simpa using he.symm)
  rcases this with hd | hd | hd
  · have := Nat.le_of_dvd (by omega) hd
    omega
  · exact absurd hd (by decide)
  · exact absurd hd (by decide)

/-- C144.  Zero bytes at the end leave the CRC unchanged exactly when the CRC so far is one of two
values, the same two for every starting value and every message. -/
theorem C144_end (c r : BitVec 32) (m : List (BitVec 8)) (n : Nat) (h0 : 0 < n) (h : n < 2 ^ 31 - 1)
    (hr : crc32Bytes crc32cPoly c m = some r) :
    crc32Bytes crc32cPoly c (m ++ List.replicate n 0) = some r ↔ r = 0xffffffff#32 ∨ r = 0x035bd250#32 := by
  have := C144_zeros c r m [] 0 n (by omega) hr
  simp only [List.replicate_zero, List.append_nil, hr] at this
  rw [eq_comm, this]
  constructor
  · rintro (hd | hd)
    · have := Nat.le_of_dvd (by omega) hd
      omega
    · exact hd
  · exact Or.inr

/-- C144.  The property without the exception fails: after the four bytes `ff ff ff ff` the CRC-32C
is all ones, and any number of zero bytes more leaves it so.  The length must be checked too. -/
theorem C144_end_false : ∃ m : List (BitVec 8), m.length = 4 ∧
    ∀ n, crc32Bytes crc32cPoly 0 (m ++ List.replicate n 0) = crc32Bytes crc32cPoly 0 m := by
  have hr : crc32Bytes crc32cPoly 0 [255, 255, 255, 255] = some 0xffffffff#32 := by
    rw [C06_crc32_bytes_is_serial]; decide +kernel
  refine ⟨[255, 255, 255, 255], rfl, fun n => ?_⟩
  have := (C144_zeros 0 _ [255, 255, 255, 255] [] 0 n (by omega) hr).2 (Or.inr (Or.inl rfl))
  simpa using this.symm

/-- the hypotheses are met: "ab" with one, with two zero bytes between the letters -/
example : crc32Bytes crc32cPoly 0 ([0x61] ++ List.replicate 1 0 ++ [0x62]) ≠
    crc32Bytes crc32cPoly 0 ([0x61] ++ List.replicate 2 0 ++ [0x62]) := by
  have hr : crc32Bytes crc32cPoly 0 [0x61] = some 0xc1d04330#32 := by
    rw [C06_crc32_bytes_is_serial]; decide +kernel
  rw [Ne, C144_zeros 0 _ [0x61] [0x62] 1 2 (by omega) hr]
  decide

end CE.CrcZeros
