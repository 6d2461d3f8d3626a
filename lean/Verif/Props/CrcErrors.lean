import Verif.Props.Crc
import Verif.Proof.CrcErrors
/-!
# C97: which transmission errors `crc32c` detects
-/
namespace CE.Crc
open Polynomial

/-- the checksums agree exactly when the generator divides the sum of the monomials of the errors -/
theorem eq_iff_errors (c : U32) (m₁ m₂ : List U8) (hl : m₁.length = m₂.length) :
    crc32Bytes crc32cPoly c m₁ = crc32Bytes crc32cPoly c m₂ ↔
      genPoly crc32cPoly ∣ ∑ i ∈ errors m₁ m₂, X ^ (8 * m₁.length - 1 - i) := by
  rw [C09_equal_crc_iff_divides _ _ (by decide) _ _ hl, diff_errors _ _ hl]

/-- C97.  An odd number of wrong bits, anywhere in a message of any length, always changes the
CRC-32C. -/
theorem C97_odd (c : U32) (m₁ m₂ : List U8) (hl : m₁.length = m₂.length) (h : Odd (errors m₁ m₂).card) :
    crc32Bytes crc32cPoly c m₁ ≠ crc32Bytes crc32cPoly c m₂ := by
  rw [Ne, eq_iff_errors c _ _ hl]
  exact odd_not_dvd gen_one _ _ h

/-- C97.  Two wrong bits go undetected exactly when their distance is a multiple of `2^31 - 1`. -/
theorem C97_two (c : U32) (m₁ m₂ : List U8) (hl : m₁.length = m₂.length) (i j : Nat) (hij : i < j)
    (h : errors m₁ m₂ = {i, j}) :
    crc32Bytes crc32cPoly c m₁ = crc32Bytes crc32cPoly c m₂ ↔ (2 ^ 31 - 1) ∣ j - i := by
  have hj : j < 8 * m₁.length := by
    have : j ∈ errors m₁ m₂ := by rw [h]; simp
    exact Finset.mem_range.1 (Finset.mem_filter.1 this).1
  rw [eq_iff_errors c _ _ hl, h, Finset.sum_pair (by omega), two_dvd (by omega)]
  rw [show 8 * m₁.length - 1 - i - (8 * m₁.length - 1 - j) = j - i by omega]
  norm_num

/-- C97.  In messages of up to `2^31 - 1` bits (256 MiB) up to three wrong bits always change the
CRC-32C. -/
theorem C97_three (c : U32) (m₁ m₂ : List U8) (hl : m₁.length = m₂.length) (hN : 8 * m₁.length ≤ 2 ^ 31 - 1)
    (hne : m₁ ≠ m₂) (h3 : (errors m₁ m₂).card ≤ 3) :
    crc32Bytes crc32cPoly c m₁ ≠ crc32Bytes crc32cPoly c m₂ := by
  have h0 : (errors m₁ m₂).card ≠ 0 := by
    intro h0
    rw [Finset.card_eq_zero] at h0
    apply hne
    apply List.ext_getElem hl
    intro k hk hk2
    apply BitVec.eq_of_getLsbD_eq
    intro b hb
    have : 8 * k + b ∉ errors m₁ m₂ := by rw [h0]; simp
    unfold errors at this
    rw [Finset.mem_filter, not_and] at this
    have := this (Finset.mem_range.2 (by omega))
    unfold bitAt at this
    rw [show (8 * k + b) / 8 = k by omega, show (8 * k + b) % 8 = b by omega] at this
    simpa [List.getD_eq_getElem?_getD, hk, hk2] using this
  by_cases h2 : (errors m₁ m₂).card = 2
  · obtain ⟨x, y, hxy, he⟩ := Finset.card_eq_two.1 h2
    have hx : x < 8 * m₁.length := Finset.mem_range.1 (Finset.mem_filter.1 (by rw [he]; simp : x ∈ errors m₁ m₂)).1
    have hy : y < 8 * m₁.length := Finset.mem_range.1 (Finset.mem_filter.1 (by rw [he]; simp : y ∈ errors m₁ m₂)).1
    rcases Nat.lt_or_gt_of_ne hxy with h | h
    · rw [Ne, C97_two c _ _ hl x y h he]
      exact Nat.not_dvd_of_pos_of_lt (by omega) (by omega)
    · rw [Finset.pair_comm] at he
      rw [Ne, C97_two c _ _ hl y x h he]
      exact Nat.not_dvd_of_pos_of_lt (by omega) (by omega)
  · apply C97_odd c _ _ hl
    have : (errors m₁ m₂).card = 1 ∨ (errors m₁ m₂).card = 3 := by omega
    rcases this with h | h <;> rw [h] <;> decide

example : errors [0x12, 0x34] [0x13, 0x36] = {0, 9} := by decide
example : Odd (errors [0x12, 0x34] [0x12, 0x33]).card := by decide

theorem far_errors (n : Nat) :
    errors (List.replicate (n + 2) 0) (1 :: (List.replicate n 0 ++ [0x80])) = {0, 8 * (n + 1) + 7} := by
  ext i
  unfold errors
  rw [Finset.mem_filter, Finset.mem_range, List.length_replicate, Finset.mem_insert, Finset.mem_singleton]
  unfold bitAt
  have e0 : (List.replicate (n + 2) (0 : BitVec 8)).getD (i / 8) 0 = 0 := by
    rw [List.getD_eq_getElem?_getD, List.getElem?_replicate]
    split <;> rfl
  rw [e0]
  by_cases h8 : i < 8
  · have hd : i / 8 = 0 := by omega
    rw [hd]
    have : i = 0 ∨ i = 1 ∨ i = 2 ∨ i = 3 ∨ i = 4 ∨ i = 5 ∨ i = 6 ∨ i = 7 := by omega
    rcases this with rfl | rfl | rfl | rfl | rfl | rfl | rfl | rfl <;> simp <;> omega
  · obtain ⟨k, hk⟩ : ∃ k, i / 8 = k + 1 := ⟨i / 8 - 1, by omega⟩
    rw [hk, List.getD_cons_succ]
    by_cases hn : k < n
    · rw [List.getD_append _ _ _ _ (by simpa using hn)]
      have : (List.replicate n (0 : BitVec 8)).getD k 0 = 0 := by
        rw [List.getD_eq_getElem?_getD, List.getElem?_replicate]
        split <;> rfl
      rw [this]
      simp
      omega
    · rw [List.getD_append_right _ _ _ _ (by simpa using hn), List.length_replicate]
      by_cases hkn : k = n
      · subst hkn
        rw [Nat.sub_self]
        have : i % 8 = 0 ∨ i % 8 = 1 ∨ i % 8 = 2 ∨ i % 8 = 3 ∨ i % 8 = 4 ∨ i % 8 = 5 ∨ i % 8 = 6 ∨ i % 8 = 7 := by omega
        rcases this with h | h | h | h | h | h | h | h <;> rw [h] <;> simp <;> omega
      · constructor
        · rintro ⟨h, _⟩; omega
        · rintro (h | h) <;> omega

/-- C97.  The length cannot be raised by one byte: two messages of `2^28` bytes (one bit more than
`2^31 - 1`) that differ in two bits and have the same CRC-32C for every starting value. -/
theorem C97_bound_is_tight : ∃ m₁ m₂ : List U8, m₁.length = 2 ^ 28 ∧ m₂.length = 2 ^ 28 ∧
    (errors m₁ m₂).card = 2 ∧ ∀ c, crc32Bytes crc32cPoly c m₁ = crc32Bytes crc32cPoly c m₂ := by
  refine ⟨List.replicate ((2 ^ 28 - 2) + 2) 0, 1 :: (List.replicate (2 ^ 28 - 2) 0 ++ [0x80]), ?_, ?_, ?_, ?_⟩
  · rw [List.length_replicate]; rfl
  · rw [List.length_cons, List.length_append, List.length_replicate]; rfl
  · rw [far_errors, Finset.card_pair (by omega)]
  · intro c
    rw [C97_two c _ _ _ _ _ _ (far_errors _)]
    · exact ⟨1, rfl⟩
    · rw [List.length_replicate, List.length_cons, List.length_append, List.length_replicate]; rfl
    · omega

end CE.Crc
