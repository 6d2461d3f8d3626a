import Verif.Props.CrcErrors
import Verif.Props.CrcResidue
import Verif.Proof.CrcFour
/-!
# C147: up to five wrong bits in short messages
-/
namespace CE.Crc
open Polynomial

/-- four numbers in order -/
theorem four_sorted {s : Finset Nat} (h : s.card = 4) : ∃ a b c d, a < b ∧ b < c ∧ c < d ∧ s = {a, b, c, d} := by
  let f := s.orderEmbOfFin h
  have hf : ∀ i j : Fin 4, i < j → f i < f j := fun i j hij => f.strictMono hij
  refine ⟨f 0, f 1, f 2, f 3, hf _ _ (by decide), hf _ _ (by decide), hf _ _ (by decide), ?_⟩
  have : s = Finset.univ.image f := by
    rw [← Finset.coe_inj, Finset.coe_image, Finset.coe_univ, Set.image_univ]
    exact (Finset.range_orderEmbOfFin s h).symm
  rw [this]
  ext x
  simp only [Finset.mem_image, Finset.mem_univ, true_and, Finset.mem_insert, Finset.mem_singleton]
  constructor
  · rintro ⟨i, rfl⟩
    fin_cases i <;> simp
  · rintro (rfl | rfl | rfl | rfl)
    exacts [⟨0, rfl⟩, ⟨1, rfl⟩, ⟨2, rfl⟩, ⟨3, rfl⟩]

/-- C147.  Four wrong bits that lie within 5275 bits of each other always change the CRC-32C, in messages of any length. -/
theorem C147_near (c : U32) (m₁ m₂ : List U8) (hl : m₁.length = m₂.length) (h4 : (errors m₁ m₂).card = 4)
    (hn : ∀ i ∈ errors m₁ m₂, ∀ j ∈ errors m₁ m₂, j < i + 5275) :
    crc32Bytes crc32cPoly c m₁ ≠ crc32Bytes crc32cPoly c m₂ := by
  obtain ⟨i, j, k, l, h1, h2, h3, he⟩ := four_sorted h4
  have hL : l < 8 * m₁.length := Finset.mem_range.1 (Finset.mem_filter.1 (by rw [he]; simp : l ∈ errors m₁ m₂)).1
  have hd := hn i (by rw [he]; simp) l (by rw [he]; simp)
  rw [Ne, eq_iff_errors c _ _ hl, he, Finset.sum_insert (by simp; omega), Finset.sum_insert (by simp; omega),
    Finset.sum_pair (by omega)]
  have := Four.four_not_dvd (p := 8 * m₁.length - 1 - l) (q := 8 * m₁.length - 1 - k) (r := 8 * m₁.length - 1 - j)
    (s := 8 * m₁.length - 1 - i) (by omega) (by omega) (by omega) (by omega)
  intro h
  apply this
  convert h using 1
  ring

/-- C147.  **Up to five wrong bits in a message of up to 659 bytes always change the CRC-32C.** -/
theorem C147_five (c : U32) (m₁ m₂ : List U8) (hl : m₁.length = m₂.length) (hN : m₁.length ≤ 659)
    (hne : m₁ ≠ m₂) (h5 : (errors m₁ m₂).card ≤ 5) :
    crc32Bytes crc32cPoly c m₁ ≠ crc32Bytes crc32cPoly c m₂ := by
  by_cases h3 : (errors m₁ m₂).card ≤ 3
  · exact C97_three c m₁ m₂ hl (by omega) hne h3
  · by_cases h4 : (errors m₁ m₂).card = 4
    · apply C147_near c m₁ m₂ hl h4
      intro i _ j hj
      have := Finset.mem_range.1 (Finset.mem_filter.1 hj).1
      omega
    · apply C97_odd c _ _ hl
      have : (errors m₁ m₂).card = 5 := by omega
      rw [this]; decide

/-- C147.  As a receiver uses it: of a message of up to 655 bytes with its CRC behind it, up to five wrong bits anywhere, in the
message or in the CRC, are noticed. -/
theorem C147_frame (c : U32) (m m' : List U8) (d d' : U32) (hd : crc32Bytes crc32cPoly c m = some d) (hl : m.length = m'.length)
    (hN : m.length ≤ 655) (hne : m ++ bytes32 d ≠ m' ++ bytes32 d') (h5 : (errors (m ++ bytes32 d) (m' ++ bytes32 d')).card ≤ 5) :
    crc32Bytes crc32cPoly c m' ≠ some d' := by
  intro h
  have h1 := C121_residue_crc32c c m d hd
  have h2 := C121_residue_crc32c c m' d' h
  refine C147_five c _ _ ?_ ?_ hne h5 (h1.trans h2.symm)
  · simp [bytes32, hl]
  · simp [bytes32]; omega

/-- message of `n` bytes with the bits of `f` -/
def bitsMsg (n : Nat) (f : Nat → Bool) : List U8 := (List.range n).map fun k =>
  BitVec.ofBoolListLE [f (8 * k), f (8 * k + 1), f (8 * k + 2), f (8 * k + 3), f (8 * k + 4), f (8 * k + 5), f (8 * k + 6), f (8 * k + 7)]

theorem bitsMsg_length (n : Nat) (f : Nat → Bool) : (bitsMsg n f).length = n := by simp [bitsMsg]

theorem bitsMsg_errors (n : Nat) (f g : Nat → Bool) : errors (bitsMsg n f) (bitsMsg n g) = (Finset.range (8 * n)).filter fun i => f i ≠ g i := by
  have at' : ∀ (f : Nat → Bool) i, i < 8 * n → bitAt (bitsMsg n f) i = f i := by
    intro f i hi
    unfold bitAt bitsMsg
    rw [List.getD_eq_getElem?_getD, List.getElem?_map, List.getElem?_range (by omega), Option.map_some, Option.getD_some]
    have h8 : i % 8 < 8 := Nat.mod_lt _ (by omega)
    conv_rhs => rw [← Nat.div_add_mod i 8]
    generalize i % 8 = r at h8
    generalize i / 8 = q
    erw [BitVec.getLsbD_ofBoolListLE]
    have : r = 0 ∨ r = 1 ∨ r = 2 ∨ r = 3 ∨ r = 4 ∨ r = 5 ∨ r = 6 ∨ r = 7 := by omega
    rcases this with rfl | rfl | rfl | rfl | rfl | rfl | rfl | rfl <;> rfl
  unfold errors
  rw [bitsMsg_length]
  apply Finset.filter_congr
  intro i hi
  rw [at' f i (Finset.mem_range.1 hi), at' g i (Finset.mem_range.1 hi)]

theorem at_errors (n : Nat) (l : List Nat) (h : ∀ i ∈ l, i < 8 * n) :
    errors (bitsMsg n fun _ => false) (bitsMsg n fun i => decide (i ∈ l)) = l.toFinset := by
  rw [bitsMsg_errors]
  ext i
  rw [Finset.mem_filter, Finset.mem_range, List.mem_toFinset]
  constructor
  · rintro ⟨_, h⟩
    by_contra hc
    rw [decide_eq_false hc] at h
    exact h rfl
  · intro hi
    refine ⟨h i hi, ?_⟩
    rw [decide_eq_true hi]
    decide

theorem sum_four (g : (ZMod 2)[X]) (f : Nat → Nat) (a b c d : Nat) (hab : a < b) (hbc : b < c) (hcd : c < d) (h0 : f d = 0)
    (h : g ∣ 1 + X ^ f c + X ^ f b + X ^ f a) : g ∣ ∑ i ∈ [a, b, c, d].toFinset, X ^ f i := by
  have e : [a, b, c, d].toFinset = {a, b, c, d} := by ext; simp
  rw [e, Finset.sum_insert (by simp; omega), Finset.sum_insert (by simp; omega), Finset.sum_pair (by omega), h0, pow_zero]
  convert h using 1
  ring

theorem four_missed (n : Nat) (hn : n = 660) (c : U32) : crc32Bytes crc32cPoly c (bitsMsg n fun _ => false) =
    crc32Bytes crc32cPoly c (bitsMsg n fun i => decide (i ∈ [4, 771, 2528, 5279])) := by
  rw [eq_iff_errors c _ _ (by rw [bitsMsg_length, bitsMsg_length]), at_errors _ _ (by intro i hi; simp at hi; omega), bitsMsg_length]
  obtain ⟨f, hf⟩ : ∃ f : Nat → Nat, ∀ i, f i = 8 * n - 1 - i := ⟨_, fun _ => rfl⟩
  simp only [← hf]
  apply sum_four _ f _ _ _ _ (by norm_num) (by norm_num) (by norm_num)
  · rw [hf]; omega
  · exact Four.four_dvd (by rw [hf]; omega) (by rw [hf]; omega) (by rw [hf]; omega)

/-- C147.  Not so for 660 bytes: there four wrong bits can go unnoticed, whatever the starting value. -/
theorem C147_bound_is_tight : ∃ m₁ m₂ : List U8, m₁.length = 660 ∧ m₂.length = 660 ∧
    (errors m₁ m₂).card = 4 ∧ ∀ c, crc32Bytes crc32cPoly c m₁ = crc32Bytes crc32cPoly c m₂ := by
  refine ⟨bitsMsg 660 fun _ => false, bitsMsg 660 fun i => decide (i ∈ [4, 771, 2528, 5279]), bitsMsg_length _ _, bitsMsg_length _ _, ?_,
    four_missed _ rfl⟩
  rw [at_errors _ _ (by intro i hi; simp at hi; omega)]
  decide

/-- the hypotheses are met: four wrong bits in two bytes -/
example : (errors [0x12, 0x34] [0x13, 0x33]).card = 4 ∧ ([0x12, 0x34] : List U8).length ≤ 659 := by decide

end CE.Crc
