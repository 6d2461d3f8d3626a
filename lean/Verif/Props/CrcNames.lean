import Verif.Proof.CrcNames
import Verif.Props.CrcResidue
/-!
# C157: CRC-32C of names
-/
namespace CE.Crc

/-- the bytes agree in the bits of `k` -/
theorem and_of_div {a b : U8} {n : Nat} {k : U8} (hk : ∀ i < 8, k.getLsbD i = true → n ≤ i)
    (h : a.toNat / 2 ^ n = b.toNat / 2 ^ n) : (a ^^^ b) &&& k = 0 := by
  apply BitVec.eq_of_getLsbD_eq
  intro i hi
  rw [BitVec.getLsbD_and, BitVec.getLsbD_xor]
  cases hb : k.getLsbD i with
  | false => simp
  | true =>
    have hn := hk i hi hb
    have e : ∀ x : U8, x.getLsbD i = (x.toNat / 2 ^ n).testBit (i - n) := by
      intro x
      rw [Nat.testBit_div_two_pow, Nat.sub_add_cancel hn]; rfl
    rw [e a, e b, h]; simp

/-- the last four bytes -/
theorem tail_four (v v' : U32) (a b c d a' b' c' d' : U8) (k : U8)
    (sa : (a ^^^ a') &&& k = 0) (sb : (b ^^^ b') &&& k = 0) (sc : (c ^^^ c') &&& k = 0) (sd : (d ^^^ d') &&& k = 0)
    (h : serial crc32cPoly v ([a, b, c, d].flatMap bitsOf) = serial crc32cPoly v' ([a', b', c', d'].flatMap bitsOf)) :
    (v ^^^ v') &&& (k ++ k ++ k ++ k : U32) = 0 ∧ (v = v' → [a, b, c, d] = [a', b', c', d']) := by
  obtain ⟨w, hw⟩ := four_word a b c d
  obtain ⟨w', hw'⟩ := four_word a' b' c' d'
  rw [← hw, ← hw', bytes_bits32, bytes_bits32] at h
  have hl : ∀ x : U32, (bitsOf x).length = 32 := by intro x; simp [bitsOf]
  rw [serial_eq _ _ _ (by rw [hl]), serial_eq _ _ _ (by rw [hl]), hl, hl, wordOf_bitsOf32, wordOf_bitsOf32] at h
  have h := linN_inj crc32cPoly (by decide) _ _ _ h
  have hx : v ^^^ v' = w ^^^ w' := by
    have : (v ^^^ w) ^^^ (v' ^^^ w) = (v' ^^^ w') ^^^ (v' ^^^ w) := by rw [h]
    rw [show (v ^^^ w) ^^^ (v' ^^^ w) = (v ^^^ v') ^^^ (w ^^^ w) by ac_rfl,
      show (v' ^^^ w') ^^^ (v' ^^^ w) = (w ^^^ w') ^^^ (v' ^^^ v') by ac_rfl] at this
    simpa using this
  constructor
  · rw [hx]
    apply mask_word
    intro x hx
    have e : bytes32 (w ^^^ w') = [a ^^^ a', b ^^^ b', c ^^^ c', d ^^^ d'] := by
      simp only [bytes32, List.cons.injEq, and_true] at hw hw' ⊢
      simp only [BitVec.extractLsb'_xor, hw.1, hw.2.1, hw.2.2.1, hw.2.2.2, hw'.1, hw'.2.1, hw'.2.2.1, hw'.2.2.2,
        and_self]
    rw [e] at hx
    simp only [List.mem_cons, List.not_mem_nil, or_false] at hx
    rcases hx with rfl | rfl | rfl | rfl
    · exact sa
    · exact sb
    · exact sc
    · exact sd
  · intro hv
    subst hv
    rw [← hw, ← hw', (BitVec.xor_right_inj _).mp h]

/-- one byte before them, differing in the six low bits -/
theorem one_before : ∀ x < 64, linN crc32cPoly 8 (BitVec.ofNat 32 x) &&& 0xc0c0c0c0 = 0 → x = 0 := by decide +kernel

/-- two bytes before them, differing in the five low bits -/
theorem two_before : ∀ x < 32, ∀ y < 32,
    (linN crc32cPoly 16 (BitVec.ofNat 32 x) ^^^ linN crc32cPoly 8 (BitVec.ofNat 32 y)) &&& 0xe0e0e0e0 = 0 →
      x = 0 ∧ y = 0 := by decide +kernel

theorem xor_small {a b : U8} {n : Nat} (h : a.toNat / 2 ^ n = b.toNat / 2 ^ n) : (a ^^^ b).toNat < 2 ^ n := by
  rw [BitVec.toNat_xor]
  have e : (a.toNat ^^^ b.toNat) / 2 ^ n = 0 := by
    rw [← Nat.shiftRight_eq_div_pow, Nat.shiftRight_xor_distrib, Nat.shiftRight_eq_div_pow, Nat.shiftRight_eq_div_pow, h,
      Nat.xor_self]
  exact (Nat.div_eq_zero_iff_lt (Nat.two_pow_pos n)).1 e

theorem zext_eq (a : U8) : a.zeroExtend 32 = BitVec.ofNat 32 a.toNat := by
  apply BitVec.eq_of_toNat_eq
  simp

theorem byte_step (v : U32) (a : U8) (m : List U8) : serial crc32cPoly v ((a :: m).flatMap bitsOf) =
    serial crc32cPoly (linN crc32cPoly 8 (v ^^^ a.zeroExtend 32)) (m.flatMap bitsOf) := by
  have hl : (bitsOf a).length = 8 := by simp [bitsOf]
  rw [List.flatMap_cons, serial_append, serial_eq _ _ (bitsOf a) (by omega), hl, wordOf_bitsOf8]

theorem xor_zext (v : U32) (a b : U8) :
    (v ^^^ a.zeroExtend 32) ^^^ (v ^^^ b.zeroExtend 32) = BitVec.ofNat 32 (a ^^^ b).toNat := by
  rw [show (v ^^^ a.zeroExtend 32) ^^^ (v ^^^ b.zeroExtend 32) = (v ^^^ v) ^^^ (a.zeroExtend 32 ^^^ b.zeroExtend 32) by
    ac_rfl, BitVec.xor_self, BitVec.zero_xor, ← zext_eq]
  exact BitVec.setWidth_xor.symm

theorem xor_zero {a b : U8} (h : (a ^^^ b).toNat = 0) : a = b := by
  have : a ^^^ b = 0#8 := BitVec.eq_of_toNat_eq h
  simpa using this

theorem mask6 : ∀ i < 8, (0xc0 : U8).getLsbD i = true → 6 ≤ i := by decide
theorem mask5 : ∀ i < 8, (0xe0 : U8).getLsbD i = true → 5 ≤ i := by decide

theorem and6 {a b : U8} (h : a.toNat / 64 = b.toNat / 64) : (a ^^^ b) &&& 0xc0 = 0 := and_of_div (n := 6) mask6 h
theorem and5 {a b : U8} (h : a.toNat / 32 = b.toNat / 32) : (a ^^^ b) &&& 0xe0 = 0 := and_of_div (n := 5) mask5 h

theorem mask_c0 : ((0xc0 : U8) ++ (0xc0 : U8) ++ (0xc0 : U8) ++ (0xc0 : U8) : U32) = 0xc0c0c0c0 := by decide
theorem mask_e0 : ((0xe0 : U8) ++ (0xe0 : U8) ++ (0xe0 : U8) ++ (0xe0 : U8) : U32) = 0xe0e0e0e0 := by decide

/-- five bytes -/
theorem five_bytes (v : U32) (m₁ m₂ : List U8) (h1 : m₁.length = 5) (h2 : m₂.length = 5)
    (hs : ∀ p ∈ m₁.zip m₂, p.1.toNat / 64 = p.2.toNat / 64)
    (h : serial crc32cPoly v (m₁.flatMap bitsOf) = serial crc32cPoly v (m₂.flatMap bitsOf)) : m₁ = m₂ := by
  match m₁, m₂, h1, h2 with
  | [a, b, c, d, e], [a', b', c', d', e'], _, _ =>
    rw [byte_step v a, byte_step v a'] at h
    simp only [List.zip_cons_cons, List.zip_nil_right, List.mem_cons, List.not_mem_nil, or_false, forall_eq_or_imp,
      forall_eq] at hs
    obtain ⟨h0, hr⟩ := hs
    have := tail_four _ _ b c d e b' c' d' e' 0xc0 (and6 hr.1) (and6 hr.2.1) (and6 hr.2.2.1) (and6 hr.2.2.2) h
    obtain ⟨hm, he⟩ := this
    rw [mask_c0, ← linN_xor, xor_zext] at hm
    have hz := one_before _ (xor_small (n := 6) h0) hm
    have ha := xor_zero hz
    subst ha
    rw [he rfl]

/-- six bytes -/
theorem six_bytes (v : U32) (m₁ m₂ : List U8) (h1 : m₁.length = 6) (h2 : m₂.length = 6)
    (hs : ∀ p ∈ m₁.zip m₂, p.1.toNat / 32 = p.2.toNat / 32)
    (h : serial crc32cPoly v (m₁.flatMap bitsOf) = serial crc32cPoly v (m₂.flatMap bitsOf)) : m₁ = m₂ := by
  match m₁, m₂, h1, h2 with
  | [z, a, b, c, d, e], [z', a', b', c', d', e'], _, _ =>
    rw [byte_step v z, byte_step _ a, byte_step v z', byte_step _ a'] at h
    simp only [List.zip_cons_cons, List.zip_nil_right, List.mem_cons, List.not_mem_nil, or_false, forall_eq_or_imp,
      forall_eq] at hs
    obtain ⟨hz, h0, hr⟩ := hs
    have := tail_four _ _ b c d e b' c' d' e' 0xe0 (and5 hr.1) (and5 hr.2.1) (and5 hr.2.2.1) (and5 hr.2.2.2) h
    obtain ⟨hm, he⟩ := this
    have e2 : linN crc32cPoly 8 (linN crc32cPoly 8 (v ^^^ z.zeroExtend 32) ^^^ a.zeroExtend 32) ^^^
        linN crc32cPoly 8 (linN crc32cPoly 8 (v ^^^ z'.zeroExtend 32) ^^^ a'.zeroExtend 32) =
        linN crc32cPoly 16 (BitVec.ofNat 32 (z ^^^ z').toNat) ^^^ linN crc32cPoly 8 (BitVec.ofNat 32 (a ^^^ a').toNat) := by
      rw [← xor_zext v z z', ← xor_zext 0#32 a a', show 16 = 8 + 8 from rfl, linN_add, BitVec.zero_xor, BitVec.zero_xor]
      simp only [linN_xor]
      ac_rfl
    rw [mask_e0, e2] at hm
    have hz := two_before _ (xor_small (n := 5) hz) _ (xor_small (n := 5) h0) hm
    have hz1 := xor_zero hz.1
    have ha := xor_zero hz.2
    subst hz1 ha
    rw [he rfl]

/-- one piece of a text replaced -/
theorem piece (c : U32) (p s m₁ m₂ : List U8) (h : crc32Bytes crc32cPoly c (p ++ m₁ ++ s) = crc32Bytes crc32cPoly c (p ++ m₂ ++ s)) :
    ∃ v, serial crc32cPoly v (m₁.flatMap bitsOf) = serial crc32cPoly v (m₂.flatMap bitsOf) := by
  rw [C06_crc32_bytes_is_serial, C06_crc32_bytes_is_serial] at h
  simp only [crcSpec, List.flatMap_append, serial_append, Option.some.injEq, BitVec.not_inj] at h
  exact ⟨_, serial_inj crc32cPoly (by decide) _ _ _ h⟩

theorem short_piece (v : U32) (m₁ m₂ : List U8) (hl : m₁.length = m₂.length) (h4 : m₁.length ≤ 4)
    (h : serial crc32cPoly v (m₁.flatMap bitsOf) = serial crc32cPoly v (m₂.flatMap bitsOf)) : m₁ = m₂ := by
  by_contra hne
  have hb : ∀ m : List U8, (m.flatMap bitsOf).length = 8 * m.length := by
    intro m; induction m with
    | nil => rfl
    | cons b m ih => rw [List.flatMap_cons, List.length_append, ih, List.length_cons]; simp [bitsOf]; omega
  have hne' : m₁.flatMap bitsOf ≠ m₂.flatMap bitsOf := by
    intro e
    apply hne
    clear h h4 hne
    induction m₁ generalizing m₂ with
    | nil => exact (List.length_eq_zero_iff.1 hl.symm).symm
    | cons a m₁ ih =>
      cases m₂ with
      | nil => simp at hl
      | cons b m₂ =>
        rw [List.flatMap_cons, List.flatMap_cons] at e
        have := List.append_inj e (by simp [bitsOf])
        have hab : a = b := by
          apply BitVec.eq_of_getLsbD_eq
          intro i hi
          have := congrArg (fun l => l.getD i false) this.1
          simpa [bitsOf, hi] using this
        rw [hab, ih m₂ (by simpa using hl) this.2]
  have := C09_burst_error_detected crc32cPoly (~~~ v) (by decide) m₁ m₂ [] (m₁.flatMap bitsOf) (m₂.flatMap bitsOf) []
    (by simp) (by simp) (by rw [hb, hb, hl]) (by rw [hb]; omega) hne'
  apply this
  rw [C06_crc32_bytes_is_serial, C06_crc32_bytes_is_serial]
  simp only [crcSpec, BitVec.not_not, h]

/-- C157.  In any text, replacing up to five consecutive bytes by as many others that agree with them in the
two upper bits (letters of either case and the underscore all do) changes the CRC-32C, whatever comes before
and after and whatever the starting value: one byte more than a burst of 32 bits. -/
theorem C157_five_in_text (c : U32) (p s m₁ m₂ : List U8) (hl : m₁.length = m₂.length) (h5 : m₁.length ≤ 5)
    (hs : ∀ q ∈ m₁.zip m₂, q.1.toNat / 64 = q.2.toNat / 64) (hne : m₁ ≠ m₂) :
    crc32Bytes crc32cPoly c (p ++ m₁ ++ s) ≠ crc32Bytes crc32cPoly c (p ++ m₂ ++ s) := by
  intro h
  obtain ⟨v, hv⟩ := piece c p s m₁ m₂ h
  apply hne
  rcases Nat.lt_or_ge m₁.length 5 with h4 | h4
  · exact short_piece v m₁ m₂ hl (by omega) hv
  · exact five_bytes v m₁ m₂ (by omega) (by omega) hs hv

/-- C157.  And up to six bytes, if they agree in the three upper bits, as small letters do. -/
theorem C157_six_in_text (c : U32) (p s m₁ m₂ : List U8) (hl : m₁.length = m₂.length) (h6 : m₁.length ≤ 6)
    (hs : ∀ q ∈ m₁.zip m₂, q.1.toNat / 32 = q.2.toNat / 32) (hne : m₁ ≠ m₂) :
    crc32Bytes crc32cPoly c (p ++ m₁ ++ s) ≠ crc32Bytes crc32cPoly c (p ++ m₂ ++ s) := by
  rcases Nat.lt_or_ge m₁.length 6 with h5 | h5
  · exact C157_five_in_text c p s m₁ m₂ hl (by omega) (fun q hq => by have := hs q hq; omega) hne
  · intro h
    obtain ⟨v, hv⟩ := piece c p s m₁ m₂ h
    exact hne (six_bytes v m₁ m₂ (by omega) (by omega) hs hv)

/-- a longer name of five characters -/
theorem five_alone (m₁ m₂ : List U8) (h5 : m₁.length = 5) (h4 : m₂.length < 5)
    (hn₁ : ∀ b ∈ m₁, NameChar b) (hn₂ : ∀ b ∈ m₂, NameChar b) :
    serial crc32cPoly (~~~ 0) (m₁.flatMap bitsOf) ≠ serial crc32cPoly (~~~ 0) (m₂.flatMap bitsOf) := by
  intro h
  have t : ∀ {y}, Blind y 5 → tag y 5 = tag y m₂.length := by
    intro y hy
    rw [← h5, ← blind_tag hy m₁ (by omega) hn₁, ← blind_tag hy m₂ (by omega) hn₂, h]
  have h2 := tags5 _ h4 (t blindB0) (t blindB1)
  match m₁, h5 with
  | [a, b, c, d, e], _ =>
    have r : ∀ {y j}, (2 ≤ j ∧ j < 6) → Reads y j → (tag y 5 ^^ d.toNat.testBit j) = tag y m₂.length := by
      intro y j hj hy
      rw [← reads_five hj hy a b c d e hn₁, ← reads_short hy m₂ h2 hn₂, h]
    have r0 := r (by decide) reads0
    have r1 := r (by decide) reads1
    have r2 := r (by decide) reads2
    have r3 := r (by decide) reads3
    refine none_left d.toFin (hn₁ d (by simp)) ?_
    have hk : m₂.length = 0 ∨ m₂.length = 1 := by omega
    rcases hk with hk | hk <;> rw [hk] at r0 r1 r2 r3
    · rw [tagC0_5, tagC0_0] at r0; rw [tagC1_5, tagC1_0] at r1; rw [tagC2_5, tagC2_0] at r2; rw [tagC3_5, tagC3_0] at r3
      refine ⟨?_, ?_, ?_, ?_⟩
      · simpa using r0
      · simpa using r1
      · simpa using r2
      · simpa using r3
    · rw [tagC0_5, tagC0_1] at r0; rw [tagC1_5, tagC1_1] at r1; rw [tagC2_5, tagC2_1] at r2; rw [tagC3_5, tagC3_1] at r3
      refine ⟨?_, ?_, ?_, ?_⟩
      · simpa using r0
      · simpa using r1
      · simpa using r2
      · simpa using r3

theorem NameChar.div {b : U8} (h : NameChar b) : b.toNat / 64 = 1 := by
  unfold NameChar at h; omega

/-- C157.  `crc32c` as an identifier: two different names made of letters and underscores, of at most five
characters each and not necessarily of the same length, never have the same CRC-32C. -/
theorem C157_names (m₁ m₂ : List U8) (h₁ : m₁.length ≤ 5) (h₂ : m₂.length ≤ 5)
    (hn₁ : ∀ b ∈ m₁, NameChar b) (hn₂ : ∀ b ∈ m₂, NameChar b) (hne : m₁ ≠ m₂) :
    crc32c (m₁ ++ [0]) ≠ crc32c (m₂ ++ [0]) := by
  rw [C08_crc32c_literal, C08_crc32c_literal]
  by_cases hl : m₁.length = m₂.length
  · have := C157_five_in_text 0 [] [] m₁ m₂ hl h₁ (fun q hq => by
      have := List.of_mem_zip hq
      rw [(hn₁ _ this.1).div, (hn₂ _ this.2).div]) hne
    simpa using this
  · rw [C06_crc32_bytes_is_serial, C06_crc32_bytes_is_serial]
    simp only [crcSpec, ne_eq, Option.some.injEq, BitVec.not_inj]
    intro h
    rcases Nat.lt_or_ge m₁.length 5 with a | a
    · rcases Nat.lt_or_ge m₂.length 5 with b | b
      · apply hl
        have t : ∀ {y}, Blind y 4 → tag y m₁.length = tag y m₂.length := by
          intro y hy
          rw [← blind_tag hy m₁ (by omega) hn₁, ← blind_tag hy m₂ (by omega) hn₂, h]
        exact tags4 _ _ a b (t blindA0) (t blindA1) (t blindA2)
      · exact five_alone m₂ m₁ (by omega) (by omega) hn₂ hn₁ h.symm
    · exact five_alone m₁ m₂ (by omega) (by omega) hn₁ hn₂ h

/-- C157.  Six characters are too many: `UbjIfE` and `kiXbzh` have the same CRC-32C. -/
theorem C157_six_false : ∃ m₁ m₂ : List U8, m₁ ≠ m₂ ∧ m₁.length = 6 ∧ m₂.length = 6 ∧
    (∀ b ∈ m₁, NameChar b) ∧ (∀ b ∈ m₂, NameChar b) ∧ crc32c (m₁ ++ [0]) = crc32c (m₂ ++ [0]) := by
  refine ⟨[0x55, 0x62, 0x6a, 0x49, 0x66, 0x45], [0x6b, 0x69, 0x58, 0x62, 0x7a, 0x68], ?_⟩
  decide +kernel

/-- C157.  Also with small letters only, once the lengths differ: `lpymae` and `aa`; and seven small letters are too many
even for the same length: `ktbfvjj` and `nqkebot`. -/
theorem C157_small_false :
    crc32c ([0x6c, 0x70, 0x79, 0x6d, 0x61, 0x65] ++ [0]) = crc32c ([0x61, 0x61] ++ [0]) ∧
    crc32c ([0x6b, 0x74, 0x62, 0x66, 0x76, 0x6a, 0x6a] ++ [0]) = crc32c ([0x6e, 0x71, 0x6b, 0x65, 0x62, 0x6f, 0x74] ++ [0]) := by
  decide +kernel

/-- `width` and `depth` are two such names -/
example : ∃ m₁ m₂ : List U8, m₁ ≠ m₂ ∧ m₁.length ≤ 5 ∧ m₂.length ≤ 5 ∧
    (∀ b ∈ m₁, NameChar b) ∧ (∀ b ∈ m₂, NameChar b) ∧ ∀ q ∈ m₁.zip m₂, q.1.toNat / 64 = q.2.toNat / 64 :=
  ⟨[0x77, 0x69, 0x64, 0x74, 0x68], [0x64, 0x65, 0x70, 0x74, 0x68], by decide⟩

/-- `height` and `length` meet the hypotheses of the theorem for six -/
example : ∃ m₁ m₂ : List U8, m₁ ≠ m₂ ∧ m₁.length = m₂.length ∧ m₁.length ≤ 6 ∧
    ∀ q ∈ m₁.zip m₂, q.1.toNat / 32 = q.2.toNat / 32 :=
  ⟨[0x68, 0x65, 0x69, 0x67, 0x68, 0x74], [0x6c, 0x65, 0x6e, 0x67, 0x74, 0x68], by decide⟩

end CE.Crc
