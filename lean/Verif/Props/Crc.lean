import Verif.Proof.CrcPoly
/-!
# C06 - C09: CRC-32
-/
namespace CE.Crc
open Polynomial

/-- C06.  The table driven byte CRC is the textbook bit-serial CRC, for every polynomial, starting
value and byte string (and never indexes a table out of range). -/
theorem C06_crc32_bytes_is_serial (P c : U32) (p : List U8) :
    crc32Bytes P c p = some (crcSpec P c (p.flatMap bitsOf)) := by
  simp [crc32Bytes, crcSpec, foldBytes_eq]

/-- C06.  The generator of `crc32c` is the Castagnoli polynomial. -/
theorem C06_crc32c_is_castagnoli : genPoly crc32cPoly =
    X ^ 32 + X ^ 28 + X ^ 27 + X ^ 26 + X ^ 25 + X ^ 23 + X ^ 22 + X ^ 20 + X ^ 19 + X ^ 18 + X ^ 14 +
      X ^ 13 + X ^ 11 + X ^ 10 + X ^ 9 + X ^ 8 + X ^ 6 + 1 := by
  have h : ∀ i, i < 32 → crc32cPoly.getLsbD (31 - i) =
      decide (i ∈ [28, 27, 26, 25, 23, 22, 20, 19, 18, 14, 13, 11, 10, 9, 8, 6, 0]) := by decide
  have e : regPoly crc32cPoly = ∑ i ∈ Finset.range 32,
      C (bit2 (decide (i ∈ [28, 27, 26, 25, 23, 22, 20, 19, 18, 14, 13, 11, 10, 9, 8, 6, 0]))) * X ^ i := by
    unfold regPoly
    exact Finset.sum_congr rfl fun i hi => by rw [h i (Finset.mem_range.mp hi)]
  rw [genPoly, e]
  simp only [Finset.sum_range_succ, Finset.sum_range_zero]
  simp [bit2]
  ring

/-- the check value of CRC-32C: crc32c("123456789") = 0xe3069283 -/
example : crc32Bytes crc32cPoly 0 [0x31, 0x32, 0x33, 0x34, 0x35, 0x36, 0x37, 0x38, 0x39]
    = some 0xe3069283 := by decide +kernel

/-- C07.  The `uint32_t` overload is the byte overload on little-endian bytes. -/
theorem C07_crc32_words_is_bytes (P c : U32) (p : List U32) :
    crc32Words P c p = crc32Bytes P c (p.flatMap bytes32) := by
  have : (p.flatMap bytes32).flatMap bitsOf = p.flatMap bitsOf := by
    rw [List.flatMap_assoc]; congr 1; funext x; exact bytes_bits32 x
  simp [crc32Words, crc32Bytes, foldWords_eq, foldBytes_eq, this]

/-- C07.  The `uint64_t` overload is the byte overload on little-endian bytes. -/
theorem C07_crc32_longs_is_bytes (P c : U32) (p : List U64) :
    crc32Longs P c p = crc32Bytes P c (p.flatMap bytes64) := by
  have : (p.flatMap bytes64).flatMap bitsOf = p.flatMap bitsOf := by
    rw [List.flatMap_assoc]; congr 1; funext x; exact bytes_bits64 x
  simp [crc32Longs, crc32Bytes, foldLongs_eq, foldBytes_eq, this]

example : crc32Longs crc32cPoly 0 [0x0123456789abcdef, 42] =
    crc32Bytes crc32cPoly 0 [0xef, 0xcd, 0xab, 0x89, 0x67, 0x45, 0x23, 0x01, 42, 0, 0, 0, 0, 0, 0, 0] := by
  decide +kernel

/-- C08.  The result for a prefix is the starting value for the rest. -/
theorem C08_crc32_incremental (P c : U32) (a b : List U8) :
    crc32Bytes P c (a ++ b) = (crc32Bytes P c a).bind fun d => crc32Bytes P d b := by
  simp [crc32Bytes, foldBytes_eq, serial_append]

/-- C08.  Mixed widths can be chained: words first, then the remaining bytes. -/
theorem C08_crc32_mixed_incremental (P c : U32) (a : List U64) (a' : List U32) (b : List U8) :
    ((crc32Longs P c a).bind fun d => (crc32Words P d a').bind fun e => crc32Bytes P e b) =
      crc32Bytes P c (a.flatMap bytes64 ++ a'.flatMap bytes32 ++ b) := by
  rw [C08_crc32_incremental, C08_crc32_incremental, C07_crc32_longs_is_bytes]
  simp only [C07_crc32_words_is_bytes, Option.bind_assoc]

/-- C08.  `crc32c` of a literal is the CRC-32C with initial value of the characters before the
terminating NUL. -/
theorem C08_crc32c_literal (s : List U8) :
    crc32c (s ++ [0]) = crc32Bytes crc32cPoly 0 s := by
  simp [crc32c, crc32Bytes]

example : crc32c [0x31, 0x32, 0x33, 0x34, 0x35, 0x36, 0x37, 0x38, 0x39, 0] = some 0xe3069283 := by
  decide +kernel

/-- C09.  Burst errors: two messages that differ, but only inside a window of at most 32
consecutive bits (transmission order, least significant bit of each byte first), have different
CRCs, for any polynomial with a constant term, any starting value, any length and position. -/
theorem C09_burst_error_detected (P c : U32) (hP : P.getLsbD 31 = true) (m₁ m₂ : List U8)
    (pre x y post : List Bool)
    (h₁ : m₁.flatMap bitsOf = pre ++ x ++ post) (h₂ : m₂.flatMap bitsOf = pre ++ y ++ post)
    (hlen : x.length = y.length) (hx : x.length ≤ 32) (hne : x ≠ y) :
    crc32Bytes P c m₁ ≠ crc32Bytes P c m₂ := by
  rw [C06_crc32_bytes_is_serial, C06_crc32_bytes_is_serial, h₁, h₂]
  simp only [crcSpec, serial_append]
  intro h
  simp only [Option.some.injEq, BitVec.not_inj] at h
  have := serial_inj P hP _ _ _ h
  rw [serial_eq _ _ x hx, serial_eq _ _ y (by omega), ← hlen] at this
  have := linN_inj P hP _ _ _ this
  have hw : wordOf x = wordOf y := (BitVec.xor_right_inj _).mp this
  apply hne
  apply List.ext_getElem hlen
  intro i hi1 hi2
  have := congrArg (fun w => w.getLsbD i) hw
  simp only [wordOf_getLsbD] at this
  simpa [show i < 32 by omega, hi1, hi2] using this

/-- the Castagnoli polynomial meets the hypothesis of the C09 theorems -/
example : crc32cPoly.getLsbD 31 = true := by decide
/-- and so does a concrete pair of messages with an 11-bit burst across a byte boundary -/
example : ([0x12, 0x34, 0x56] : List U8).flatMap bitsOf =
    (bitsOf (0x12 : U8) ++ [false, false]) ++ [true, false, true, true, false, false, false, true, true, false, true]
      ++ [false, true, false] ∧
    ([0x12, 0x00, 0x55] : List U8).flatMap bitsOf =
    (bitsOf (0x12 : U8) ++ [false, false]) ++ [false, false, false, false, false, false, true, false, true, false, true]
      ++ [false, true, false] := by decide

/-- C09.  Exact characterisation: messages of the same length have the same CRC if and only if the
generator polynomial divides the difference of their polynomials over GF(2). -/
theorem C09_equal_crc_iff_divides (P c : U32) (hP : P.getLsbD 31 = true) (m₁ m₂ : List U8)
    (hlen : m₁.length = m₂.length) :
    crc32Bytes P c m₁ = crc32Bytes P c m₂ ↔
      genPoly P ∣ msgPoly (m₁.flatMap bitsOf) - msgPoly (m₂.flatMap bitsOf) := by
  rw [C06_crc32_bytes_is_serial, C06_crc32_bytes_is_serial]
  simp only [crcSpec, Option.some.injEq, BitVec.not_inj]
  apply serial_eq_iff P _ hP
  simp [List.length_flatMap, bitsOf, hlen]

/-- C09.  The starting value is never lost: different starting values give different CRCs. -/
theorem C09_initial_value_injective (P c d : U32) (hP : P.getLsbD 31 = true) (m : List U8)
    (h : crc32Bytes P c m = crc32Bytes P d m) : c = d := by
  rw [C06_crc32_bytes_is_serial, C06_crc32_bytes_is_serial] at h
  simp only [crcSpec, Option.some.injEq, BitVec.not_inj] at h
  exact BitVec.not_inj.mp (serial_inj P hP _ _ _ h)

/-- C09.  The CRC is affine: the difference of two CRCs depends only on the difference of the
messages. -/
theorem C09_difference_depends_on_xor (P c c' : U32) (a b a' b' : List U8)
    (hl : a.length = b.length) (hl' : a'.length = b'.length)
    (hx : List.zipWith (· ^^^ ·) a b = List.zipWith (· ^^^ ·) a' b') :
    ∃ x y x' y', crc32Bytes P c a = some x ∧ crc32Bytes P c b = some y ∧
      crc32Bytes P c' a' = some x' ∧ crc32Bytes P c' b' = some y' ∧ x ^^^ y = x' ^^^ y' := by
  have key : ∀ (a b a' b' : List U8) (v w v' w' : U32), a.length = b.length →
      a'.length = b'.length → List.zipWith (· ^^^ ·) a b = List.zipWith (· ^^^ ·) a' b' →
      v ^^^ w = v' ^^^ w' →
      serial P v (a.flatMap bitsOf) ^^^ serial P w (b.flatMap bitsOf) =
        serial P v' (a'.flatMap bitsOf) ^^^ serial P w' (b'.flatMap bitsOf) := by
    intro a
    induction a with
    | nil =>
      intro b a' b' v w v' w' hl hl' hx hv
      have hb : b = [] := by simpa using hl.symm
      subst hb
      have ha' : a' = [] := by
        have := congrArg List.length hx
        simp only [List.length_zipWith, List.length_nil] at this
        rw [← hl'] at this
        simpa using this.symm
      subst ha'
      have hb' : b' = [] := by simpa using hl'.symm
      subst hb'
      simpa [serial] using hv
    | cons p a ih =>
      intro b a' b' v w v' w' hl hl' hx hv
      cases b with
      | nil => simp at hl
      | cons q b =>
        cases a' with
        | nil => simp at hx
        | cons p' a' =>
          cases b' with
          | nil => simp at hl'
          | cons q' b' =>
            simp only [List.zipWith_cons_cons, List.cons.injEq] at hx
            simp only [List.flatMap_cons, serial_append]
            apply ih _ _ _ _ _ _ _ (by simpa using hl) (by simpa using hl') hx.2
            have hl8 : ∀ x : U8, (bitsOf x).length = 8 := by simp [bitsOf]
            rw [serial_eq _ _ _ (by rw [hl8]; omega), serial_eq _ _ _ (by rw [hl8]; omega),
              serial_eq _ _ _ (by rw [hl8]; omega), serial_eq _ _ _ (by rw [hl8]; omega)]
            simp only [hl8, wordOf_bitsOf8, ← linN_xor]
            have hz : (p.zeroExtend 32 : U32) ^^^ q.zeroExtend 32 =
                p'.zeroExtend 32 ^^^ q'.zeroExtend 32 := by
              have := congrArg (BitVec.zeroExtend 32) hx.1
              simpa only [BitVec.truncate_eq_setWidth, BitVec.setWidth_xor] using this
            congr 1
            rw [show v ^^^ BitVec.zeroExtend 32 p ^^^ (w ^^^ BitVec.zeroExtend 32 q) =
                (v ^^^ w) ^^^ (BitVec.zeroExtend 32 p ^^^ BitVec.zeroExtend 32 q) by ac_rfl,
              hv, hz]
            ac_rfl
  refine ⟨_, _, _, _, C06_crc32_bytes_is_serial P c a, C06_crc32_bytes_is_serial P c b,
    C06_crc32_bytes_is_serial P c' a', C06_crc32_bytes_is_serial P c' b', ?_⟩
  have hn : ∀ x y : U32, ~~~x ^^^ ~~~y = x ^^^ y := by
    intro x y
    apply BitVec.eq_of_getLsbD_eq
    intro i hi
    simp [hi]
  simp only [crcSpec, hn]
  exact key a b a' b' _ _ _ _ hl hl' hx (by rw [BitVec.xor_self, BitVec.xor_self])

end CE.Crc
