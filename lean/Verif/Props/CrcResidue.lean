import Verif.Props.Crc
import Mathlib.Data.Fintype.EquivFin
/-!
# C121: data followed by its CRC
-/
namespace CE.Crc

/-- appending one word -/
theorem append_word (P c : U32) (data : List U8) (d w : U32) (h : crc32Bytes P c data = some d) :
    crc32Bytes P c (data ++ bytes32 w) = some (~~~ linN P 32 (~~~ d ^^^ w)) := by
  rw [C08_crc32_incremental, h, Option.bind_some]
  have e := C07_crc32_words_is_bytes P d [w]
  simp only [List.flatMap_cons, List.flatMap_nil, List.append_nil] at e
  rw [← e]
  have hl : (bitsOf w).length = 32 := by simp [bitsOf]
  simp only [crc32Words, List.foldlM_cons, List.foldlM_nil, stepWord_eq, Option.bind_eq_bind,
    Option.bind_some, Option.pure_def]
  rw [serial_eq P _ _ (by omega), hl, wordOf_bitsOf32]

/-- every call gives a value -/
theorem total (P c : U32) (data : List U8) : ∃ d, crc32Bytes P c data = some d :=
  ⟨_, C06_crc32_bytes_is_serial P c data⟩

/-- C121.  A message followed by its own CRC (least significant byte first) has the same CRC whatever the
message, its length and the starting value: the residue. -/
theorem C121_residue (P : U32) : ∃ r, ∀ c data d, crc32Bytes P c data = some d →
    crc32Bytes P c (data ++ bytes32 d) = some r := by
  refine ⟨~~~ linN P 32 (~~~ 0), fun c data d h => ?_⟩
  rw [append_word P c data d d h]
  have : ~~~ d ^^^ d = ~~~ (0 : U32) := by
    rw [← BitVec.xor_allOnes, BitVec.xor_comm d, BitVec.xor_assoc, BitVec.xor_self]
    rfl
  rw [this]

/-- C121.  The residue of CRC-32C is the published one. -/
theorem C121_residue_crc32c (c : U32) (data : List U8) (d : U32) (h : crc32Bytes crc32cPoly c data = some d) :
    crc32Bytes crc32cPoly c (data ++ bytes32 d) = some 0x48674bc7 := by
  obtain ⟨r, hr⟩ := C121_residue crc32cPoly
  have h0 : crc32Bytes crc32cPoly 0 ([] ++ bytes32 0) = some 0x48674bc7 := by decide +kernel
  have := hr 0 [] 0 (by decide +kernel)
  rw [h0] at this
  rw [hr c data d h, this]

/-- C121.  So a received message with its CRC can be checked in one pass: the result is the residue if and
only if the four bytes are the CRC of the rest. -/
theorem C121_check (c : U32) (data : List U8) (w : U32) :
    crc32Bytes crc32cPoly c (data ++ bytes32 w) = some 0x48674bc7 ↔ crc32Bytes crc32cPoly c data = some w := by
  refine ⟨fun h => ?_, C121_residue_crc32c c data w⟩
  obtain ⟨d, hd⟩ := total crc32cPoly c data
  have h' := C121_residue_crc32c c data d hd
  rw [append_word _ _ _ d _ hd] at h h'
  have := h.trans h'.symm
  simp only [Option.some.injEq] at this
  have := linN_inj crc32cPoly (by decide) _ _ _ (BitVec.not_inj.1 this)
  rw [hd, (BitVec.xor_right_inj _).mp this]

/-- C121.  It is no protection against intent: whatever the message, exactly one choice of four bytes after
it gives any wanted CRC. -/
theorem C121_forge (P c : U32) (hP : P.getLsbD 31 = true) (data : List U8) (t : U32) :
    ∃! w : U32, crc32Bytes P c (data ++ bytes32 w) = some t := by
  obtain ⟨d, hd⟩ := total P c data
  have hinj : Function.Injective fun w : U32 => ~~~ linN P 32 (~~~ d ^^^ w) := by
    intro a b hab
    exact (BitVec.xor_right_inj _).mp (linN_inj P hP _ _ _ (BitVec.not_inj.1 hab))
  haveI : Finite U32 := Finite.of_injective (fun x : U32 => x.toFin) fun a b h => BitVec.toFin_inj.1 h
  have hsurj : Function.Surjective fun w : U32 => ~~~ linN P 32 (~~~ d ^^^ w) :=
    Finite.surjective_of_injective hinj
  obtain ⟨w, hw⟩ := hsurj t
  refine ⟨w, ?_, fun v hv => ?_⟩
  · dsimp only
    rw [append_word P c data d w hd]; exact congrArg some hw
  · dsimp only at hv
    rw [append_word P c data d v hd] at hv
    exact hinj ((Option.some.inj hv).trans hw.symm)

example : crc32Bytes crc32cPoly 0 [0x31, 0x32, 0x33, 0x34, 0x35, 0x36, 0x37, 0x38, 0x39] = some 0xe3069283 ∧
    crc32Bytes crc32cPoly 0 ([0x31, 0x32, 0x33, 0x34, 0x35, 0x36, 0x37, 0x38, 0x39] ++ bytes32 0xe3069283) =
      some 0x48674bc7 := by decide +kernel
example : crc32cPoly.getLsbD 31 = true := by decide

end CE.Crc
