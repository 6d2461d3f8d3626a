import Verif.Proof.Base64
/-!
# C12, C13: base64
-/
namespace CE.Base64

/-- C12.  For every byte string `bs`, with its base64 letters followed by any text that does not
begin with a base64 character (a NUL, `=` padding, ...), `size` gives the number of bytes and
`decode` gives the bytes. (Strings below 2^62 bytes, i.e. anything that fits memory.) -/
theorem C12_decode_inverts_encode (bs : List Nat) (hb : ∀ b ∈ bs, b < 256) (hl : bs.length ≤ 2 ^ 62)
    (c : Nat) (t : List Nat) (hc : c < 256) (hc' : ¬ IsLetter c) :
    sizeText 0 (encode bs ++ c :: t) = some bs.length ∧
      decode bs.length (encode bs ++ c :: t) = some bs := by
  constructor
  · have : isBase64 c = false := by
      have h := isBase64_iff c hc
      cases hb : isBase64 c with
      | false => rfl
      | true => exact absurd (h.mp hb) hc'
    rw [sizeText_eq _ _ _ _ (encode_letters bs hb) this, encode_length, size_eq _ (by omega)]
    congr 1; omega
  · unfold decode
    rw [mapM_eq _ _ (fun i => bs.getD i 0)]
    · congr 1
      apply List.ext_getElem (by simp)
      intro i h1 h2
      simp [h2]
    · intro i hi
      simp only [List.mem_range] at hi
      rw [decodeByte_encode bs hb _ hl i hi]
      simp [hi]

/-- NUL and `=` end the text -/
example : ¬ IsLetter 0 ∧ ¬ IsLetter 61 := by
  constructor <;> · rintro ⟨x, hx, h⟩; revert x; decide
/-- "TWFu" is "Man", "TWE=" is "Ma" -/
example : decode 3 (encode [77, 97, 110] ++ [0]) = some [77, 97, 110] ∧
    encode [77, 97, 110] = "TWFu".toList.map Char.toNat ∧
    sizeText 0 ("TWE=".toList.map Char.toNat) = some 2 ∧
    decode 2 ("TWE=".toList.map Char.toNat) = some [77, 97] := by decide +kernel

/-- C12.  Different byte strings have different encodings, so decoding is also the only inverse. -/
theorem C12_encode_injective (a b : List Nat) (ha : ∀ x ∈ a, x < 256) (hb : ∀ x ∈ b, x < 256)
    (hla : a.length ≤ 2 ^ 62) (hlb : b.length ≤ 2 ^ 62) (h : encode a = encode b) : a = b := by
  have hn : ¬ IsLetter 0 := by rintro ⟨x, hx, h⟩; revert x; decide
  have h1 := C12_decode_inverts_encode a ha hla 0 [] (by omega) hn
  have h2 := C12_decode_inverts_encode b hb hlb 0 [] (by omega) hn
  rw [h] at h1
  have hl : a.length = b.length := by
    have := h1.1.symm.trans h2.1
    simpa using this
  rw [hl] at h1
  have := h1.2.symm.trans h2.2
  simpa using this

/-- C13.  `size(n)` is `floor(3n/4)` for every 64-bit `n`, although `3 * n` may not fit. -/
theorem C13_size_exact (n : Nat) (h : n < 2 ^ 64) : size n = n * 3 / 4 := size_eq n h

example : size (2 ^ 64 - 1) = 13835058055282163711 := by decide

/-- C13.  For any text (not only valid encodings) of `n` base64 characters followed by a
terminator, `decode` with the size computed by `size` reads only the `n` characters - it gives
the same result whatever the terminator and the memory behind it are, even if there is none - and
produces exactly `size` bytes. -/
theorem C13_decode_in_bounds (s : List Nat) (hl : s.length ≤ 2 ^ 62) :
    ∃ out, decode (size s.length) s = some out ∧ out.length = size s.length ∧
      (∀ x ∈ out, x < 256) ∧ ∀ t, decode (size s.length) (s ++ t) = some out := by
  have hsz : size s.length = s.length * 3 / 4 := size_eq _ (by omega)
  have key : ∀ i, i < size s.length → ∀ t, decodeByte (s ++ t) i =
      some (((dec (s.getD (i * 4 / 3) 0) <<< (i % 3 * 2 + 2)) +
        (dec (s.getD (i * 4 / 3 + 1) 0) >>> (6 - (i % 3 * 2 + 2)))) % 256) := by
    intro i hi t
    have h4 : i * 4 % 2 ^ 64 = i * 4 := by omega
    have h1 : i * 4 / 3 + 1 < s.length := by omega
    unfold decodeByte
    rw [h4, List.getElem?_append_left (by omega), List.getElem?_append_left (by omega)]
    simp [h1, show i * 4 / 3 < s.length by omega]
  let f : Nat → Nat := fun i => ((dec (s.getD (i * 4 / 3) 0) <<< (i % 3 * 2 + 2)) +
        (dec (s.getD (i * 4 / 3 + 1) 0) >>> (6 - (i % 3 * 2 + 2)))) % 256
  refine ⟨_, mapM_eq _ _ f (fun i hi => ?_), by simp, ?_, fun t => mapM_eq _ _ f (fun i hi => ?_)⟩
  · have := key i (by simpa using hi) []
    rw [List.append_nil] at this
    exact this
  · intro x hx
    simp only [List.mem_map] at hx
    obtain ⟨i, _, rfl⟩ := hx
    exact Nat.mod_lt _ (by omega)
  · exact key i (by simpa using hi) t

end CE.Base64
