import Verif.Proof.Base64
/-!
# What `base64::decode` makes of any text of base64 letters (C128)
-/
namespace CE.Base64

/-- bit `j` of a sequence of numbers of `w` bits each, written one after the other, the highest bit of each first -/
def bitAt (w : Nat) (l : List Nat) (j : Nat) : Bool := (l.getD (j / w) 0).testBit (w - 1 - j % w)

theorem getD_at {l : List Nat} {i : Nat} (h : i < l.length) : l.getD i 0 = l[i] := by simp [h]

/-- the byte made of two neighbouring letters -/
theorem join_bit {a b n k : Nat} (hb : b < 64) (hn : n ≤ 6) (hk : k < 8) :
    (((a <<< n) + (b >>> (6 - n))) % 256).testBit k = if n ≤ k then a.testBit (k - n) else b.testBit (6 - n + k) := by
  have h : b >>> (6 - n) < 2 ^ n := by
    rw [Nat.shiftRight_eq_div_pow, Nat.div_lt_iff_lt_mul (by positivity), ← pow_add, show n + (6 - n) = 6 by omega]
    exact hb
  rw [show (256 : Nat) = 2 ^ 8 by rfl, Nat.testBit_mod_two_pow,
    Nat.shiftLeft_add_eq_or_of_lt h, Nat.testBit_or, Nat.testBit_shiftLeft, Nat.testBit_shiftRight]
  by_cases c : n ≤ k
  · have : (b.testBit (6 - n + k)) = false := Nat.testBit_lt_two_pow (lt_of_lt_of_le hb (by
      rw [show (64 : Nat) = 2 ^ 6 by rfl]; exact Nat.pow_le_pow_right (by omega) (by omega)))
    simp [c, hk, this]
  · simp [c, hk]

/-- C128.  A text of `n` letters, whatever follows, is decoded to `floor(3n/4)` bytes, whose bits are those of the letters in
the same order. -/
theorem C128_bits (vs t : List Nat) (hv : ∀ v ∈ vs, v < 64) (hl : vs.length ≤ 2 ^ 62) :
    ∃ out, decode (size vs.length) (vs.map letter ++ t) = some out ∧ out.length = vs.length * 3 / 4 ∧
      (∀ x ∈ out, x < 256) ∧ ∀ j, j < 8 * out.length → bitAt 8 out j = bitAt 6 vs j := by
  have hsz : size vs.length = vs.length * 3 / 4 := size_eq _ (by omega)
  let f : Nat → Nat := fun i => ((vs.getD (i * 4 / 3) 0 <<< (i % 3 * 2 + 2)) +
    (vs.getD (i * 4 / 3 + 1) 0 >>> (6 - (i % 3 * 2 + 2)))) % 256
  have key : ∀ i, i < vs.length * 3 / 4 → decodeByte (vs.map letter ++ t) i = some (f i) := by
    intro i hi
    have h4 : i * 4 % 2 ^ 64 = i * 4 := by omega
    have h1 : i * 4 / 3 + 1 < vs.length := by omega
    have h0 : i * 4 / 3 < vs.length := by omega
    unfold decodeByte
    rw [h4, List.getElem?_append_left (by simpa using h0), List.getElem?_append_left (by simpa using h1)]
    simp [h1, h0, f, dec_letter _ (hv _ (List.getElem_mem h0)), dec_letter _ (hv _ (List.getElem_mem h1))]
  refine ⟨(List.range (vs.length * 3 / 4)).map f, ?_, by simp, ?_, ?_⟩
  · rw [hsz]; exact mapM_eq _ _ f (fun i hi => key i (by simpa using hi))
  · intro x hx
    simp only [List.mem_map] at hx
    obtain ⟨i, _, rfl⟩ := hx
    exact Nat.mod_lt _ (by omega)
  · intro j hj
    simp only [List.length_map, List.length_range] at hj
    have hi : j / 8 < vs.length * 3 / 4 := by omega
    have hb : vs.getD (j / 8 * 4 / 3 + 1) 0 < 64 := by
      have h1 : j / 8 * 4 / 3 + 1 < vs.length := by omega
      rw [getD_at h1]
      exact hv _ (List.getElem_mem h1)
    have e : ((List.range (vs.length * 3 / 4)).map f).getD (j / 8) 0 = f (j / 8) := by
      rw [getD_at (by simpa using hi)]; simp
    unfold bitAt
    rw [e]
    show (((_ <<< _) + (_ >>> _)) % 256).testBit _ = _
    rw [join_bit hb (by omega) (by omega)]
    split
    · rw [show j / 8 * 4 / 3 = j / 6 by omega, show 8 - 1 - j % 8 - (j / 8 % 3 * 2 + 2) = 6 - 1 - j % 6 by omega]
    · rw [show j / 8 * 4 / 3 + 1 = j / 6 by omega, show 6 - (j / 8 % 3 * 2 + 2) + (8 - 1 - j % 8) = 6 - 1 - j % 6 by omega]

/-- bytes are equal when their bits are -/
theorem bits_ext {a b : List Nat} (hl : a.length = b.length) (ha : ∀ x ∈ a, x < 256) (hb : ∀ x ∈ b, x < 256)
    (h : ∀ j, j < 8 * a.length → bitAt 8 a j = bitAt 8 b j) : a = b := by
  apply List.ext_getElem hl
  intro i h1 h2
  apply Nat.eq_of_testBit_eq
  intro k
  by_cases hk : k < 8
  · have := h (8 * i + (7 - k)) (by omega)
    unfold bitAt at this
    rw [show (8 * i + (7 - k)) / 8 = i by omega, show 8 - 1 - (8 * i + (7 - k)) % 8 = k by omega,
      getD_at h1, getD_at h2] at this
    exact this
  · have big : ∀ x, x < 256 → x.testBit k = false := fun x hx => Nat.testBit_lt_two_pow (lt_of_lt_of_le hx (by
      rw [show (256 : Nat) = 2 ^ 8 by rfl]; exact Nat.pow_le_pow_right (by omega) (by omega)))
    rw [big _ (ha _ (List.getElem_mem h1)), big _ (hb _ (List.getElem_mem h2))]

/-- C128.  Two texts of the same length are decoded to the same bytes exactly when they agree in the bits that belong to whole
bytes; the spare bits of the last letter are not looked at. -/
theorem C128_same (vs ws : List Nat) (hv : ∀ v ∈ vs, v < 64) (hw : ∀ v ∈ ws, v < 64) (hl : vs.length ≤ 2 ^ 62)
    (e : ws.length = vs.length) (s t : List Nat) :
    decode (size vs.length) (vs.map letter ++ s) = decode (size vs.length) (ws.map letter ++ t) ↔
      ∀ j, j < 8 * (vs.length * 3 / 4) → bitAt 6 vs j = bitAt 6 ws j := by
  obtain ⟨a, a1, a2, a3, a4⟩ := C128_bits vs s hv hl
  obtain ⟨b, b1, b2, b3, b4⟩ := C128_bits ws t hw (by omega)
  rw [e] at b1 b2
  rw [a1, b1, Option.some.injEq]
  constructor
  · rintro rfl j hj
    rw [← a4 j (by omega), ← b4 j (by omega)]
  · intro h
    refine bits_ext (by omega) a3 b3 (fun j hj => ?_)
    rw [a4 j hj, b4 j (by omega), h j (by omega)]

/-- C128.  A single letter behind whole groups of four is ignored. -/
theorem C128_surplus (vs t u : List Nat) (v : Nat) (hv : ∀ v ∈ vs, v < 64) (hl : vs.length < 2 ^ 62)
    (h4 : vs.length % 4 = 0) :
    size (vs.length + 1) = size vs.length ∧
      decode (size vs.length) (vs.map letter ++ letter v :: t) = decode (size vs.length) (vs.map letter ++ u) := by
  constructor
  · rw [size_eq _ (by omega), size_eq _ (by omega)]; omega
  · exact (C128_same vs vs hv hv (by omega) rfl _ _).2 (fun _ _ => rfl)

/-- C128.  Texts that differ need not be decoded to bytes that differ, so a text that no encoder writes is not told from the
proper one: `QQ` and `QR` are both `A`. -/
theorem C128_not_injective : ∃ s t : List Nat, s ≠ t ∧ s.length = t.length ∧ (∀ c ∈ s ++ t, IsLetter c) ∧
    decode (size 2) s = some [65] ∧ decode (size 2) t = some [65] := by
  refine ⟨[81, 81], [81, 82], by decide, rfl, ?_, by decide +kernel, by decide +kernel⟩
  intro c hc
  simp only [List.cons_append, List.nil_append, List.mem_cons, List.not_mem_nil, or_false] at hc
  rcases hc with rfl | rfl | rfl | rfl
  · exact ⟨16, by decide, by decide⟩
  · exact ⟨16, by decide, by decide⟩
  · exact ⟨16, by decide, by decide⟩
  · exact ⟨17, by decide, by decide⟩

-- five letters, `TWFuQ`: the last one is not used
example : (∀ v ∈ [19, 22, 5, 46], v < 64) ∧ [19, 22, 5, 46].length % 4 = 0 ∧
    decode (size 5) ([19, 22, 5, 46, 16].map letter) = some [77, 97, 110] ∧ bitAt 6 [19, 22, 5, 46] 7 = true ∧
    bitAt 8 [77, 97, 110] 7 = true := by decide +kernel

end CE.Base64
