import Verif.Proof.Lziii
/-!
# C35-C37: lziii decompression
-/
namespace CE.Lziii

theorem expand_length (ts : List Tok) (out : List U8) (hv : Valid out.length ts) :
    (expand ts out).length = out.length + total ts := by
  induction ts generalizing out with
  | nil => rfl
  | cons t ts ih =>
    rw [total_cons]
    cases t with
    | lit x =>
      rw [expand, ih _ (by rw [List.length_append]; exact hv.2)]
      simp [Tok.count]; omega
    | span off len =>
      have : ∀ (k : Nat) (out : List U8), (copyBack off k out).length = out.length + k := by
        intro k
        induction k with
        | zero => intro out; rfl
        | succ k ih => intro out; rw [copyBack, ih]; simp; omega
      rw [expand, ih _ (by rw [this]; exact hv.2), this]
      simp [Tok.count]; omega

/-- C35, C36.  For every valid token list and every encoding of it: `size` gives the exact length of
the expansion, and `decode` with that size reads only the encoding (no access outside it), reads no
destination byte before writing it, writes nothing at or beyond `size`, and leaves exactly the
expansion in the destination. -/
theorem C35_decode_expands (ts : List Tok) (e : List U8) (he : Encodes ts e) (hv : Valid 0 ts)
    (h64 : (expand ts []).length < 2 ^ 64) :
    size e = some (expand ts []).length ∧
    ∃ dst, decode (expand ts []).length e = some dst ∧ ∀ j, dst j = (expand ts [])[j]? := by
  have h1 := encodes_encFrom he 0 hv
  have hlen : (expand ts []).length = total ts := by
    have := expand_length ts [] hv; simpa using this
  rw [hlen] at h64 ⊢
  refine ⟨?_, ?_⟩
  · have := sizeLoop_eq h1 0 (by omega)
    rw [Nat.zero_add] at this
    exact this
  · obtain ⟨d, e1, e2, _⟩ := decodeLoop_eq h1 (total ts) (fun _ => none) [] (fun j => by simp) hv
      (by simp) h64
    exact ⟨d, e1, e2⟩

/-- C36.  The size is exact: the bytes below `size(e)` are all written, none beyond. -/
theorem C36_size_exact (ts : List Tok) (e : List U8) (he : Encodes ts e) (hv : Valid 0 ts)
    (h64 : (expand ts []).length < 2 ^ 64) :
    ∃ n dst, size e = some n ∧ decode n e = some dst ∧ ∀ j, (dst j).isSome ↔ j < n := by
  obtain ⟨h1, dst, h2, h3⟩ := C35_decode_expands ts e he hv h64
  exact ⟨_, dst, h1, h2, fun j => by rw [h3 j]; simp⟩

/-- Every token list has an encoding, so the theorems above are about all token lists. -/
theorem C35_encodable (ts : List Tok) : Encodes ts (encode ts) :=
  encode_encodes _ ts (Nat.le_refl _)

/-- round trip through the encoder -/
theorem C35_round_trip (ts : List Tok) (hv : Valid 0 ts) (h64 : (expand ts []).length < 2 ^ 64) :
    ∃ n dst, size (encode ts) = some n ∧ decode n (encode ts) = some dst ∧
      (List.range n).map dst = (expand ts []).map some := by
  obtain ⟨h1, dst, h2, h3⟩ := C35_decode_expands ts _ (C35_encodable ts) hv h64
  refine ⟨_, dst, h1, h2, ?_⟩
  apply List.ext_getElem? fun j => ?_
  simp only [List.getElem?_map, List.getElem?_range]
  by_cases hj : j < (expand ts []).length
  · simp [hj, h3 j]
  · simp [hj]

/-- an overlapping span: "ab" then 7 bytes from 2 back -/
example : Valid 0 [.lit 97, .lit 98, .span 2 7] ∧
    expand [.lit 97, .lit 98, .span 2 7] [] = [97, 98, 97, 98, 97, 98, 97, 98, 97] ∧
    Encodes [.lit 97, .lit 98, .span 2 7] [0b011, 97, 98, 0xfe, 0x4f] := by
  refine ⟨by simp [Valid, Tok.Ok, Tok.count], by decide, ?_⟩
  refine .group 0b011 [.lit 97, .lit 98, .span 2 7] [] [] (by simp) (.inr ⟨by simp, rfl⟩) ?_ .nil
  intro i t h
  match i, h with
  | 0, h => simp at h; subst h; decide
  | 1, h => simp at h; subst h; decide
  | 2, h => simp at h; subst h; decide
  | i + 3, h => simp at h

/-- C37 is false.  A span that starts before the beginning of the output makes `decode` read outside
the destination. -/
theorem C37_bad_offset_false :
    size [0, 0xfc, 0x0f] = some 3 ∧ decode 3 [0, 0xfc, 0x0f] = none := by
  constructor
  · unfold size
    rw [sizeLoop_round _ _ _ (by simp), fetch_one, Option.bind_some]
    exact sizeLoop_nil _ _
  · unfold decode
    rw [decodeLoop_round _ _ _ _ _ (by omega), token_fetch]
    have ht : token ((0 : U8).toNat ||| 0x100) [0xfc, 0x0f] =
        some ((0 : U8).toNat ||| 0x100, 0xfc, some 0x0f, []) := by decide
    rw [ht, Option.bind_some]
    have hb := spanBegin_wrap 0 0xfc 0x0f 4 (by decide) (by omega)
    unfold emit
    dsimp only
    rw [hb]
    have hk : spanEnd (0 + 2 ^ 64 - 4) 0x0f - (0 + 2 ^ 64 - 4) = 3 := by
      unfold spanEnd w64; decide
    rw [hk]
    rfl

/-- C37 is false.  A stream that ends after its control byte makes `size` itself read outside. -/
theorem C37_truncated_false : size [0] = none := by
  unfold size
  rw [sizeLoop_round _ _ _ (by simp), fetch_one, Option.bind_some]
  rfl

/-- a byte of the stream accounts for at most 18 decoded bytes -/
theorem sizeLoop_bound : ∀ (k : Nat) (src : List U8), src.length ≤ k → ∀ (c m N : Nat),
    sizeLoop c m src = some N → m + 19 * src.length < 2 ^ 64 → N ≤ m + 18 * src.length := by
  intro k
  induction k with
  | zero =>
    intro src hk c m N hs _
    have : src = [] := by simpa using hk
    subst this
    rw [sizeLoop_nil] at hs
    simp only [Option.some.injEq] at hs
    omega
  | succ k ih =>
    intro src hk c m N hs hn
    by_cases hsrc : src = []
    · exact ih src (by simp [hsrc]) c m N hs hn
    rw [sizeLoop_round _ _ _ hsrc] at hs
    have hne : src.length ≠ 0 := by simpa using hsrc
    cases hf : fetch c src with
    | none => rw [hf] at hs; cases hs
    | some r =>
      obtain ⟨c1, rest⟩ := r
      rw [hf, Option.bind_some] at hs
      have hl := fetch_length hf
      dsimp only at hs
      split at hs
      · split at hs
        · cases hs
        · rename_i q rest' h2
          have := congrArg List.length h2
          simp only [List.length_drop, List.length_cons] at this
          have hq := q.isLt
          rw [w64_eq (m + 1) (by omega), w64_eq _ (by omega)] at hs
          have := ih rest' (by omega) _ _ _ hs (by omega)
          omega
      · rw [w64_eq (m + 1) (by omega)] at hs
        have := ih (rest.drop 1) (by simp; omega) _ _ _ hs (by simp; omega)
        simp only [List.length_drop] at this
        omega

theorem encFrom_total_le {c : Nat} {ts : List Tok} {e : List U8} (h : EncFrom c ts e) :
    total ts ≤ 18 * e.length := by
  induction h with
  | nil => simp [total]
  | fetch ctl t ts e h ih => simp only [List.length_cons]; omega
  | lit c x ts e _ _ h ih => rw [total_cons]; simp only [Tok.count, List.length_cons]; omega
  | span c off len ts e _ _ hb h ih =>
    rw [total_cons]; simp only [Tok.count, Tok.payload, List.length_append, List.length_cons]; omega

/-- What does hold for arbitrary bytes (of any length a 64-bit machine can hold): `size` followed by
`decode` is free of bad accesses exactly when the stream is well formed.
Missing from C37: safety on malformed streams, which fails as shown above. -/
theorem C37_safe_iff_well_formed_partial (e : List U8) (hlen : e.length < 2 ^ 59) :
    (∃ n dst, size e = some n ∧ decode n e = some dst) ↔ ∃ ts, Encodes ts e ∧ Valid 0 ts := by
  constructor
  · rintro ⟨n, dst, h1, h2⟩
    have hb := sizeLoop_bound _ e (Nat.le_refl _) 1 0 n h1 (by omega)
    obtain ⟨⟨ts, a, b⟩, _⟩ := decode_wf _ e (Nat.le_refl _) 1 0 n h1 (by omega) n (by omega) _ dst 0
      (by omega) h2
    exact ⟨ts, encFrom_encodes _ e (Nat.le_refl _) ts a, b⟩
  · rintro ⟨ts, h1, h2⟩
    have := encFrom_total_le (encodes_encFrom h1 0 h2)
    have hl := expand_length ts [] h2
    simp only [List.length_nil] at hl
    obtain ⟨a, dst, b, _⟩ := C35_decode_expands ts e h1 h2 (by omega)
    exact ⟨_, dst, a, b⟩

end CE.Lziii
