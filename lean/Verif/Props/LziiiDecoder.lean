import Verif.Props.Lziii
/-!
# C129: what the destination held before decoding does not matter; `lziii::decoder`
-/
namespace CE.Lziii

/-- the two destinations agree below `i`, where both are written; from `i` on the one is untouched
and the other still holds `init` -/
def Beside (init : Cells) (i : Nat) (d d' : Cells) : Prop :=
  (∀ j, j < i → d' j = d j ∧ (d j).isSome) ∧ ∀ j, i ≤ j → d j = none ∧ d' j = init j

/-- both fail, or both go on to the same index -/
def Both (init : Cells) (r r' : Option (Cells × Nat)) : Prop :=
  (r = none ∧ r' = none) ∨
    ∃ d d' i, r = some (d, i) ∧ r' = some (d', i) ∧ Beside init i d d'

theorem beside_wr {init : Cells} {i : Nat} {d d' : Cells} (h : Beside init i d d') (D : Nat) (x : U8)
    (hi : i < D) : ∃ e e', wr D d i x = some e ∧ wr D d' i x = some e' ∧ Beside init (i + 1) e e' := by
  refine ⟨_, _, if_pos hi, if_pos hi, ?_, ?_⟩
  · intro j hj
    by_cases hji : j = i
    · simp [hji]
    · simpa [hji] using h.1 j (by omega)
  · intro j hj
    have hji : j ≠ i := by omega
    simpa [hji] using h.2 j (by omega)

theorem copyLoop_both {init : Cells} (D k : Nat) : ∀ (i b : Nat) (d d' : Cells), Beside init i d d' →
    (b < i ∨ D ≤ b) → Both init (copyLoop D k d i b) (copyLoop D k d' i b) := by
  induction k with
  | zero => intro i b d d' h _; exact .inr ⟨d, d', i, rfl, rfl, h⟩
  | succ k ih =>
    intro i b d d' h hb
    unfold copyLoop
    by_cases hD : b < D
    · have hbi : b < i := by omega
      obtain ⟨h1, h2⟩ := h.1 b hbi
      obtain ⟨x, hx⟩ := Option.isSome_iff_exists.1 h2
      rw [show rd D d b = some x by simp [rd, hD, hx], show rd D d' b = some x by simp [rd, hD, h1, hx]]
      by_cases hi : i < D
      · obtain ⟨e, e', a, a', hw⟩ := beside_wr h D x hi
        have := ih (i + 1) (b + 1) e e' hw (.inl (by omega))
        simpa [a, a'] using this
      · exact .inl (by simp [wr, hi])
    · exact .inl (by simp [rd, hD])

theorem emit_both {init : Cells} (D i : Nat) (d d' : Cells) (h : Beside init i d d') (hi : i < D)
    (hD : D ≤ 2 ^ 63) (p : U8) (q : Option U8) : Both init (emit D d i p q) (emit D d' i p q) := by
  cases q with
  | none =>
    obtain ⟨e, e', a, a', hw⟩ := beside_wr h D p hi
    exact .inr ⟨e, e', i + 1, by simp [emit, a], by simp [emit, a'], hw⟩
  | some q =>
    unfold emit
    refine copyLoop_both D _ i _ d d' h ?_
    have hp := p.isLt
    by_cases ho : 4096 - (q.toNat % 16 * 256 + p.toNat) ≤ i
    · rw [spanBegin_eq i p q (4096 - (q.toNat % 16 * 256 + p.toNat)) (by omega) (by omega) ho (by omega)]
      left; omega
    · rw [spanBegin_wrap i p q (4096 - (q.toNat % 16 * 256 + p.toNat)) (by omega) (by omega)]
      right; omega

theorem emit_le (D i : Nat) (d e : Cells) (p : U8) (q : Option U8) (i' : Nat) (hi : i < D)
    (h : emit D d i p q = some (e, i')) : i' ≤ D := by
  have hc : ∀ (k i b : Nat) (d : Cells), i ≤ D → copyLoop D k d i b = some (e, i') → i' ≤ D := by
    intro k
    induction k with
    | zero => intro i b d hi h; simp [copyLoop] at h; omega
    | succ k ih =>
      intro i b d _ h
      unfold copyLoop at h
      cases hr : rd D d b with
      | none => simp [hr] at h
      | some x =>
        by_cases hi : i < D
        · simp only [hr, wr, if_pos hi, Option.bind_eq_bind, Option.bind_some] at h
          exact ih (i + 1) _ _ (by omega) h
        · simp [hr, wr, hi] at h
  cases q with
  | none => simp [emit, wr, hi] at h; omega
  | some q => exact hc _ _ _ _ (by omega) h

theorem decodeLoop_both {init : Cells} (D : Nat) (hD : D ≤ 2 ^ 63) : ∀ (n : Nat) (src : List U8),
    src.length ≤ n → ∀ (c i : Nat) (d d' : Cells), i ≤ D → Beside init i d d' →
    (decodeLoop D d i c src = none ∧ decodeLoop D d' i c src = none) ∨
      ∃ e e', decodeLoop D d i c src = some e ∧ decodeLoop D d' i c src = some e' ∧
        Beside init D e e' := by
  intro n
  induction n with
  | zero =>
    intro src hs c i d d' hiD h
    have : src = [] := by simpa using hs
    subst this
    by_cases hi : i < D
    · left
      rw [decodeLoop_round _ _ _ _ _ hi, decodeLoop_round _ _ _ _ _ hi]
      have : token c [] = none := by
        unfold token fetch
        by_cases hc : c = 1 <;> simp [hc]
      simp [this]
    · right
      rw [decodeLoop_done _ _ _ _ _ hi, decodeLoop_done _ _ _ _ _ hi]
      exact ⟨d, d', rfl, rfl, by rwa [show D = i by omega]⟩
  | succ n ih =>
    intro src hs c i d d' hiD h
    by_cases hi : i < D
    · rw [decodeLoop_round _ _ _ _ _ hi, decodeLoop_round _ _ _ _ _ hi]
      cases ht : token c src with
      | none => left; simp
      | some r =>
        obtain ⟨c', p, q, rest⟩ := r
        have hl := token_length ht
        rcases emit_both D i d d' h hi hD p q with ⟨a, a'⟩ | ⟨e, e', i', a, a', hw⟩
        · left; simp [a, a']
        · have := ih rest (by omega) (c' / 2) i' e e' (emit_le D i d e p q i' hi a) hw
          simpa [a, a'] using this
    · right
      rw [decodeLoop_done _ _ _ _ _ hi, decodeLoop_done _ _ _ _ _ hi]
      exact ⟨d, d', rfl, rfl, by rwa [show D = i by omega]⟩

/-- C129.  For all bytes, well formed or not, every size of a destination and whatever it held
before: `decode` fails exactly when it fails on a destination that holds nothing; otherwise it sets
every byte below the size, to what it would set it to there, and none beyond. -/
theorem C129_overwrites (D : Nat) (hD : D ≤ 2 ^ 63) (init : Cells) (src : List U8) :
    (decode D src = none ∧ decodeInto D init src = none) ∨
      ∃ d d', decode D src = some d ∧ decodeInto D init src = some d' ∧
        (∀ j, j < D → d' j = d j ∧ (d j).isSome) ∧ ∀ j, D ≤ j → d' j = init j := by
  rcases decodeLoop_both (init := init) D hD _ src (Nat.le_refl _) 1 0 (fun _ => none) init (by omega)
    ⟨fun j hj => by omega, fun j _ => ⟨rfl, rfl⟩⟩ with h | ⟨d, d', a, a', h⟩
  · exact .inl h
  · exact .inr ⟨d, d', a, a', h.1, fun j hj => (h.2 j hj).2⟩

theorem decoder_eq {e : List U8} {n : Nat} (h : size e = some n) (hn : n ≠ 0) :
    decoder e = (decodeInto n (fun _ => some 0) e).map fun d => (n, d) := by
  unfold decoder
  rw [h, Option.bind_eq_bind, Option.bind_some, if_neg hn]
  cases decodeInto n (fun _ => some 0) e <;> rfl

theorem total_pos {ts : List Tok} (hv : Valid 0 ts) (hne : ts ≠ []) : 0 < total ts := by
  cases ts with
  | nil => exact absurd rfl hne
  | cons t ts =>
    rw [total_cons]
    have h := hv.1
    cases t with
    | lit x => simp only [Tok.count]; omega
    | span off len =>
      have : 3 ≤ len := h.2.2.1
      simp only [Tok.count]; omega

/-- C129.  What `decoder<T>` holds, for every valid list of tokens but the empty one: as many bytes
as the tokens stand for, and those. -/
theorem C129_data (ts : List Tok) (e : List U8) (he : Encodes ts e) (hv : Valid 0 ts) (hne : ts ≠ [])
    (h63 : (expand ts []).length ≤ 2 ^ 63) :
    ∃ d, decoder e = some ((expand ts []).length, d) ∧
      ∀ j, j < (expand ts []).length → d j = (expand ts [])[j]? := by
  obtain ⟨h1, dst, h2, h3⟩ := C35_decode_expands ts e he hv (by omega)
  have hpos : (expand ts []).length ≠ 0 := by
    have := expand_length ts [] hv
    have := total_pos hv hne
    omega
  rcases C129_overwrites _ h63 (fun _ => some 0) e with ⟨h, _⟩ | ⟨d, d', a, a', h4, _⟩
  · rw [h2] at h; cases h
  · rw [h2] at a; cases a
    refine ⟨d', ?_, fun j hj => by rw [(h4 j hj).1, h3]⟩
    rw [decoder_eq h1 hpos, a']; rfl

/-- C129.  `decoder<T>` compiles exactly when the bytes encode a valid list of tokens that is not
empty. -/
theorem C129_compiles_iff (e : List U8) (hlen : e.length < 2 ^ 58) :
    (decoder e).isSome ↔ ∃ ts, ts ≠ [] ∧ Encodes ts e ∧ Valid 0 ts := by
  constructor
  · intro h
    cases hs : size e with
    | none => simp [decoder, hs] at h
    | some n =>
      have hb := sizeLoop_bound _ e (Nat.le_refl _) 1 0 n hs (by omega)
      by_cases hn : n = 0
      · simp [decoder, hs, hn] at h
      rcases C129_overwrites n (by omega) (fun _ => some 0) e with ⟨_, h'⟩ | ⟨d, d', a, _⟩
      · rw [decoder_eq hs hn, h'] at h; cases h
      · obtain ⟨ts, b, c⟩ := (C37_safe_iff_well_formed_partial e (by omega)).1 ⟨n, d, hs, a⟩
        refine ⟨ts, ?_, b, c⟩
        rintro rfl
        cases e with
        | nil => exact hn (by rw [size, sizeLoop_nil] at hs; simpa using hs.symm)
        | cons x e =>
          generalize ht : ([] : List Tok) = l at b
          generalize he : x :: e = m at b
          cases b with
          | nil => cases he
          | group ctl g rest e hg => exact hg (List.append_eq_nil_iff.1 ht.symm).1
  · rintro ⟨ts, hne, he, hv⟩
    have := encFrom_total_le (encodes_encFrom he 0 hv)
    have hl := expand_length ts [] hv
    simp only [List.length_nil] at hl
    obtain ⟨d, h, _⟩ := C129_data ts e he hv hne (by omega)
    rw [h]; rfl

/-- a stream of an overlapping span is held decoded -/
example : ∃ d, decoder (encode [.lit 97, .lit 98, .span 2 7]) = some (9, d) ∧
    d 8 = some 97 := by
  obtain ⟨d, h, h'⟩ := C129_data [.lit 97, .lit 98, .span 2 7] _ (C35_encodable _)
    (by simp [Valid, Tok.Ok, Tok.count]) (by simp) (by decide)
  exact ⟨d, h, h' 8 (by decide)⟩

/-- a span before any byte does not compile, though `size` accepts it; nor does the empty stream -/
example : decoder [0, 0xfc, 0x0f] = none ∧ decoder [] = none := by
  constructor
  · rcases C129_overwrites 3 (by omega) (fun _ => some 0) [0, 0xfc, 0x0f] with ⟨_, h⟩ | ⟨d, d', a, _⟩
    · rw [decoder_eq C37_bad_offset_false.1 (by omega), h]; rfl
    · rw [C37_bad_offset_false.2] at a; cases a
  · simp [decoder, size, sizeLoop_nil]

end CE.Lziii
