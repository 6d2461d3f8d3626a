import Verif.Proof.AsString
import Verif.Spec.ToText
/-!
# C01 - C05: conversion of values to text
-/
namespace CE.ToText

/-- C01.  For every built-in integer type and every value of the type, whatever the buffer held
before: the conversion has no undefined table access, places exactly the decimal text of the value
at the destination, changes nothing else, and returns the pointer just behind the text. -/
theorem C01_to_text_integer_exact (T : IntTy) (hT : T.Ok) (i : Int) (h : T.InRange i)
    (m : Mem) (b : Nat) :
    toTextFromInteger T m b i =
      some (place m b (toString i).toList, b + (toString i).toList.length) := by
  have := toTextFromInteger_spec T hT i h m b [] b (by simp)
  simpa [place_nil] using this

example : (⟨8, true⟩ : IntTy).InRange (-9223372036854775808) := by decide
example : (toTextFromInteger ⟨8, true⟩ (fun _ => '.') 0 (-9223372036854775808)).map
    (fun r => (textAt r.1 0 22, r.2)) = some ("-9223372036854775808..".toList, 20) := by decide +kernel
example : (toTextFromInteger ⟨1, true⟩ (fun _ => '.') 1 (-128)).map
    (fun r => (textAt r.1 0 6, r.2)) = some (".-128.".toList, 5) := by decide +kernel

/-- C02.  The conversion only changes cells of the first `measure<T>` characters: any cell outside
`[b, b + measure)` keeps its content, and the returned pointer is inside (or one past) that range. -/
theorem C02_to_text_integer_in_measure (T : IntTy) (hT : T.Ok) (i : Int) (h : T.InRange i)
    (m : Mem) (b : Nat) :
    ∃ m' e, toTextFromInteger T m b i = some (m', e) ∧ b < e ∧ e ≤ b + measure T ∧
      ∀ j, (j < b ∨ e ≤ j) → m' j = m j := by
  refine ⟨_, _, C01_to_text_integer_exact T hT i h m b, ?_, ?_, ?_⟩
  · have : 0 < (toString i).toList.length := by
      rw [int_text]
      have h0 : Nat.toDigits 10 i.natAbs ≠ [] := by
        intro h0
        have := @Nat.length_toDigits_pos 10 i.natAbs
        rw [h0] at this; simp at this
      split
      · simp
      · exact List.length_pos_iff.mpr h0
    omega
  · have := int_text_length T hT i h
    omega
  · intro j hj
    simp only [place]
    rw [if_neg]
    omega

example : measure ⟨8, true⟩ = 20 ∧ (toString (-9223372036854775808 : Int)).length = 20 := by decide

/-- every cell of the destination range really is needed: for each type some value fills the
declared measure completely, so the measure is not just safe but tight (except `uint64`'s sign-free 20
and `int64`, both 20) -/
theorem C02_measure_tight (T : IntTy) (hT : T.Ok) :
    ∃ i, T.InRange i ∧ (toString i).length = measure T := by
  rcases T with ⟨s, sg⟩
  rcases hT with h | h | h | h <;> simp at h <;> subst h <;> cases sg
  · exact ⟨255, by decide, by decide⟩
  · exact ⟨-128, by decide, by decide⟩
  · exact ⟨65535, by decide, by decide⟩
  · exact ⟨-32768, by decide, by decide⟩
  · exact ⟨4294967295, by decide, by decide⟩
  · exact ⟨-2147483648, by decide, by decide⟩
  · exact ⟨18446744073709551615, by decide, by decide⟩
  · exact ⟨-9223372036854775808, by decide, by decide⟩

theorem readNat_append (l : List Char) (c : Char) :
    readNat (l ++ [c]) = 10 * readNat l + (c.toNat - 48) := by
  simp [readNat]

theorem digit_value (d : Nat) (h : d < 10) : (Nat.digitChar d).toNat - 48 = d := by
  revert d; decide

theorem readNat_pad (k u : Nat) (h : u < 10 ^ k) : readNat (pad k u) = u := by
  induction k generalizing u with
  | zero => simp at h; subst h; rfl
  | succ k ih =>
    rw [pad, readNat_append, ih _ (by rw [Nat.pow_succ] at h; omega),
      digit_value _ (Nat.mod_lt _ (by decide))]
    omega

theorem exists_digits (u : Nat) : ∃ k, u < 10 ^ (k + 1) ∧ (k = 0 ∨ 10 ^ k ≤ u) := by
  induction u using Nat.strongRecOn with
  | _ u ih =>
    by_cases h : u < 10
    · exact ⟨0, by simpa using h, Or.inl rfl⟩
    · obtain ⟨k, h1, h2⟩ := ih (u / 10) (by omega)
      refine ⟨k + 1, ?_, Or.inr ?_⟩
      · rw [Nat.pow_succ]; omega
      · rw [Nat.pow_succ]
        rcases h2 with h2 | h2
        · subst h2; simp; omega
        · omega

theorem readNat_toDigits (u : Nat) : readNat (Nat.toDigits 10 u) = u := by
  obtain ⟨k, h1, h2⟩ := exists_digits u
  rw [toDigits_eq_pad k u h1 h2, readNat_pad _ _ h1]

theorem pad_ne_minus (k u : Nat) : ∀ c ∈ pad k u, c ≠ '-' := by
  induction k generalizing u with
  | zero => simp [pad]
  | succ k ih =>
    intro c hc
    rw [pad, List.mem_append] at hc
    rcases hc with hc | hc
    · exact ih _ c hc
    · simp at hc
      subst hc
      have : ∀ d, d < 10 → Nat.digitChar d ≠ '-' := by decide
      exact this _ (Nat.mod_lt _ (by decide))

theorem readDec_toString (i : Int) : readDec (toString i).toList = i := by
  rw [int_text]
  split
  · simp only [readDec, readNat_toDigits]; omega
  · have hd := readNat_toDigits i.natAbs
    obtain ⟨k, h1, h2⟩ := exists_digits i.natAbs
    have hm : ∀ c ∈ Nat.toDigits 10 i.natAbs, c ≠ '-' := by
      rw [toDigits_eq_pad k _ h1 h2]; exact pad_ne_minus _ _
    have : readDec (Nat.toDigits 10 i.natAbs) = readNat (Nat.toDigits 10 i.natAbs) := by
      cases hl : Nat.toDigits 10 i.natAbs with
      | nil => rfl
      | cons c l =>
        have hc : c ≠ '-' := hm c (by simp [hl])
        unfold readDec
        split
        · rename_i heq; simp at heq; exact absurd heq.1 hc
        · rfl
    rw [this, hd]; omega

theorem textAt_place (m : Mem) (b : Nat) (l : List Char) : textAt (place m b l) b l.length = l := by
  apply List.ext_getElem
  · simp [textAt]
  · intro n h1 h2
    simp only [textAt, List.getElem_map, List.getElem_range, place]
    rw [if_pos (by omega)]
    simp [h2]

/-- C04.  Reading the produced characters as a decimal numeral gives the integer back. -/
theorem C04_to_text_reads_back (T : IntTy) (hT : T.Ok) (i : Int) (h : T.InRange i)
    (m : Mem) (b : Nat) :
    ∃ m' e, toTextFromInteger T m b i = some (m', e) ∧ readDec (textAt m' b (e - b)) = i := by
  refine ⟨_, _, C01_to_text_integer_exact T hT i h m b, ?_⟩
  have e : b + (toString i).toList.length - b = (toString i).toList.length := by omega
  rw [e, textAt_place, readDec_toString]

/-- C04.  Two values of a type with the same text are equal. -/
theorem C04_to_text_injective (T : IntTy) (hT : T.Ok) (i j : Int) (hi : T.InRange i)
    (hj : T.InRange j) (m : Mem) (b : Nat)
    (h : toTextFromInteger T m b i = toTextFromInteger T m b j) : i = j := by
  obtain ⟨m1, e1, h1, r1⟩ := C04_to_text_reads_back T hT i hi m b
  obtain ⟨m2, e2, h2, r2⟩ := C04_to_text_reads_back T hT j hj m b
  rw [h1, h2] at h
  simp only [Option.some.injEq, Prod.mk.injEq] at h
  rw [← r1, ← r2, h.1, h.2]

example : readDec "-120".toList = -120 := by decide

/-- C03.  For every list of arguments meeting the stated preconditions, `as_string` runs without
undefined behaviour, leaves in its array the concatenated texts followed by a NUL and nothing
else changed, and the text with its NUL fits the array. -/
theorem C03_as_string_concat_in_bounds (m : Mem) (args : List Arg) (h : ∀ a ∈ args, a.OkM) :
    asString m args = some (place m 0 ((args.map argTextM).flatten ++ [NUL])) ∧
      ((args.map argTextM).flatten ++ [NUL]).length ≤ asStringSize args := by
  constructor
  · have := toTextMs_spec m 0 [] 0 args h (by simp)
    rw [place_nil] at this
    simp only [asString, this, Option.bind_eq_bind, Option.bind_some, Option.pure_def]
    rw [write_place _ _ _ _ _ (by simp)]
    simp
  · have := flatten_length_le args h
    simp [asStringSize] at this ⊢; omega

/-- C03.  No cell outside the array `as` is modified. -/
theorem C03_as_string_outside_untouched (m : Mem) (args : List Arg) (h : ∀ a ∈ args, a.OkM) :
    ∃ m', asString m args = some m' ∧ ∀ j, asStringSize args ≤ j → m' j = m j := by
  obtain ⟨h1, h2⟩ := C03_as_string_concat_in_bounds m args h
  refine ⟨_, h1, fun j hj => ?_⟩
  simp only [place]
  rw [if_neg (by omega)]

/-- C03.  The array has no slack: arguments with the longest texts of their types fill it to the last character. -/
theorem C03_as_string_size_tight (args : List Arg) (h : ∀ a ∈ args, a.Longest) :
    ((args.map argTextM).flatten ++ [NUL]).length = asStringSize args := by
  have key : ∀ a : Arg, a.Longest → (argTextM a).length = argMeasure a := by
    intro a ha
    cases a with
    | int T i =>
      obtain ⟨h1, h2, h3⟩ := ha
      obtain ⟨j, h4, h5⟩ := C02_measure_tight T h1
      have h6 := int_text_length T h1 i h2
      have h7 := h3 j h4
      have h8 : (toString i).length = (toString i).toList.length := String.length_toList.symm
      show (toString i).toList.length = measure T
      omega
    | chr c => rfl
    | cstr s =>
      cases s with
      | none => exact ha.elim
      | some s =>
        have : 1024 ≤ (cText s).length := ha
        show ((cText s).take 1024).length = 1024
        rw [List.length_take]; omega
    | _ => exact ha.elim
  induction args with
  | nil => rfl
  | cons a as ih =>
    have := ih fun b hb => h b (List.mem_cons_of_mem _ hb)
    have k := key a (h a List.mem_cons_self)
    simp [asStringSize] at this ⊢
    omega

example : ∀ a ∈ [Arg.chr 'x', .int ⟨1, false⟩ 255], a.Longest := by
  intro a ha
  simp only [List.mem_cons, List.not_mem_nil, or_false] at ha
  rcases ha with rfl | rfl
  · trivial
  · refine ⟨Or.inl rfl, by decide, fun j hj => ?_⟩
    have := int_text_length ⟨1, false⟩ (Or.inl rfl) j hj
    have e : (toString (255 : Int)).length = 3 := by decide
    have e2 : (toString j).length = (toString j).toList.length := String.length_toList.symm
    have e3 : measure ⟨1, false⟩ = 3 := by decide
    omega

/-- a typical argument list satisfies the hypotheses of the C03 theorems -/
def sampleArgs : List Arg :=
  [.cstr (some (lit "x = ")), .int ⟨4, true⟩ (-7), .chr ',', .bool true, .carr (lit "abc"),
    .nil, .ptr 4096]
example : ∀ a ∈ sampleArgs, a.OkM := by
  simp [sampleArgs, Arg.OkM, Arg.Ok, IntTy.Ok, IntTy.InRange, lit]
example : (asString (fun _ => '.') sampleArgs).map (fun m => textAt m 0 40) =
    some ("x = -7,#<T>abc#<nil>#<ptr 4096>".toList ++ NUL :: "........".toList) := by decide +kernel

/-- C03, limit of the guarantee: a null `char const*` argument is dereferenced (undefined), unlike in
`to_text`, which prints `#<nil>`. -/
theorem C03_null_cstr_is_undefined (m : Mem) (b : Nat) (as : List Arg) :
    asString m (.cstr none :: as) = none ∧
      toText m b (.cstr none) = some (place m b "#<nil>".toList, b + 6) := by
  constructor
  · rfl
  · have := toText_spec m b [] b (.cstr none) trivial (by simp)
    simpa [place_nil, argText] using this

/-- C03, limit of the guarantee: a `char` array without NUL and shorter than 1024 is read past
its end (undefined), unlike in `to_text`, which stops at the array size. -/
theorem C03_unterminated_array_is_undefined (m : Mem) (b : Nat) (s : List Char) (as : List Arg)
    (h : NUL ∉ s) (hs : s.length < 1024) :
    asString m (.carr s :: as) = none ∧ toText m b (.carr s) = some (place m b s, b + s.length) := by
  have key : ∀ (m : Mem) (p n : Nat) (s : List Char), NUL ∉ s → s.length < n →
      toTextS m p n s = none := by
    intro m p n s
    induction s generalizing m p n with
    | nil => intro _ hn; cases n with
      | zero => simp at hn
      | succ n => rfl
    | cons c s ih =>
      intro hs hn
      cases n with
      | zero => simp at hn
      | succ n =>
        simp only [List.mem_cons, not_or] at hs
        simp only [toTextS]
        rw [if_pos (Ne.symm hs.1)]
        exact ih _ _ _ hs.2 (by simpa using hn)
  constructor
  · simp [asString, toTextMs, toTextM, key m 0 1024 s h hs]
  · have := toText_spec m b [] b (.carr s) trivial (by simp)
    have e : cText s = s := by
      have := List.takeWhile_append_of_pos (p := (· ≠ NUL)) (l₁ := s) (l₂ := [])
        (fun x hx => by simp; rintro rfl; exact h hx)
      simpa [cText] using this
    simpa [place_nil, argText, e] using this

/-- C05.  The text of an array / `vec` is the bracketed list of the element texts separated
by `", "`, for any number of elements. -/
theorem C05_to_text_array (m : Mem) (b : Nat) (vs : List Arg) (h : ∀ a ∈ vs, a.Ok) :
    toTextN m b vs =
      some (place m b ('[' :: (List.intercalate ", ".toList (vs.map argText)) ++ [']']),
        b + (List.intercalate ", ".toList (vs.map argText)).length + 2) := by
  have hi : List.intercalate ", ".toList (vs.map argText) = sepText "" vs := by
    cases vs with
    | nil => rfl
    | cons v vs =>
      have key : ∀ (v : Arg) (vs : List Arg),
          List.intercalate ", ".toList ((v :: vs).map argText) = argText v ++ sepText ", " vs := by
        intro v vs
        induction vs generalizing v with
        | nil => simp [List.intercalate, sepText]
        | cons w vs ih =>
          have := ih w
          simp [List.intercalate, sepText] at this ⊢
          exact this
      rw [key]; simp [sepText]
  have h0 : m.write b '[' = place m b ['['] := by
    have := write_place m b b [] '[' (by simp)
    rwa [place_nil] at this
  simp only [toTextN, toTextChar, Option.bind_eq_bind, Option.bind_some]
  rw [h0, toTextNLoop_spec m b ['['] (b + 1) "" (by decide) vs h (by simp), ← hi]
  simp only [Option.bind_some]
  rw [write_place _ _ _ _ _ (by simp; omega)]
  simp; omega

example : (toTextN (fun _ => '.') 0 [.int ⟨4, true⟩ 1, .int ⟨4, true⟩ (-2), .int ⟨4, true⟩ 3]).map
    (fun r => (textAt r.1 0 12, r.2)) = some ("[1, -2, 3]..".toList, 10) := by decide +kernel

end CE.ToText
