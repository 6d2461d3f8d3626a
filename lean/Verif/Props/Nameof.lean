import Verif.Proof.Nameof
/-!
# nameof and as_enum (C63)

`Writes` (Spec/Nameof.lean) says how a compiler writes enumerators; a text is a list of characters followed by 0.
-/
namespace CE.Nameof

variable {c : Compiler} {path : List (List Nat)} {id : Nat → Option (List Nat)}

/-- `nameof` of a named enumerator in [0, 256) is its name without the outermost qualifier. -/
theorem C63_nameof (h : Writes c path id) {v : Nat} {s : List Nat} (hv : v < 256) (hs : id v = some s) :
    c.nameof v = some (shown path s ++ [0]) := by
  have hu : uns v = v := by
    unfold uns
    rw [Int.emod_eq_of_lt (by omega) (by omega)]
    rfl
  unfold Compiler.nameof
  rw [nameofEnum_eq h v 256 0 256 (by omega), hu, if_pos ⟨by omega, hv⟩, hs]

/-- `nameof` of any value of 32 bits or fewer that is not a named enumerator in [0, 256) is `???`. -/
theorem C63_unnamed (h : Writes c path id) {n : Int} (hn : -2 ^ 31 ≤ n ∧ n < 2 ^ 32)
    (hu : ∀ v : Nat, v < 256 → n = v → id v = none) : c.nameof n = some [63, 63, 63, 0] := by
  unfold Compiler.nameof
  rw [nameofEnum_eq h n 256 0 256 (by omega)]
  by_cases hlt : uns n < 256
  · rw [if_pos ⟨by omega, hlt⟩, hu (uns n) hlt (by unfold uns at *; omega)]
  · rw [if_neg (by omega)]

/-- `as_enum` reads back what `nameof` gave, whatever the default. -/
theorem C63_round_trip (h : Writes c path id) {v : Nat} {s : List Nat} (hv : v < 256) (hs : id v = some s)
    (unknown : Int) : (c.nameof v).bind (c.asEnum · unknown) = some (v : Int) := by
  rw [C63_nameof h hv hs]
  obtain ⟨r, e, g, b⟩ := asEnumRange_eq h (shown_nz h hs) 256 0 256 (by omega)
  show c.asEnum (shown path s ++ [0]) unknown = _
  unfold Compiler.asEnum
  rw [e]
  cases r with
  | none => exact absurd rfl (b rfl v s (by omega) hv hs)
  | some w =>
    obtain ⟨-, -, s', hs', he⟩ := g w rfl
    have : s' = s := qualified_inj he
    subst this
    have := h.inj w v s' hs' hs
    subst this
    rfl

/-- `as_enum` of any text that no enumerator in [0, 256) is shown as gives the default; it reads only the text. -/
theorem C63_unknown (h : Writes c path id) {t : List Nat} (ht : ∀ x ∈ t, x ≠ 0)
    (hno : ∀ v s, v < 256 → id v = some s → shown path s ≠ t) (unknown : Int) :
    c.asEnum (t ++ [0]) unknown = some unknown := by
  obtain ⟨r, e, g, b⟩ := asEnumRange_eq h ht 256 0 256 (by omega)
  unfold Compiler.asEnum
  rw [e]
  cases r with
  | none => rfl
  | some w =>
    obtain ⟨-, h1, s', hs', he⟩ := g w rfl
    exact absurd he (hno w s' h1 hs')

/-- `as_enum` never gives a value the text is not shown for. -/
theorem C63_sound (h : Writes c path id) {t : List Nat} (ht : ∀ x ∈ t, x ≠ 0) (unknown : Int) :
    ∃ r, c.asEnum (t ++ [0]) unknown = some r ∧
      (r = unknown ∨ ∃ v : Nat, r = v ∧ v < 256 ∧ ∃ s, id v = some s ∧ shown path s = t) := by
  obtain ⟨r, e, g, b⟩ := asEnumRange_eq h ht 256 0 256 (by omega)
  unfold Compiler.asEnum
  rw [e]
  cases r with
  | none => exact ⟨unknown, rfl, Or.inl rfl⟩
  | some w =>
    obtain ⟨-, h1, h2⟩ := g w rfl
    exact ⟨w, rfl, Or.inr ⟨w, rfl, h1, h2⟩⟩

/-- an enumeration `n::c { r = 1, g = 5 }`, with `__PRETTY_FUNCTION__` "N={" … "}" -/
def sample : Compiler where
  pre := [78, 61, 123]
  suf := [125]
  item v := if v = 1 then [110, 58, 58, 99, 58, 58, 114] else if v = 5 then [110, 58, 58, 99, 58, 58, 103] else [40, 99, 41, 55]

/-- its names -/
def sampleId (v : Nat) : Option (List Nat) := if v = 1 then some [114] else if v = 5 then some [103] else none

theorem sample_writes : Writes sample [[110], [99]] sampleId where
  pre_nz := by decide
  suf_nz := by decide
  suf_head := ⟨125, [], rfl, by decide⟩
  path_ok := by
    intro s hs
    simp only [List.mem_cons, List.not_mem_nil, or_false] at hs
    rcases hs with rfl | rfl <;> exact ⟨by decide, by decide⟩
  id_ok := by
    intro v s h
    unfold sampleId at h
    split at h
    · cases h; exact ⟨by decide, by decide⟩
    · split at h
      · cases h; exact ⟨by decide, by decide⟩
      · cases h
  named := by
    intro v s h
    unfold sampleId at h
    show (if v = 1 then _ else if v = 5 then _ else _) = _
    split at h
    · next h1 => cases h; rw [if_pos h1]; rfl
    · next h1 =>
      split at h
      · next h2 => cases h; rw [if_neg h1, if_pos h2]; rfl
      · cases h
  unnamed := by
    intro v h
    unfold sampleId at h
    split at h
    · cases h
    · next h1 =>
      split at h
      · cases h
      · next h2 =>
        refine ⟨[99, 41, 55], ?_, by decide⟩
        show (if v = 1 then _ else if v = 5 then _ else _) = _
        rw [if_neg h1, if_neg h2]
  inj := by
    intro v w s h1 h2
    unfold sampleId at h1 h2
    split at h1 <;> split at h2
    · omega
    · split at h2 <;> · cases h1; cases h2
    · split at h1 <;> · cases h2; cases h1
    · split at h1
      · split at h2
        · omega
        · cases h2
      · cases h1

/-- It is not so that `nameof` gives the unqualified name: only one qualifier is removed, so `n::c::r` is shown as
`c::r`, and `as_enum` does not know the text `r`. -/
theorem C63_unqualified_false :
    sample.nameof 1 = some [99, 58, 58, 114, 0] ∧ sample.asEnum [114, 0] 9 = some 9 := by
  refine ⟨C63_nameof sample_writes (v := 1) (s := [114]) (by decide) rfl, ?_⟩
  refine C63_unknown sample_writes (t := [114]) (by decide) (fun v s hv hs => ?_) 9
  unfold sampleId at hs
  split at hs
  · cases hs; decide
  · split at hs
    · cases hs; decide
    · cases hs

/-- `(anonymous namespace)::r`, as one compiler writes an enumerator `r` of value 1 in an unnamed namespace, shortened
to `(a)::r` -/
def anon : Compiler where
  pre := [78, 61, 123]
  suf := [125]
  item v := if v = 1 then [40, 97, 41, 58, 58, 114] else [40, 99, 41, 55]

/-- A name that the compiler writes starting with a parenthesis is taken for an unnamed value. -/
theorem C63_anonymous_false : anon.nameof 1 = some [63, 63, 63, 0] := by decide +kernel

/-- `nameof<T>()` keeps only what follows the first space, which for `unsigned int` is `int`. -/
theorem C63_type_false :
    typeText [117, 110, 115, 105, 103, 110, 101, 100, 32, 105, 110, 116] = some [105, 110, 116, 0] := by decide +kernel

/-- `nameof<T>()` of a type the compiler writes without spaces is that text. -/
theorem C63_type {t : List Nat} (ht : ∀ x ∈ t, x ≠ 0 ∧ x ≠ 32) : typeText t = some (t ++ [0]) := by
  unfold typeText
  rw [skip_none ht]
  show constText (t.length - 0) ((t ++ [0]).drop 0) = _
  rw [Nat.sub_zero, List.drop_zero, constText_self]

example : Writes sample [[110], [99]] sampleId ∧ (5 : Nat) < 256 ∧ sampleId 5 = some [103] :=
  ⟨sample_writes, by decide, rfl⟩
example : sampleId 7 = none ∧ ∀ v : Nat, v < 256 → (-3 : Int) = v → sampleId v = none := ⟨rfl, fun v _ h => by omega⟩
example : (∀ x ∈ ([99, 105] : List Nat), x ≠ 0 ∧ x ≠ 32) := by decide

end CE.Nameof
