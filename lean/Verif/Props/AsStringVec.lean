import Verif.Props.ToText
import Verif.Model.AsStringVec
/-!
# as_string with vectors (C95)
-/
namespace CE.ToText

/-- the text a user expects -/
def VArg.text : VArg → List Char
  | .one a => argTextM a
  | .vec vs => '[' :: (List.intercalate ", ".toList (vs.map argText)) ++ [']']

/-- what a caller has to guarantee: at most four components, with texts of at most 254 characters (only C strings can have
longer ones) -/
def VArg.Ok : VArg → Prop
  | .one a => a.OkM
  | .vec vs => vs.length ≤ 4 ∧ ∀ v ∈ vs, v.Ok ∧ (argText v).length ≤ 254

theorem sepText_length (k : Nat) (vs : List Arg) (h : ∀ v ∈ vs, (argText v).length ≤ k) (sep : String) :
    (sepText sep vs).length + 2 ≤ (k + 2) * vs.length + (if vs = [] then 2 else sep.toList.length) := by
  induction vs generalizing sep with
  | nil => simp [sepText]
  | cons v vs ih =>
    have h1 := h v (by simp)
    have h2 := ih (fun v hv => h v (by simp [hv])) ", "
    have h3 : (", ".toList).length = 2 := by decide
    simp only [sepText, List.length_append, List.length_cons, reduceCtorEq, if_false]
    rw [Nat.mul_succ]
    split at h2 <;> omega

theorem toTextMV_spec (m : Mem) (b : Nat) (l : List Char) (p : Nat) (a : VArg) (ha : a.Ok) (hp : p = b + l.length) :
    toTextMV (place m b l) p a = some (place m b (l ++ a.text), p + a.text.length) := by
  cases a with
  | one a => exact toTextM_spec m b l p a ha hp
  | vec vs =>
    show toTextN _ _ _ = _
    rw [C05_to_text_array _ _ _ (fun v hv => (ha.2 v hv).1), place_place m b p l _ hp]
    simp [VArg.text]
    omega

theorem intercalate_sep (vs : List Arg) : List.intercalate ", ".toList (vs.map argText) = sepText "" vs := by
  cases vs with
  | nil => rfl
  | cons v vs =>
    have key : ∀ (v : Arg) (vs : List Arg),
        List.intercalate ", ".toList ((v :: vs).map argText) = argText v ++ sepText ", " vs := by
      intro v vs
      induction vs generalizing v with
      | nil => simp [List.intercalate, sepText]
      | cons w vs ih =>
        have := ih w
        simp [List.intercalate, sepText] at this ⊢
        exact this
    rw [key]; simp [sepText]

theorem VArg.text_length (a : VArg) (ha : a.Ok) : a.text.length ≤ a.measure := by
  cases a with
  | one a => exact argTextM_length a ha
  | vec vs =>
    show ('[' :: (List.intercalate ", ".toList (vs.map argText)) ++ [']']).length ≤ 1024
    rw [intercalate_sep]
    have := sepText_length 254 vs (fun v hv => (ha.2 v hv).2) ""
    have h4 := ha.1
    have h0 : ("".toList).length = 0 := by decide
    simp only [List.length_append, List.length_cons, List.length_nil]
    split at this
    · next h => rw [h] at this; simp at this; rw [h]; simp [sepText]
    · have : (254 + 2) * vs.length ≤ 256 * 4 := Nat.mul_le_mul_left _ h4
      omega

theorem toTextMVs_spec (m : Mem) (b : Nat) (l : List Char) (p : Nat) (as : List VArg)
    (ha : ∀ a ∈ as, a.Ok) (hp : p = b + l.length) :
    toTextMVs (place m b l) p as =
      some (place m b (l ++ (as.map VArg.text).flatten), p + (as.map VArg.text).flatten.length) := by
  induction as generalizing l p with
  | nil => simp [toTextMVs]
  | cons a as ih =>
    simp only [toTextMVs]
    rw [toTextMV_spec m b l p a (ha a (by simp)) hp]
    simp only [Option.bind_eq_bind, Option.bind_some]
    rw [ih _ _ (fun x hx => ha x (by simp [hx])) (by simp; omega)]
    simp
    omega

/-- `as_string` with vectors among its arguments writes the concatenated texts and a terminator, inside its array. -/
theorem C95_concat_in_bounds_partial (m : Mem) (args : List VArg) (h : ∀ a ∈ args, a.Ok) :
    asStringV m args = some (place m 0 ((args.map VArg.text).flatten ++ [NUL])) ∧
      ((args.map VArg.text).flatten ++ [NUL]).length ≤ asStringVSize args := by
  constructor
  · have := toTextMVs_spec m 0 [] 0 args h (by simp)
    rw [place_nil] at this
    simp only [asStringV, this, Option.bind_eq_bind, Option.bind_some, Option.pure_def]
    rw [write_place _ _ _ _ _ (by simp)]
    simp
  · have key : ∀ as : List VArg, (∀ a ∈ as, a.Ok) → (as.map VArg.text).flatten.length ≤ (as.map VArg.measure).sum := by
      intro as ha
      induction as with
      | nil => simp
      | cons a as ih =>
        have h1 := VArg.text_length a (ha a (by simp))
        have h2 := ih (fun x hx => ha x (by simp [hx]))
        simp only [List.map_cons, List.flatten_cons, List.length_append, List.sum_cons]
        omega
    have := key args h
    simp [asStringVSize] at this ⊢; omega

/-- what the texts need, whatever their length -/
def VArg.Good : VArg → Prop
  | .one a => a.OkM
  | .vec vs => ∀ v ∈ vs, v.Ok

theorem toTextMV_good (m : Mem) (b : Nat) (l : List Char) (p : Nat) (a : VArg) (ha : a.Good) (hp : p = b + l.length) :
    toTextMV (place m b l) p a = some (place m b (l ++ a.text), p + a.text.length) := by
  cases a with
  | one a => exact toTextM_spec m b l p a ha hp
  | vec vs =>
    show toTextN _ _ _ = _
    rw [C05_to_text_array _ _ _ (fun v hv => ha v hv), place_place m b p l _ hp]
    simp [VArg.text]
    omega

theorem toTextMVs_good (m : Mem) (b : Nat) (l : List Char) (p : Nat) (as : List VArg)
    (ha : ∀ a ∈ as, a.Good) (hp : p = b + l.length) :
    toTextMVs (place m b l) p as =
      some (place m b (l ++ (as.map VArg.text).flatten), p + (as.map VArg.text).flatten.length) := by
  induction as generalizing l p with
  | nil => simp [toTextMVs]
  | cons a as ih =>
    simp only [toTextMVs]
    rw [toTextMV_good m b l p a (ha a (by simp)) hp]
    simp only [Option.bind_eq_bind, Option.bind_some]
    rw [ih _ _ (fun x hx => ha x (by simp [hx])) (by simp; omega)]
    simp
    omega

theorem sepText_total (sep : String) (vs : List Arg) (hs : sep.toList.length ≤ 2) :
    (sepText sep vs).length + (if vs = [] then 0 else 2 - sep.toList.length) =
      (vs.map fun v => (argText v).length).sum + 2 * vs.length := by
  induction vs generalizing sep with
  | nil => simp [sepText]
  | cons v vs ih =>
    have h3 : (", ".toList).length = 2 := by decide
    have h2 := ih ", " (by rw [h3])
    rw [h3] at h2
    simp only [sepText, List.length_append, List.length_cons, reduceCtorEq, if_false, List.map_cons, List.sum_cons]
    simp only [Nat.sub_self, ite_self] at h2
    omega

/-- With components of any length `as_string` writes the concatenated texts and a terminator from the start of its array on,
and nothing else.  With a single vector this stays in the array exactly when the texts of the `n > 0` components have together at
most `1024 - 2 n` characters. -/
theorem C95_concat_exact (m : Mem) (args : List VArg) (h : ∀ a ∈ args, a.Good) :
    asStringV m args = some (place m 0 ((args.map VArg.text).flatten ++ [NUL])) ∧
    ∀ vs, args = [.vec vs] → vs ≠ [] →
      (((args.map VArg.text).flatten ++ [NUL]).length ≤ asStringVSize args ↔
        (vs.map fun v => (argText v).length).sum + 2 * vs.length ≤ 1024) := by
  constructor
  · have := toTextMVs_good m 0 [] 0 args h (by simp)
    rw [place_nil] at this
    simp only [asStringV, this, Option.bind_eq_bind, Option.bind_some, Option.pure_def]
    rw [write_place _ _ _ _ _ (by simp)]
    simp
  · rintro vs rfl hv
    have ht := sepText_total "" vs (by decide)
    rw [if_neg hv] at ht
    have h0 : ("".toList).length = 0 := by decide
    rw [h0] at ht
    have hm : asStringVSize [.vec vs] = 1025 := rfl
    have hl : (([VArg.vec vs].map VArg.text).flatten ++ [NUL]).length = (sepText "" vs).length + 3 := by
      simp only [List.map_cons, List.map_nil, List.flatten_cons, List.flatten_nil, List.append_nil, VArg.text,
        intercalate_sep, List.length_append, List.length_cons, List.length_nil]
    rw [hm, hl]
    omega

/-- a vector of one C string of 1022 characters just fits -/
example : VArg.Good (.vec [.cstr (some (List.replicate 1022 'x' ++ [NUL]))]) := by
  intro v hv
  rw [List.mem_singleton] at hv; subst hv
  exact List.mem_append_right _ (List.mem_singleton.2 rfl)

/-- Components that are not C strings always have short texts. -/
theorem C95_short (vs : List Arg) (h : vs.length ≤ 4) (hok : ∀ v ∈ vs, v.Ok)
    (hs : ∀ v ∈ vs, (∀ s, v ≠ .cstr (some s)) ∧ ∀ s, v ≠ .carr s) : (VArg.vec vs).Ok := by
  refine ⟨h, fun v hv => ⟨hok v hv, ?_⟩⟩
  obtain ⟨h1, h2⟩ := hs v hv
  have ho := hok v hv
  have tag : ∀ (s : String) (T : IntTy) (i : Int), T.Ok → T.InRange i → s.toList.length ≤ 7 →
      ((s ++ toString i ++ ">").toList).length ≤ 254 := by
    intro s T i hT hi hl
    have := int_length_le T hT i hi
    have e : (s ++ toString i ++ ">").toList = s.toList ++ (toString i).toList ++ ['>'] := by simp
    rw [e]; simp only [List.length_append, List.length_singleton]; omega
  cases v with
  | cstr s => cases s with
    | none => decide
    | some s => exact absurd rfl (h1 s)
  | carr s => exact absurd rfl (h2 s)
  | int T i => exact Nat.le_trans (int_length_le T ho.1 i ho.2) (by decide)
  | chr c => exact (by decide : (1 : Nat) ≤ 254)
  | bool b => cases b <;> decide
  | nil => decide
  | ptr a => cases a with
    | zero => decide
    | succ n =>
      have := tag "#<ptr " sizeT (n + 1 : Nat) sizeT_ok (sizeT_inRange _ ho) (by decide)
      rw [toString_natCast] at this
      exact this
  | enum T i => exact tag "#<enum " T i ho.1 ho.2 (by decide)
  | ref a =>
    have := tag "#<ref " sizeT (a : Nat) sizeT_ok (sizeT_inRange _ ho) (by decide)
    rw [toString_natCast] at this
    exact this

/-- A `vec` of C strings is not limited: with a string of 1023 or more characters the terminator lies behind the array. -/
theorem C95_overflow_false (m : Mem) (s : List Char) (hs : NUL ∉ s) (hl : 1023 ≤ s.length) :
    ∃ m', asStringV m [.vec [.cstr (some (s ++ [NUL]))]] = some m' ∧ asStringVSize [.vec [.cstr (some (s ++ [NUL]))]] ≤ s.length + 2 ∧
      m' (s.length + 2) = NUL ∧ m' 0 = '[' := by
  have h := C05_to_text_array m 0 [.cstr (some (s ++ [NUL]))] (by intro a ha; rw [List.mem_singleton] at ha; subst ha; simp [Arg.Ok])
  have e : List.intercalate ", ".toList ([Arg.cstr (some (s ++ [NUL]))].map argText) = s := by
    simp [List.intercalate, argText, cText_append_NUL s hs]
  rw [e] at h
  have hk : asStringV m [.vec [.cstr (some (s ++ [NUL]))]] =
      some ((place m 0 ('[' :: s ++ [']'])).write (s.length + 2) NUL) := by
    have h2 : toTextMVs m 0 [.vec [.cstr (some (s ++ [NUL]))]] = some (place m 0 ('[' :: s ++ [']']), 0 + s.length + 2) := by
      simp only [toTextMVs, toTextMV, h, Option.bind_eq_bind, Option.bind_some]
    simp only [asStringV, h2, Option.bind_eq_bind, Option.bind_some, Option.pure_def]
    rw [Nat.zero_add]
  refine ⟨_, hk, ?_, ?_, ?_⟩
  · show 1024 + 0 + 1 ≤ _
    omega
  · simp [Mem.write]
  · simp [Mem.write, place]

/-- A matrix is shown as the addresses of its rows: the text does not depend on the numbers, only on where they are. -/
theorem C95_matrix_false : ∃ a b : Mat, a.rows ≠ b.rows ∧ ∀ m, asStringV m [.vec a.comps] = asStringV m [.vec b.comps] :=
  ⟨⟨4096, 8, [[.int ⟨4, true⟩ 1, .int ⟨4, true⟩ 0], [.int ⟨4, true⟩ 0, .int ⟨4, true⟩ 1]]⟩,
   ⟨4096, 8, [[.int ⟨4, true⟩ 7, .int ⟨4, true⟩ 8], [.int ⟨4, true⟩ 9, .int ⟨4, true⟩ 7]]⟩, by simp, fun _ => rfl⟩

/-- C05.  An array of arrays or of vectors: `to_text` shows the addresses of its elements, whatever they hold. -/
theorem C05_nested_false : ∃ a b : Mat, a.rows ≠ b.rows ∧ ∀ m p, toTextN m p a.comps = toTextN m p b.comps :=
  ⟨⟨4096, 8, [[.int ⟨4, true⟩ 1, .int ⟨4, true⟩ 0], [.int ⟨4, true⟩ 0, .int ⟨4, true⟩ 1]]⟩,
   ⟨4096, 8, [[.int ⟨4, true⟩ 7, .int ⟨4, true⟩ 8], [.int ⟨4, true⟩ 9, .int ⟨4, true⟩ 7]]⟩, by simp, fun _ _ => rfl⟩

/-- "p = ", a vector and a matrix -/
def sampleV : List VArg :=
  [.one (.cstr (some (lit "p = "))), .vec [.int ⟨4, true⟩ (-7), .int ⟨8, true⟩ 12], .vec (Mat.comps ⟨4096, 8, [[], []]⟩)]
example : ∀ a ∈ sampleV, a.Ok := by
  intro a ha
  rcases List.mem_cons.1 ha with rfl | ha
  · simp [VArg.Ok, Arg.OkM, lit]
  rcases List.mem_cons.1 ha with rfl | ha
  · refine C95_short _ (by decide) ?_ ?_
    · intro v hv; rcases List.mem_cons.1 hv with rfl | hv
      · simp [Arg.Ok, IntTy.Ok, IntTy.InRange]
      · rw [List.mem_singleton] at hv; subst hv; simp [Arg.Ok, IntTy.Ok, IntTy.InRange]
    · intro v hv; rcases List.mem_cons.1 hv with rfl | hv
      · exact ⟨fun s h => (by cases h), fun s h => by cases h⟩
      · rw [List.mem_singleton] at hv; subst hv; exact ⟨fun s h => (by cases h), fun s h => by cases h⟩
  rw [List.mem_singleton] at ha; subst ha
  refine C95_short _ (by decide) ?_ ?_
  · intro v hv; obtain ⟨i, hi, rfl⟩ := List.mem_map.1 hv
    have := List.mem_range.1 hi
    simp at this
    show 4096 + 8 * i < 2 ^ 64
    omega
  · intro v hv; obtain ⟨i, hi, rfl⟩ := List.mem_map.1 hv
    exact ⟨fun s h => (by cases h), fun s h => by cases h⟩
example : (asStringV (fun _ => '.') sampleV).map (fun m => textAt m 0 45) =
    some ("p = [-7, 12][#<ref 4096>, #<ref 4104>]".toList ++ NUL :: "......".toList) := by decide +kernel

end CE.ToText
