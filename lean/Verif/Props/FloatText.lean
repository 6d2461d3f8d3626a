import Verif.Proof.FloatRead
/-!
# Texts of floating point numbers (C105)
-/
namespace CE.FloatText

/-- format of the type of an argument -/
def fmt (w : Bool) : Fmt := if w then binary64 else binary32

/-- length of the longest text, `-2.2250738585072014e-308` and `-1.17549435e-38` for instance -/
def longest (w : Bool) : Nat := if w then 24 else 15

/-- what the standard says about `std::to_chars` for both types -/
def Meets (chars : Bool → Fl → List Char) : Prop := ∀ w x, x.Valid (fmt w) → Contract (fmt w) x (chars w x)

theorem fmt_pos (w : Bool) : 0 < (fmt w).p := by cases w <;> decide

theorem longest_le (w : Bool) : longest w ≤ 24 := by cases w <;> decide

theorem fits (w : Bool) : ∃ D A W, Fits (fmt w) D A W ∧ D + 5 + W = longest w := by
  cases w
  · exact ⟨8, 45, 2, fits32, rfl⟩
  · exact ⟨16, 324, 3, fits64, rfl⟩

/-- Every number has a text as the standard demands it: one that is read as the number, of the least length, and the nearest
of those. -/
theorem C105_exists : ∃ chars, Meets chars := by
  have : ∀ w x, ∃ s, x.Valid (fmt w) → Contract (fmt w) x s := by
    intro w x
    by_cases h : x.Valid (fmt w)
    · match x, h with
      | .fin neg m e, h =>
        obtain ⟨D, A, W, f, _⟩ := fits w
        obtain ⟨s, hs⟩ := exists_best f neg m e h
        exact ⟨s, fun _ => hs⟩
      | .inf neg, _ => exact ⟨_, fun _ => rfl⟩
      | .nan neg, _ => exact ⟨_, fun _ => Or.inl rfl⟩
    · exact ⟨[], fun h' => absurd h' h⟩
  choose f hf using this
  exact ⟨f, hf⟩

/-- The text of a `double` has at most 24 characters, that of a `float` at most 15. -/
theorem C105_length (w : Bool) (x : Fl) (hx : x.Valid (fmt w)) (s : List Char) (h : Contract (fmt w) x s) :
    s.length ≤ longest w := by
  obtain ⟨D, A, W, f, e⟩ := fits w
  rw [← e]
  exact contract_length f x hx s h

/-- Numbers that differ have texts that differ. -/
theorem C105_injective (w : Bool) (x y : Fl) (hx : x.Valid (fmt w)) (hy : y.Valid (fmt w)) (s : List Char)
    (h : Contract (fmt w) x s) (h' : Contract (fmt w) y s) : x = y :=
  contract_inj (fmt_pos w) x y hx hy s h h'

/-- `to_text` of a number in an array with room for 32 characters: the whole text is written, nothing else changes, and the
position behind it is returned. -/
theorem C105_to_text (chars : Bool → Fl → List Char) (hc : Meets chars) (junk : Mem → Mem) (w : Bool) (x : Fl)
    (hx : x.Valid (fmt w)) (size b : Nat) (m : Mem) (hs : b + 32 ≤ size) :
    toTextFl (chars w) junk size m b x = some (place m b (chars w x), b + (chars w x).length) ∧
      (chars w x).length ≤ longest w := by
  have hl := C105_length w x hx _ (hc w x hx)
  have h24 := longest_le w
  refine ⟨?_, hl⟩
  have := toTextFl_spec (chars w) junk size m b b [] x (by simp) hs (by omega)
  rwa [place_nil, List.nil_append] at this

/-- What was written is a decimal text, and whoever reads it with correct rounding gets the number back, its sign included. -/
theorem C105_reads_back (chars : Bool → Fl → List Char) (hc : Meets chars) (w neg : Bool) (n : Nat) (e : Int)
    (hx : (Fl.fin neg n e).Valid (fmt w)) :
    (∃ t : Dec, t.Style ∧ t.render = chars w (.fin neg n e) ∧ t.Reads (fmt w) neg n e) ∧
      ∀ (t : Dec) (neg' : Bool) (n' : Nat) (e' : Int), t.Style → t.render = chars w (.fin neg n e) →
        (Fl.fin neg' n' e').Valid (fmt w) → t.Reads (fmt w) neg' n' e' → Fl.fin neg' n' e' = .fin neg n e := by
  obtain ⟨t, h1, h2, h3, _⟩ := hc w _ hx
  refine ⟨⟨t, h1, h3.symm, h2⟩, ?_⟩
  intro t' neg' n' e' h1' h3' hv hr
  have := render_inj h1' h1 (h3'.trans h3)
  subst this
  exact reads_unique (fmt_pos w) hv hx hr h2

/-- With room for fewer than 32 characters the call is not allowed, although no text is longer than 24: the library
promises `std::to_chars` 32 of them. -/
theorem C105_room_undefined (chars : Fl → List Char) (junk : Mem → Mem) (size b : Nat) (m : Mem) (x : Fl)
    (hs : size < b + 32) : toTextFl chars junk size m b x = none := by
  unfold toTextFl toChars
  rw [if_neg (by omega)]

/-! ## as_string -/

/-- the text a user expects -/
def FArg.text (chars : Bool → Fl → List Char) : FArg → List Char
  | .old a => a.text
  | .real w x => chars w x
  | .vec w xs => '[' :: List.intercalate ", ".toList (xs.map (chars w)) ++ [']']

/-- the arguments there are: a `vec` has at most four components -/
def FArg.Ok : FArg → Prop
  | .old a => a.Ok
  | .real w x => x.Valid (fmt w)
  | .vec w xs => xs.length ≤ 4 ∧ ∀ x ∈ xs, x.Valid (fmt w)

theorem intercalate_sepF (chars : Fl → List Char) (vs : List Fl) :
    List.intercalate ", ".toList (vs.map chars) = sepF chars "" vs := by
  cases vs with
  | nil => rfl
  | cons v vs =>
    have key : ∀ (v : Fl) (vs : List Fl),
        List.intercalate ", ".toList ((v :: vs).map chars) = chars v ++ sepF chars ", " vs := by
      intro v vs
      induction vs generalizing v with
      | nil => simp [List.intercalate, sepF]
      | cons w vs ih =>
        have := ih w
        simp [List.intercalate, sepF] at this ⊢
        exact this
    rw [key]; simp [sepF]

theorem text_length (chars : Bool → Fl → List Char) (hc : Meets chars) (a : FArg) (ha : a.Ok) :
    (a.text chars).length ≤ a.measure := by
  match a, ha with
  | .old a, ha => exact ToText.VArg.text_length a ha
  | .real w x, ha =>
    have := C105_length w x ha _ (hc w x ha)
    have := longest_le w
    show (chars w x).length ≤ 1024
    omega
  | .vec w xs, ha =>
    show ('[' :: List.intercalate ", ".toList (xs.map (chars w)) ++ [']']).length ≤ 1024
    rw [intercalate_sepF]
    have := sepF_length (chars w) xs (fun v hv => (C105_length w v (ha.2 v hv) _ (hc w v (ha.2 v hv))).trans (longest_le w)) ""
      (by decide)
    have := ha.1
    simp only [List.length_append, List.length_cons, List.length_nil]
    omega

theorem toTextMF_spec (chars : Bool → Fl → List Char) (hc : Meets chars) (junk : Mem → Mem) (size : Nat) (m : Mem) (b : Nat)
    (l : List Char) (p : Nat) (a : FArg) (ha : a.Ok) (hp : p = b + l.length) (hs : p + a.measure + 1 ≤ size) :
    toTextMF chars junk size (place m b l) p a = some (place m b (l ++ a.text chars), p + (a.text chars).length) := by
  match a, ha, hs with
  | .old a, ha, _ => exact ToText.toTextMV_spec m b l p a ha hp
  | .real w x, ha, hs =>
    have := C105_length w x ha _ (hc w x ha)
    have := longest_le w
    have hs' : p + 1024 + 1 ≤ size := hs
    exact toTextFl_spec (chars w) junk size m b p l x hp (by omega) (by omega)
  | .vec w xs, ha, hs =>
    have hs' : p + 1024 + 1 ≤ size := hs
    have h4 := ha.1
    show toTextFlN chars junk w size (place m b l) p xs = _
    simp only [toTextFlN, ToText.toTextChar, Option.bind_eq_bind, Option.bind_some]
    rw [write_place _ _ _ _ _ hp,
      loop_spec chars junk w size m b (p + 1) _ xs "" (by decide) (by decide) (by simp; omega)
        (fun v hv => (C105_length w v (ha.2 v hv) _ (hc w v (ha.2 v hv))).trans (longest_le w)) (by omega)]
    simp only [Option.bind_some]
    rw [write_place _ _ _ _ _ (by simp; omega), ← intercalate_sepF]
    simp [FArg.text]
    omega

theorem toTextMFs_spec (chars : Bool → Fl → List Char) (hc : Meets chars) (junk : Mem → Mem) (size : Nat) (m : Mem) (b : Nat)
    (l : List Char) (p : Nat) (as : List FArg) (ha : ∀ a ∈ as, a.Ok) (hp : p = b + l.length)
    (hs : p + (as.map FArg.measure).sum + 1 ≤ size) :
    toTextMFs chars junk size (place m b l) p as =
      some (place m b (l ++ (as.map (FArg.text chars)).flatten), p + (as.map (FArg.text chars)).flatten.length) := by
  induction as generalizing l p with
  | nil => simp [toTextMFs]
  | cons a as ih =>
    have hl := text_length chars hc a (ha a (by simp))
    simp only [List.map_cons, List.sum_cons] at hs
    simp only [toTextMFs]
    rw [toTextMF_spec chars hc junk size m b l p a (ha a (by simp)) hp (by omega)]
    simp only [Option.bind_eq_bind, Option.bind_some]
    rw [ih _ _ (fun x hx => ha x (by simp [hx])) (by simp; omega) (by omega)]
    simp
    omega

/-- `as_string` with floating point numbers and vectors of these among its arguments writes the concatenated texts, each in
full, and a terminator, inside its array. -/
theorem C105_as_string (chars : Bool → Fl → List Char) (hc : Meets chars) (junk : Mem → Mem) (m : Mem) (args : List FArg)
    (h : ∀ a ∈ args, a.Ok) :
    asStringF chars junk m args = some (place m 0 ((args.map (FArg.text chars)).flatten ++ [ToText.NUL])) ∧
      ((args.map (FArg.text chars)).flatten ++ [ToText.NUL]).length ≤ asStringFSize args := by
  constructor
  · have := toTextMFs_spec chars hc junk (asStringFSize args) m 0 [] 0 args h (by simp) (by simp [asStringFSize])
    rw [place_nil] at this
    simp only [asStringF, this, Option.bind_eq_bind, Option.bind_some, Option.pure_def]
    rw [write_place _ _ _ _ _ (by simp)]
    simp
  · have key : ∀ as : List FArg, (∀ a ∈ as, a.Ok) →
        (as.map (FArg.text chars)).flatten.length ≤ (as.map FArg.measure).sum := by
      intro as ha
      induction as with
      | nil => simp
      | cons a as ih =>
        have h1 := text_length chars hc a (ha a (by simp))
        have h2 := ih (fun x hx => ha x (by simp [hx]))
        simp only [List.map_cons, List.flatten_cons, List.length_append, List.sum_cons]
        omega
    have := key args h
    simp [asStringFSize] at this ⊢; omega

/-! ## cases -/

-- `std::to_chars` itself, with exactly enough room and with one place too few
example (m : Mem) (junk : Mem → Mem) (x : Fl) : toChars (fun _ => ['1', '.', '5']) junk 9 m 5 8 x = some (put m 5 ['1', '.', '5'], 8) ∧
    toChars (fun _ => ['1', '.', '5']) junk 9 m 5 7 x = some (junk m, 7) := ⟨rfl, rfl⟩

/-- a text without a shorter one that denotes the number exactly is what `std::to_chars` gives -/
theorem contract_exact {F : Fmt} (neg : Bool) (n : Nat) (e : Int) (hv : (Fl.fin neg n e).Valid F) (hp : 0 < F.p) (t : Dec)
    (ht : t.Style) (hn : t.neg = neg) (hm : t.mag = mag n e) (hl : t.render.length = if neg then 2 else 1) :
    Contract F (.fin neg n e) t.render := by
  refine ⟨t, ht, ⟨hn, ?_⟩, rfl, ?_⟩
  · rw [hm]
    rcases Nat.eq_zero_or_pos n with rfl | h0
    · have : mag 0 e = 0 := by simp [mag]
      rw [this]; exact roundsTo_zero F e
    · exact roundsTo_of_close F _ n e hv.1 hp hv.2.2.2 (by simpa using mag_pos e h0)
  · intro t' ht' hr
    have : t.render.length ≤ t'.render.length := by
      rw [hl, render_eq, hr.1]
      have : 0 < t'.ip.length := List.length_pos_iff.2 ht'.ip_ne
      cases neg <;> simp only [List.length_append, List.length_map, if_true, Bool.false_eq_true, if_false, List.length_nil,
        List.length_singleton] <;> omega
    rcases Nat.lt_or_eq_of_le this with h | h
    · left; exact h
    · right; exact ⟨h, by rw [hm]; simp⟩

-- the texts of 1 and of negative zero
example : Contract binary64 (.fin false (2 ^ 52) (-52)) "1".toList :=
  contract_exact false _ _ ⟨by decide, by decide, by decide, by decide⟩ (by decide) ⟨false, [1], [], none⟩ (Or.inl ⟨by simp, by simp, rfl⟩) rfl
    (by simp only [Dec.mag, mag, digitsVal, Dec.exp]; norm_num) rfl
example : Contract binary32 (.fin true 0 (-149)) "-0".toList :=
  contract_exact true _ _ ⟨by decide, by decide, by decide, by decide⟩ (by decide) ⟨true, [0], [], none⟩ (Or.inl ⟨by simp, by simp, rfl⟩) rfl
    (by simp [Dec.mag, mag, digitsVal, Dec.exp]) rfl
-- the largest and the least number of the formats
example : (Fl.fin true (2 ^ 53 - 1) 971).Valid (fmt true) := ⟨by decide, by decide, by decide, by decide⟩
example : (Fl.fin false 1 (-149)).Valid (fmt false) := ⟨by decide, by decide, by decide, by decide⟩
-- arguments of `as_string`
example : ∀ a ∈ [FArg.old (.one (.chr 'x')), .real true (.fin false 1 (-1074)), .vec false [.fin false 0 (-149), .inf true, .nan false]],
    a.Ok := by
  intro a ha
  simp only [List.mem_cons, List.not_mem_nil, or_false] at ha
  rcases ha with rfl | rfl | rfl
  · trivial
  · exact ⟨by decide, by decide, by decide, by decide⟩
  · refine ⟨by decide, ?_⟩
    intro x hx
    simp only [List.mem_cons, List.not_mem_nil, or_false] at hx
    rcases hx with rfl | rfl | rfl
    · exact ⟨by decide, by decide, by decide, by decide⟩
    · trivial
    · trivial

end CE.FloatText
