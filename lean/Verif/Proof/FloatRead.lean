import Verif.Proof.FloatDec
import Verif.Props.AsStringVec
/-! A text is read in one way, and how `to_text` and `as_string` place the texts. -/
namespace CE.FloatText

theorem digitChar_inj : ∀ a b : Fin 10, digitChar a = digitChar b → a = b := by decide

theorem digitChar_ne : ∀ a : Fin 10, digitChar a ≠ '-' ∧ digitChar a ≠ '.' ∧ digitChar a ≠ 'e' ∧ digitChar a ≠ 'i' ∧
    digitChar a ≠ 'n' := by decide

/-- does not begin with a digit -/
def NoDigit (r : List Char) : Prop := ∀ d : Fin 10, r.head? ≠ some (digitChar d)

theorem digits_split (l l' : List (Fin 10)) (r r' : List Char) (h : NoDigit r) (h' : NoDigit r')
    (e : l.map digitChar ++ r = l'.map digitChar ++ r') : l = l' ∧ r = r' := by
  induction l generalizing l' with
  | nil =>
    cases l' with
    | nil => exact ⟨rfl, e⟩
    | cons d l' => exact absurd (by simp at e; rw [e]; rfl) (h d)
  | cons a l ih =>
    cases l' with
    | nil => exact absurd (by simp at e; rw [← e]; rfl) (h' a)
    | cons d l' =>
      simp only [List.map_cons, List.cons_append, List.cons.injEq] at e
      obtain ⟨h1, h2⟩ := ih l' e.2
      exact ⟨by rw [digitChar_inj _ _ e.1, h1], h2⟩

/-- the exponent part -/
def exText : Option (Bool × List (Fin 10)) → List Char
  | none => []
  | some (s, ds) => 'e' :: (if s then '-' else '+') :: ds.map digitChar

/-- the part from the point on -/
def fpText (fp : List (Fin 10)) : List Char := if fp = [] then [] else '.' :: fp.map digitChar

theorem render_eq (t : Dec) :
    t.render = (if t.neg then ['-'] else []) ++ (t.ip.map digitChar ++ (fpText t.fp ++ exText t.ex)) := by
  obtain ⟨neg, ip, fp, ex⟩ := t
  rcases ex with _ | ⟨s, ds⟩ <;> simp [Dec.render, fpText, exText]

theorem exText_noDigit (ex) : NoDigit (exText ex) := by
  intro d
  rcases ex with _ | ⟨s, ds⟩
  · simp [exText]
  · simp only [exText, List.head?_cons, ne_eq, Option.some.injEq]; exact fun h => (digitChar_ne d).2.2.1 h.symm

theorem fpText_noDigit (fp ex) : NoDigit (fpText fp ++ exText ex) := by
  intro d
  unfold fpText
  split
  · exact exText_noDigit ex d
  · simp only [List.cons_append, List.head?_cons, ne_eq, Option.some.injEq]; exact fun h => (digitChar_ne d).2.1 h.symm

theorem exText_inj (a b) (h : exText a = exText b) : a = b := by
  rcases a with _ | ⟨s, ds⟩ <;> rcases b with _ | ⟨s', ds'⟩
  · rfl
  · simp [exText] at h
  · simp [exText] at h
  · simp only [exText, List.cons.injEq, true_and] at h
    have h1 : s = s' := by cases s <;> cases s' <;> simp_all
    have h2 := (digits_split ds ds' [] [] (by intro d; simp) (by intro d; simp) (by simpa using h.2)).1
    rw [h1, h2]

theorem fpText_inj (fp fp' ex ex') (h : fpText fp ++ exText ex = fpText fp' ++ exText ex') : fp = fp' ∧ ex = ex' := by
  have hdot : ∀ ex : Option (Bool × List (Fin 10)), (exText ex).head? ≠ some '.' := by
    intro ex; rcases ex with _ | ⟨s, ds⟩ <;> simp [exText]
  unfold fpText at h
  split at h <;> split at h
  · next h1 h2 => exact ⟨h1.trans h2.symm, exText_inj _ _ (by simpa using h)⟩
  · exact absurd (by simp at h; rw [h]; rfl) (hdot ex)
  · exact absurd (by simp at h; rw [← h]; rfl) (hdot ex')
  · simp only [List.cons_append, List.cons.injEq, true_and] at h
    obtain ⟨h1, h2⟩ := digits_split _ _ _ _ (exText_noDigit ex) (exText_noDigit ex') h
    exact ⟨h1, exText_inj _ _ h2⟩

theorem Dec.Style.ip_ne {t : Dec} (h : t.Style) : t.ip ≠ [] := by
  rcases h with h | h
  · exact h.1
  · intro hc; have := h.1; rw [hc] at this; cases this

/-- what a text begins with, its sign aside -/
theorem sign_split {neg neg' : Bool} {a b : List Char} (ha : a.head? ≠ some '-') (hb : b.head? ≠ some '-')
    (h : (if neg then ['-'] else []) ++ a = (if neg' then ['-'] else []) ++ b) : neg = neg' ∧ a = b := by
  cases neg <;> cases neg'
  · exact ⟨rfl, by simpa using h⟩
  · exact absurd (by simp at h; rw [h]; rfl) ha
  · exact absurd (by simp at h; rw [← h]; rfl) hb
  · exact ⟨rfl, by simpa using h⟩

theorem body_head (t : Dec) (h : t.ip ≠ []) :
    ∃ d, (t.ip.map digitChar ++ (fpText t.fp ++ exText t.ex)).head? = some (digitChar d) := by
  match hip : t.ip, h with
  | d :: l, _ => exact ⟨d, by simp⟩

/-- characters are those of one text -/
theorem render_inj {t t' : Dec} (h : t.Style) (h' : t'.Style) (e : t.render = t'.render) : t = t' := by
  rw [render_eq, render_eq] at e
  obtain ⟨d, hd⟩ := body_head t h.ip_ne
  obtain ⟨d', hd'⟩ := body_head t' h'.ip_ne
  obtain ⟨h1, h2⟩ := sign_split (by rw [hd]; simpa using (digitChar_ne d).1) (by rw [hd']; simpa using (digitChar_ne d').1) e
  obtain ⟨h3, h4⟩ := digits_split _ _ _ _ (fpText_noDigit _ _) (fpText_noDigit _ _) h2
  obtain ⟨h5, h6⟩ := fpText_inj _ _ _ _ h4
  obtain ⟨_, _, _, _⟩ := t
  obtain ⟨_, _, _, _⟩ := t'
  simp only at h1 h3 h5 h6
  subst h1 h3 h5 h6
  rfl

/-- a text is read as one number -/
theorem reads_unique {F : Fmt} (hp : 0 < F.p) {t : Dec} {neg neg' : Bool} {m n : Nat} {e f : Int}
    (hv : (Fl.fin neg m e).Valid F) (hv' : (Fl.fin neg' n f).Valid F) (h : t.Reads F neg m e) (h' : t.Reads F neg' n f) :
    Fl.fin neg m e = Fl.fin neg' n f := by
  obtain ⟨h1, h2⟩ := roundsTo_unique F hp hv.1 hv'.1 hv.2.1 hv'.2.1 hv.2.2.2 hv'.2.2.2 h.2 h'.2
  rw [h1, h2, ← h.1, ← h'.1]

/-- the body of the text of a number -/
def Shape (F : Fmt) (s : List Char) : Fl → Prop
  | .fin neg m e => ∃ t : Dec, t.Style ∧ t.Reads F neg m e ∧ s = t.render
  | .inf neg => ∃ b, s = (if neg then ['-'] else []) ++ 'i' :: b
  | .nan neg => ∃ b, s = (if neg then ['-'] else []) ++ 'n' :: b

theorem contract_shape {F : Fmt} (x : Fl) (s : List Char) (h : Contract F x s) : Shape F s x := by
  match x, h with
  | .fin neg m e, ⟨t, h1, h2, h3, _⟩ => exact ⟨t, h1, h2, h3⟩
  | .inf neg, h => exact ⟨"nf".toList, h⟩
  | .nan neg, .inl h => exact ⟨"an".toList, h⟩
  | .nan neg, .inr ⟨c, _, h⟩ => exact ⟨"an(".toList ++ c ++ [')'], by rw [h]; simp⟩

/-- two numbers with the same text are the same -/
theorem contract_inj {F : Fmt} (hp : 0 < F.p) (x y : Fl) (hx : x.Valid F) (hy : y.Valid F) (s : List Char)
    (h : Contract F x s) (h' : Contract F y s) : x = y := by
  have dh : ∀ (t : Dec), t.Style → ∃ d b, t.render = (if t.neg then ['-'] else []) ++ digitChar d :: b := by
    intro t ht
    obtain ⟨d, hd⟩ := body_head t ht.ip_ne
    rw [render_eq]
    match hb : (t.ip.map digitChar ++ (fpText t.fp ++ exText t.ex)), hd with
    | c :: b, hd => simp only [List.head?_cons, Option.some.injEq] at hd; exact ⟨d, b, by rw [hd]⟩
  have ni : ∀ (n n' : Bool) (c c' : Char) (b b' : List Char), c ≠ '-' → c' ≠ '-' →
      (if n then ['-'] else []) ++ c :: b = (if n' then ['-'] else []) ++ c' :: b' → n = n' ∧ c = c' := by
    intro n n' c c' b b' hc hc' e
    obtain ⟨h1, h2⟩ := sign_split (by simpa using hc) (by simpa using hc') e
    exact ⟨h1, (List.cons.inj h2).1⟩
  have a := contract_shape x s h
  have b := contract_shape y s h'
  match x, y, hx, hy, a, b with
  | .fin neg m e, .fin neg' n f, hx, hy, ⟨t, h1, h2, h3⟩, ⟨t', h1', h2', h3'⟩ =>
    have := render_inj h1 h1' (h3.symm.trans h3')
    subst this
    exact reads_unique hp hx hy h2 h2'
  | .fin neg m e, .inf n, _, _, ⟨t, h1, _, h3⟩, ⟨b', e'⟩ =>
    obtain ⟨d, b, hd⟩ := dh t h1
    exact absurd (ni _ _ _ _ _ _ (digitChar_ne d).1 (by decide) (hd.symm.trans (h3.symm.trans e'))).2 (digitChar_ne d).2.2.2.1
  | .fin neg m e, .nan n, _, _, ⟨t, h1, _, h3⟩, ⟨b', e'⟩ =>
    obtain ⟨d, b, hd⟩ := dh t h1
    exact absurd (ni _ _ _ _ _ _ (digitChar_ne d).1 (by decide) (hd.symm.trans (h3.symm.trans e'))).2 (digitChar_ne d).2.2.2.2
  | .inf n, .fin neg m e, _, _, ⟨b', e'⟩, ⟨t, h1, _, h3⟩ =>
    obtain ⟨d, b, hd⟩ := dh t h1
    exact absurd (ni _ _ _ _ _ _ (digitChar_ne d).1 (by decide) (hd.symm.trans (h3.symm.trans e'))).2 (digitChar_ne d).2.2.2.1
  | .nan n, .fin neg m e, _, _, ⟨b', e'⟩, ⟨t, h1, _, h3⟩ =>
    obtain ⟨d, b, hd⟩ := dh t h1
    exact absurd (ni _ _ _ _ _ _ (digitChar_ne d).1 (by decide) (hd.symm.trans (h3.symm.trans e'))).2 (digitChar_ne d).2.2.2.2
  | .inf n, .inf n', _, _, ⟨b, e⟩, ⟨b', e'⟩ => rw [(ni _ _ _ _ _ _ (by decide) (by decide) (e.symm.trans e')).1]
  | .nan n, .nan n', _, _, ⟨b, e⟩, ⟨b', e'⟩ => rw [(ni _ _ _ _ _ _ (by decide) (by decide) (e.symm.trans e')).1]
  | .inf n, .nan n', _, _, ⟨b, e⟩, ⟨b', e'⟩ =>
    exact absurd (ni _ _ _ _ _ _ (by decide) (by decide) (e.symm.trans e')).2 (by decide)
  | .nan n, .inf n', _, _, ⟨b, e⟩, ⟨b', e'⟩ =>
    exact absurd (ni _ _ _ _ _ _ (by decide) (by decide) (e.symm.trans e')).2 (by decide)

/-! ## memory -/

theorem put_place (m : Mem) (b p : Nat) (l s : List Char) (hp : p = b + l.length) :
    put (place m b l) p s = place m b (l ++ s) := by
  induction s generalizing l p with
  | nil => simp [put]
  | cons c s ih =>
    rw [put, write_place _ _ _ _ _ hp, ih (p + 1) (l ++ [c]) (by simp; omega)]
    simp

theorem toTextFl_spec (chars : Fl → List Char) (junk : Mem → Mem) (size : Nat) (m : Mem) (b p : Nat) (l : List Char) (x : Fl)
    (hp : p = b + l.length) (hs : p + 32 ≤ size) (hl : (chars x).length ≤ 32) :
    toTextFl chars junk size (place m b l) p x = some (place m b (l ++ chars x), p + (chars x).length) := by
  unfold toTextFl toChars
  rw [if_pos hs, if_pos (by omega), put_place _ _ _ _ _ hp]

/-- components with the separators -/
def sepF (chars : Fl → List Char) (sep : String) : List Fl → List Char
  | [] => []
  | v :: vs => sep.toList ++ chars v ++ sepF chars ", " vs

theorem sepF_length (chars : Fl → List Char) (vs : List Fl) (h : ∀ v ∈ vs, (chars v).length ≤ 24) (sep : String)
    (hs : sep.toList.length ≤ 2) : (sepF chars sep vs).length ≤ 26 * vs.length := by
  induction vs generalizing sep with
  | nil => simp [sepF]
  | cons v vs ih =>
    have h1 := h v (by simp)
    have h2 := ih (fun v hv => h v (by simp [hv])) ", " (by decide)
    simp only [sepF, List.length_append, List.length_cons]
    omega

theorem loop_spec (chars : Bool → Fl → List Char) (junk : Mem → Mem) (w : Bool) (size : Nat) (m : Mem) (b p : Nat) (l : List Char)
    (vs : List Fl) (sep : String) (hsep : ToText.NUL ∉ sep.toList) (h2 : sep.toList.length ≤ 2) (hp : p = b + l.length)
    (hl : ∀ v ∈ vs, (chars w v).length ≤ 24) (hs : p + 26 * vs.length + 8 ≤ size) :
    toTextFlLoop chars junk w size (place m b l) p sep vs =
      some (place m b (l ++ sepF (chars w) sep vs), p + (sepF (chars w) sep vs).length) := by
  induction vs generalizing l p sep with
  | nil => simp [toTextFlLoop, sepF]
  | cons v vs ih =>
    have hv := hl v (by simp)
    simp only [List.length_cons] at hs
    simp only [toTextFlLoop]
    rw [ToText.toTextLit_spec m b l sep p hsep hp]
    simp only [Option.bind_eq_bind, Option.bind_some]
    rw [toTextFl_spec (chars w) junk size m b _ _ v (by simp; omega) (by omega) (by omega)]
    simp only [Option.bind_some]
    rw [ih _ _ ", " (by decide) (by decide) (by simp; omega) (fun v hv => hl v (by simp [hv])) (by omega)]
    simp [sepF]
    omega

end CE.FloatText
