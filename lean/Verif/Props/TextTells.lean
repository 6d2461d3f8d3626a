import Verif.Props.AsStringVec
/-!
# What texts of several numbers tell (C152)
-/
namespace CE.ToText

/-! ## Reading arrays -/

/-- the text up to the first comma, and between commas -/
def atCommas : List Char → List (List Char)
  | [] => [[]]
  | c :: l => if c = ',' then [] :: atCommas l else
      match atCommas l with
      | [] => [[c]]
      | f :: fs => (c :: f) :: fs

/-- without a leading blank -/
def unblank : List Char → List Char
  | ' ' :: l => l
  | l => l

/-- the numbers of `[1, 2, 3]`: an independent reader -/
def readInts : List Char → List Int
  | '[' :: l => if l = [']'] then [] else (atCommas l.dropLast).map (fun f => readDec (unblank f))
  | _ => []

theorem int_chars (i : Int) : ∀ c ∈ (toString i).toList, c = '-' ∨ c.isDigit = true := by
  rw [int_text]
  intro c hc
  split at hc
  · rcases List.mem_cons.1 hc with h | h
    · exact .inl h
    · exact .inr (Nat.isDigit_of_mem_toDigits (by omega) (by omega) h)
  · exact .inr (Nat.isDigit_of_mem_toDigits (by omega) (by omega) hc)

theorem digits_ne_nil (n : Nat) : Nat.toDigits 10 n ≠ [] := by
  intro h
  have := Nat.length_toDigits_pos (b := 10) (n := n)
  rw [h] at this
  simp at this

theorem int_ne_nil (i : Int) : (toString i).toList ≠ [] := by
  rw [int_text]
  split
  · simp
  · exact digits_ne_nil _

theorem atCommas_free (f : List Char) (h : ',' ∉ f) : atCommas f = [f] := by
  induction f with
  | nil => rfl
  | cons c f ih =>
    rw [List.mem_cons, not_or] at h
    rw [atCommas, if_neg (fun e => h.1 e.symm), ih h.2]

theorem atCommas_append (f l : List Char) (h : ',' ∉ f) : atCommas (f ++ ',' :: l) = f :: atCommas l := by
  induction f with
  | nil => rw [List.nil_append, atCommas, if_pos rfl]
  | cons c f ih =>
    rw [List.mem_cons, not_or] at h
    rw [List.cons_append, atCommas, if_neg (fun e => h.1 e.symm), ih h.2]

theorem unblank_int (i : Int) : unblank (toString i).toList = (toString i).toList := by
  have h1 := int_ne_nil i
  have h2 := int_chars i
  cases h : (toString i).toList with
  | nil => exact absurd h h1
  | cons c l =>
    rw [h] at h2
    have hc : c ≠ ' ' := by
      rintro rfl
      rcases h2 ' ' (List.mem_cons_self ..) with e | e <;> revert e <;> decide
    unfold unblank
    split
    · rename_i e; injection e with e _; exact absurd e hc
    · rfl

theorem comma_free (i : Int) : ',' ∉ (toString i).toList := by
  intro h
  rcases int_chars i _ h with e | e <;> revert e <;> decide

theorem atCommas_ints (i : Int) (is : List Int) (hd : List Char) (hh : ',' ∉ hd) :
    atCommas (hd ++ List.intercalate ", ".toList ((i :: is).map (fun i => (toString i).toList))) =
      (hd ++ (toString i).toList) :: is.map (fun i => ' ' :: (toString i).toList) := by
  induction is generalizing i hd with
  | nil =>
    have : ',' ∉ hd ++ (toString i).toList := by
      rw [List.mem_append, not_or]; exact ⟨hh, comma_free i⟩
    simpa [List.intercalate] using atCommas_free _ this
  | cons j is ih =>
    have e : hd ++ List.intercalate ", ".toList ((i :: j :: is).map (fun i => (toString i).toList)) =
        (hd ++ (toString i).toList) ++ ',' :: ([' '] ++ List.intercalate ", ".toList ((j :: is).map (fun i => (toString i).toList))) := by
      simp [List.intercalate]
    rw [e, atCommas_append _ _ (by rw [List.mem_append, not_or]; exact ⟨hh, comma_free i⟩),
      ih j [' '] (by decide)]
    rfl

/-- **The text of an array of integers determines it**: reading what `to_text` wrote for an array (or a `vec`) of integers
of any types gives the integers, in order. -/
theorem C152_array_reads_back (m : Mem) (b : Nat) (vs : List (IntTy × Int)) (h : ∀ v ∈ vs, v.1.Ok ∧ v.1.InRange v.2) :
    ∃ m' e, toTextN m b (vs.map (fun v => .int v.1 v.2)) = some (m', e) ∧ readInts (textAt m' b (e - b)) = vs.map Prod.snd := by
  have h5 := C05_to_text_array m b (vs.map (fun v => .int v.1 v.2)) (by
    intro a ha
    obtain ⟨v, hv, rfl⟩ := List.mem_map.1 ha
    exact h v hv)
  have et : (vs.map (fun v => Arg.int v.1 v.2)).map argText = (vs.map Prod.snd).map (fun i => (toString i).toList) := by
    rw [List.map_map, List.map_map]; rfl
  rw [et] at h5
  refine ⟨_, _, h5, ?_⟩
  generalize vs.map Prod.snd = is
  generalize ht : List.intercalate ", ".toList (is.map (fun i => (toString i).toList)) = t
  have el : b + t.length + 2 - b = ('[' :: t ++ [']']).length := by simp; omega
  rw [el, textAt_place]
  show readInts ('[' :: (t ++ [']'])) = is
  cases is with
  | nil =>
    have : t = [] := by rw [← ht]; rfl
    subst this
    rfl
  | cons i is =>
    have hne : t ++ [']'] ≠ [']'] := by
      intro e
      have : t = [] := by simpa using e
      have hc := atCommas_ints i is [] (by simp)
      rw [List.nil_append, ht, this, List.nil_append, atCommas] at hc
      injection hc with hc _
      exact int_ne_nil i hc.symm
    show (if t ++ [']'] = [']'] then [] else (atCommas (t ++ [']']).dropLast).map (fun f => readDec (unblank f))) = i :: is
    rw [if_neg hne, List.dropLast_concat]
    have := atCommas_ints i is [] (by simp)
    rw [List.nil_append, ht, List.nil_append] at this
    rw [this, List.map_cons, unblank_int, readDec_toString, List.map_map]
    congr 1
    conv_rhs => rw [← List.map_id is]
    apply List.map_congr_left
    intro j _
    exact readDec_toString j

/-- Two arrays of integers with the same text are equal, whatever their types and lengths. -/
theorem C152_array_injective (m : Mem) (b : Nat) (vs ws : List (IntTy × Int)) (h : ∀ v ∈ vs, v.1.Ok ∧ v.1.InRange v.2)
    (h' : ∀ v ∈ ws, v.1.Ok ∧ v.1.InRange v.2)
    (e : toTextN m b (vs.map (fun v => .int v.1 v.2)) = toTextN m b (ws.map (fun v => .int v.1 v.2))) :
    vs.map Prod.snd = ws.map Prod.snd := by
  obtain ⟨m1, e1, a1, r1⟩ := C152_array_reads_back m b vs h
  obtain ⟨m2, e2, a2, r2⟩ := C152_array_reads_back m b ws h'
  rw [a1, a2] at e
  simp only [Option.some.injEq, Prod.mk.injEq] at e
  rw [← r1, ← r2, e.1, e.2]

/-- Texts in arrays are not quoted: two arrays of different lengths with the same text. -/
theorem C152_array_of_texts_false : ∃ vs ws : List Arg, (∀ a ∈ vs ++ ws, a.Ok) ∧ vs.length ≠ ws.length ∧
    ∀ m b, toTextN m b vs = toTextN m b ws := by
  refine ⟨[.carr (lit "a, b")], [.carr (lit "a"), .carr (lit "b")], ?_, by decide, fun m b => ?_⟩
  · intro a ha
    simp at ha
    rcases ha with rfl | rfl | rfl <;> trivial
  · rw [C05_to_text_array m b _ (by intro a ha; simp at ha; subst ha; trivial),
      C05_to_text_array m b _ (by intro a ha; simp at ha; rcases ha with rfl | rfl <;> trivial)]
    rfl

/-! ## Messages -/

/-- `{ "x = ", x, ", y = ", y, "." }`: a text before each integer and one at the end -/
def message : List (List Char × IntTy) → List Int → List Char → List Arg
  | (s, T) :: p, i :: is, last => .carr s :: .int T i :: message p is last
  | _, _, last => [.carr last]

/-- a text does not begin with a digit -/
def Behind (s : List Char) : Prop := ∀ c, (cText s).head? = some c → c.isDigit = false

theorem span_digits (a b x y : List Char) (ha : ∀ c ∈ a, c.isDigit = true) (hb : ∀ c ∈ b, c.isDigit = true)
    (hx : ∀ c, x.head? = some c → c.isDigit = false) (hy : ∀ c, y.head? = some c → c.isDigit = false)
    (h : a ++ x = b ++ y) : a = b ∧ x = y := by
  induction a generalizing b with
  | nil =>
    cases b with
    | nil => exact ⟨rfl, h⟩
    | cons c b =>
      have := hx c (by rw [List.nil_append] at h; rw [h]; rfl)
      rw [hb c (List.mem_cons_self ..)] at this
      cases this
  | cons d a ih =>
    cases b with
    | nil =>
      have := hy d (by rw [List.nil_append] at h; rw [← h]; rfl)
      rw [ha d (List.mem_cons_self ..)] at this
      cases this
    | cons c b =>
      injection h with h1 h2
      obtain ⟨e1, e2⟩ := ih b (fun c hc => ha c (List.mem_cons_of_mem _ hc)) (fun c hc => hb c (List.mem_cons_of_mem _ hc)) h2
      exact ⟨by rw [h1, e1], e2⟩

/-- an integer is where its digits end -/
theorem int_prefix (i j : Int) (x y : List Char) (hx : ∀ c, x.head? = some c → c.isDigit = false)
    (hy : ∀ c, y.head? = some c → c.isDigit = false) (h : (toString i).toList ++ x = (toString j).toList ++ y) : i = j ∧ x = y := by
  have dg : ∀ n, ∀ c ∈ Nat.toDigits 10 n, c.isDigit = true := fun n c hc => Nat.isDigit_of_mem_toDigits (by omega) (by omega) hc
  have key : (toString i).toList = (toString j).toList ∧ x = y := by
    have minus : ∀ n, ∃ c l, Nat.toDigits 10 n = c :: l ∧ c ≠ '-' := by
      intro n
      cases hn : Nat.toDigits 10 n with
      | nil => exact absurd hn (digits_ne_nil n)
      | cons c l =>
        refine ⟨c, l, rfl, ?_⟩
        rintro rfl
        have := dg n '-' (by rw [hn]; exact List.mem_cons_self ..)
        revert this; decide
    rw [int_text, int_text] at h ⊢
    split at h <;> split at h
    · rename_i h1 h2
      rw [List.cons_append, List.cons_append] at h
      obtain ⟨e1, e2⟩ := span_digits _ _ _ _ (dg _) (dg _) hx hy (List.cons.inj h).2
      rw [if_pos h1, if_pos h2, e1]
      exact ⟨rfl, e2⟩
    · obtain ⟨c, l, e, hc⟩ := minus j.natAbs
      rw [e] at h
      injection h with h _
      exact absurd h.symm hc
    · obtain ⟨c, l, e, hc⟩ := minus i.natAbs
      rw [e] at h
      injection h with h _
      exact absurd h hc
    · obtain ⟨e1, e2⟩ := span_digits _ _ _ _ (dg _) (dg _) hx hy h
      rename_i h1 h2
      rw [if_neg h1, if_neg h2, e1]
      exact ⟨rfl, e2⟩
  refine ⟨?_, key.2⟩
  have := congrArg readDec key.1
  rwa [readDec_toString, readDec_toString] at this

/-- texts without NUL in memory, each followed by one -/
theorem place_text_inj {m : Mem} {s t : List Char} (hs : NUL ∉ s) (ht : NUL ∉ t)
    (h : place m 0 (s ++ [NUL]) = place m 0 (t ++ [NUL])) : s = t := by
  have key : ∀ (s t : List Char), NUL ∉ s → NUL ∉ t → place m 0 (s ++ [NUL]) = place m 0 (t ++ [NUL]) →
      s.length ≤ t.length → s = t := by
    intro s t hs ht h hl
    have at' : ∀ (u : List Char) k (hk : k < u.length), place m 0 (u ++ [NUL]) k = u[k] := by
      intro u k hk
      simp only [place]
      rw [if_pos (by simp; omega)]
      simp [List.getElem?_append, hk]
    have en : ∀ (u : List Char), place m 0 (u ++ [NUL]) u.length = NUL := by
      intro u
      simp only [place]
      rw [if_pos (by simp)]
      simp
    by_cases e : s.length = t.length
    · apply List.ext_getElem e
      intro k h1 h2
      rw [← at' s k h1, ← at' t k h2, h]
    · exfalso
      have h1 := en s
      rw [h, at' t s.length (by omega)] at h1
      exact ht (h1 ▸ List.getElem_mem _)
  rcases Nat.le_total s.length t.length with hl | hl
  · exact key s t hs ht h hl
  · exact (key t s ht hs h.symm hl).symm

theorem cText_NUL (s : List Char) : NUL ∉ cText s := by
  induction s with
  | nil => simp [cText]
  | cons c s ih =>
    unfold cText at ih ⊢
    rw [List.takeWhile_cons]
    split
    · rename_i h
      rw [List.mem_cons, not_or]
      exact ⟨fun e => by simp [← e] at h, ih⟩
    · simp

theorem take_head (s : List Char) : (s.take 1024).head? = s.head? := by
  cases s <;> rfl

theorem message_NUL (p : List (List Char × IntTy)) (is : List Int) (last : List Char) :
    NUL ∉ ((message p is last).map argTextM).flatten := by
  have hl : ∀ s, NUL ∉ (cText s).take 1024 := fun s h => cText_NUL s (List.mem_of_mem_take h)
  induction p generalizing is with
  | nil => simpa [message, argTextM] using hl last
  | cons q p ih =>
    obtain ⟨s, T⟩ := q
    cases is with
    | nil => simpa [message, argTextM] using hl last
    | cons i is =>
      have hi : NUL ∉ (toString i).toList := by
        intro h
        rcases int_chars i _ h with e | e <;> revert e <;> decide
      show NUL ∉ (cText s).take 1024 ++ ((toString i).toList ++ ((message p is last).map argTextM).flatten)
      rw [List.mem_append, List.mem_append, not_or, not_or]
      exact ⟨hl s, hi, ih is⟩

theorem message_head (p : List (List Char × IntTy)) (is : List Int) (last : List Char) (hi : is.length = p.length)
    (hne : ∀ q ∈ p, cText q.1 ≠ []) (hb : ∀ q ∈ p, Behind q.1) (hlast : Behind last) :
    ∀ c, ((message p is last).map argTextM).flatten.head? = some c → c.isDigit = false := by
  intro c hc
  cases p with
  | nil =>
    apply hlast c
    rw [← take_head, ← hc]
    simp [message, argTextM]
  | cons q p =>
    obtain ⟨s, T⟩ := q
    cases is with
    | nil => simp at hi
    | cons i is =>
      apply hb _ (List.mem_cons_self ..) c
      have h1 := hne _ (List.mem_cons_self ..)
      show (cText s).head? = some c
      rw [← hc]
      show _ = ((cText s).take 1024 ++ ((toString i).toList ++ ((message p is last).map argTextM).flatten)).head?
      cases h2 : cText s with
      | nil => exact absurd h2 h1
      | cons d l => rfl

theorem message_text_inj (p : List (List Char × IntTy)) (is js : List Int) (last : List Char)
    (hi : is.length = p.length) (hj : js.length = p.length)
    (hne : ∀ q ∈ p.tail, cText q.1 ≠ []) (hb : ∀ q ∈ p.tail, Behind q.1) (hlast : Behind last)
    (h : ((message p is last).map argTextM).flatten = ((message p js last).map argTextM).flatten) : is = js := by
  induction p generalizing is js with
  | nil => rw [List.length_eq_zero_iff.1 hi, List.length_eq_zero_iff.1 hj]
  | cons q p ih =>
    obtain ⟨s, T⟩ := q
    cases is with
    | nil => simp at hi
    | cons i is =>
      cases js with
      | nil => simp at hj
      | cons j js =>
        have hi' : is.length = p.length := by simpa using hi
        have hj' : js.length = p.length := by simpa using hj
        change (cText s).take 1024 ++ ((toString i).toList ++ ((message p is last).map argTextM).flatten) =
          (cText s).take 1024 ++ ((toString j).toList ++ ((message p js last).map argTextM).flatten) at h
        obtain ⟨e1, e2⟩ := int_prefix i j _ _ (message_head p is last hi' hne hb hlast) (message_head p js last hj' hne hb hlast)
          (List.append_cancel_left h)
        rw [e1, ih is js hi' hj' (fun q hq => hne q (List.mem_of_mem_tail hq)) (fun q hq => hb q (List.mem_of_mem_tail hq)) e2]

theorem message_ok (p : List (List Char × IntTy)) (is : List Int) (last : List Char)
    (hp : ∀ q ∈ p, NUL ∈ q.1) (hlast : NUL ∈ last) (hr : ∀ q ∈ p.zip is, q.1.2.Ok ∧ q.1.2.InRange q.2) :
    ∀ a ∈ message p is last, a.OkM := by
  induction p generalizing is with
  | nil =>
    intro a ha
    rw [message, List.mem_singleton] at ha
    · subst ha; exact .inl hlast
    · rintro _ _ _ _ _ ⟨⟩
  | cons q p ih =>
    obtain ⟨s, T⟩ := q
    cases is with
    | nil =>
      intro a ha
      rw [message, List.mem_singleton] at ha
      · subst ha; exact .inl hlast
      · rintro _ _ _ _ _ _ ⟨⟩
    | cons i is =>
      intro a ha
      rw [message, List.mem_cons, List.mem_cons] at ha
      rcases ha with rfl | rfl | ha
      · exact .inl (hp _ (List.mem_cons_self ..))
      · exact hr ((s, T), i) (List.mem_cons_self ..)
      · exact ih is (fun q hq => hp q (List.mem_cons_of_mem _ hq)) (fun q hq => hr q (List.mem_cons_of_mem _ hq)) a ha

/-- **A message determines its numbers.** `as_string{ "x = ", x, ", y = ", y, "." }`, any number of parts: if every text
between two numbers is not empty and no text behind a number begins with a digit, two such messages with equal strings have
the same numbers. -/
theorem C152_message_injective (m : Mem) (p : List (List Char × IntTy)) (is js : List Int) (last : List Char)
    (hi : is.length = p.length) (hj : js.length = p.length)
    (hti : ∀ q ∈ p.zip is, q.1.2.Ok ∧ q.1.2.InRange q.2) (htj : ∀ q ∈ p.zip js, q.1.2.Ok ∧ q.1.2.InRange q.2)
    (hp : ∀ q ∈ p, NUL ∈ q.1) (hl : NUL ∈ last)
    (hne : ∀ q ∈ p.tail, cText q.1 ≠ []) (hb : ∀ q ∈ p.tail, Behind q.1) (hlast : Behind last)
    (h : asString m (message p is last) = asString m (message p js last)) : is = js := by
  rw [(C03_as_string_concat_in_bounds m _ (message_ok p is last hp hl hti)).1,
    (C03_as_string_concat_in_bounds m _ (message_ok p js last hp hl htj)).1] at h
  exact message_text_inj p is js last hi hj hne hb hlast
    (place_text_inj (message_NUL p is last) (message_NUL p js last) (Option.some.inj h))

/-- Numbers side by side cannot be told apart: `as_string{ 1, 23 }` and `as_string{ 12, 3 }` are the same text, so the texts
between have to be there. -/
theorem C152_message_adjacent_false : ∃ (p : List (List Char × IntTy)) (is js : List Int) (last : List Char),
    is.length = p.length ∧ js.length = p.length ∧ (∀ q ∈ p.zip is, q.1.2.Ok ∧ q.1.2.InRange q.2) ∧
    (∀ q ∈ p.zip js, q.1.2.Ok ∧ q.1.2.InRange q.2) ∧ (∀ q ∈ p, NUL ∈ q.1) ∧ NUL ∈ last ∧ (∀ q ∈ p, Behind q.1) ∧ Behind last ∧
    is ≠ js ∧ ∀ m, asString m (message p is last) = asString m (message p js last) := by
  have ok : ∀ i : Int, i ∈ [1, 23, 12, 3] → (⟨4, true⟩ : IntTy).Ok ∧ (⟨4, true⟩ : IntTy).InRange i := by
    intro i hi
    refine ⟨by simp [IntTy.Ok], ?_⟩
    simp at hi
    rcases hi with rfl | rfl | rfl | rfl <;> decide
  have e1 : ∀ q ∈ [([NUL], (⟨4, true⟩ : IntTy)), ([NUL], ⟨4, true⟩)].zip [(1 : Int), 23], q.1.2.Ok ∧ q.1.2.InRange q.2 := by
    intro q hq
    simp at hq
    rcases hq with rfl | rfl <;> exact ok _ (by simp)
  have e2 : ∀ q ∈ [([NUL], (⟨4, true⟩ : IntTy)), ([NUL], ⟨4, true⟩)].zip [(12 : Int), 3], q.1.2.Ok ∧ q.1.2.InRange q.2 := by
    intro q hq
    simp at hq
    rcases hq with rfl | rfl <;> exact ok _ (by simp)
  have hp : ∀ q ∈ [([NUL], (⟨4, true⟩ : IntTy)), ([NUL], ⟨4, true⟩)], NUL ∈ q.1 := by
    intro q hq
    simp at hq
    subst hq
    simp
  refine ⟨[([NUL], ⟨4, true⟩), ([NUL], ⟨4, true⟩)], [1, 23], [12, 3], [NUL], rfl, rfl, e1, e2, hp, by simp, ?_, ?_, by decide,
    fun m => ?_⟩
  · intro q hq
    simp at hq
    subst hq
    intro c hc
    simp [cText] at hc
  · intro c hc
    simp [cText] at hc
  · rw [(C03_as_string_concat_in_bounds m _ (message_ok _ _ _ hp (by simp) e1)).1,
      (C03_as_string_concat_in_bounds m _ (message_ok _ _ _ hp (by simp) e2)).1]
    rfl

/-! ## Concrete cases -/

example : readInts "[-1, 20, 300]".toList = [-1, 20, 300] := by decide
example : readInts "[]".toList = [] := by decide

example : ∀ v ∈ [((⟨1, true⟩ : IntTy), (-128 : Int)), (⟨8, false⟩, 18446744073709551615)], v.1.Ok ∧ v.1.InRange v.2 := by
  intro v hv
  simp at hv
  rcases hv with rfl | rfl <;> exact ⟨by simp [IntTy.Ok], by decide⟩

example : Behind (lit ", y = ") ∧ cText (lit ", y = ") ≠ [] ∧ NUL ∈ lit ", y = " ∧ ¬ Behind (lit "0") := by
  refine ⟨?_, by decide, by decide, fun h => ?_⟩
  · intro c hc
    have : c = ',' := by simpa [cText, lit, NUL] using hc.symm
    subst this
    decide
  · have := h '0' (by decide)
    revert this
    decide

end CE.ToText
