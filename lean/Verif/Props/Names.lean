import Verif.Proof.Names
/-!
# C38, C39: splitting stringized argument lists
-/
namespace CE.Names

/-- a blank: a character up to the space -/
def isBlank (c : U8) : Bool := decide (c.toNat ≤ 32)

theorem blank_eq (sg : Bool) (c : U8) (h : sg = false ∨ c.toNat < 128) : blank sg c = isBlank c := by
  unfold blank isBlank
  cases sg with
  | false => rfl
  | true =>
    have hc : c.toNat < 128 := by simpa using h
    rw [if_pos rfl, BitVec.toInt_eq_toNat_cond, if_pos (by omega)]
    simp only [decide_eq_decide]
    omega

theorem strip_congr (p q : U8 → Bool) (s : List U8) (h : ∀ c ∈ s, p c = q c) : strip p s = strip q s := by
  have dw : ∀ l : List U8, (∀ c ∈ l, p c = q c) → l.dropWhile p = l.dropWhile q := by
    intro l
    induction l with
    | nil => simp
    | cons a l ih =>
      intro h
      rw [List.dropWhile_cons, List.dropWhile_cons, h a (by simp), ih fun c hc => h c (by simp [hc])]
  unfold strip
  rw [dw s h, dw _ fun c hc => h c ((List.dropWhile_suffix _).subset (by simpa using hc))]

/-- what counts as a blank at the ends of a key: up to the space, and where `char` is signed also every byte above 127 -/
def endBlank (sg : Bool) (c : U8) : Bool := decide (c.toNat ≤ 32 ∨ (sg = true ∧ 128 ≤ c.toNat))

theorem blank_endBlank (sg : Bool) (c : U8) : blank sg c = endBlank sg c := by
  unfold blank endBlank
  have := c.isLt
  cases sg with
  | false => simp
  | true =>
    rw [if_pos rfl, BitVec.toInt_eq_toNat_cond]
    simp only [decide_eq_decide, true_and]
    split <;> omega

/-- C38.  What the keys are for all texts: for every list of well bracketed arguments (the last may contain top level commas, as when
there are more arguments than COUNT), with or without a comma at the very end, the arguments stripped of what counts as a blank,
each NUL terminated inside the buffer. -/
theorem C38_keys_exact (sg : Bool) (args : List (List U8)) (hne : args ≠ [])
    (hb : ∀ a ∈ args.dropLast, Balanced false a)
    (hl : ∀ a, args.getLast? = some a → Balanced true a ∧ a.getLast? ≠ some 0x2c)
    (r : List U8) (hr : r = [] ∨ r = [0x2c]) (h0 : ∀ a ∈ args, (0 : U8) ∉ a) :
    ∃ text starts, names sg args.length (joined args ++ r) = some (text, starts) ∧
      List.Forall₂ (CStr ((joined args ++ r).length + 1) text) starts (args.map (strip (endBlank sg))) := by
  have hz : (0 : U8) ∉ joined args ++ r := by
    have : ∀ l : List (List U8), (∀ a ∈ l, (0 : U8) ∉ a) → (0 : U8) ∉ joined l := by
      intro l
      induction l with
      | nil => simp [joined]
      | cons a l ih =>
        intro h
        cases l with
        | nil => simpa [joined] using h a (by simp)
        | cons a2 l =>
          have := ih fun x hx => h x (by simp [hx])
          simp only [joined, List.mem_append, List.mem_cons, not_or]
          exact ⟨h a (by simp), by decide, this⟩
    rcases hr with rfl | rfl
    · simpa using this args h0
    · simp only [List.mem_append, List.mem_singleton, not_or]
      exact ⟨this args h0, by decide⟩
  obtain ⟨t, ss, e1, e2, _⟩ := rounds_eq sg ((joined args ++ r).length + 1) true args.length
    (joined args ++ r) (fun _ => 0) 0 (by omega) hz
  have hlen : args.length ≠ 0 := by simpa using hne
  refine ⟨t, ss, ?_, ?_⟩
  · unfold names
    rw [if_neg hlen, show (args.length != 0) = true by simp [hne]]
    exact e1
  · rw [keysOf_args sg args hne hb hl r hr] at e2
    rwa [show endBlank sg = blank sg from funext fun c => (blank_endBlank sg c).symm]

/-- C38.  For every list of well bracketed arguments (the last may contain top level commas, as when
there are more arguments than COUNT), with or without a comma at the very end: the keys are the
arguments stripped of surrounding blanks, each NUL terminated inside the buffer.
Missing from the full property: with signed `char`, arguments that begin or end with bytes above 127,
see `C38_non_ascii_false`. -/
theorem C38_keys_partial (sg : Bool) (args : List (List U8)) (hne : args ≠ [])
    (hb : ∀ a ∈ args.dropLast, Balanced false a)
    (hl : ∀ a, args.getLast? = some a → Balanced true a ∧ a.getLast? ≠ some 0x2c)
    (r : List U8) (hr : r = [] ∨ r = [0x2c]) (h0 : ∀ a ∈ args, (0 : U8) ∉ a)
    (hsg : sg = false ∨ ∀ a ∈ args, ∀ c ∈ a, c.toNat < 128) :
    ∃ text starts, names sg args.length (joined args ++ r) = some (text, starts) ∧
      List.Forall₂ (CStr ((joined args ++ r).length + 1) text) starts (args.map (strip isBlank)) := by
  obtain ⟨t, ss, e1, e2⟩ := C38_keys_exact sg args hne hb hl r hr h0
  refine ⟨t, ss, e1, ?_⟩
  rw [show args.map (strip isBlank) = args.map (strip (endBlank sg)) from ?_]
  · exact e2
  · apply List.map_congr_left
    intro a ha
    refine (strip_congr _ _ _ fun c hc => ?_).symm
    rw [← blank_endBlank]
    refine blank_eq sg c ?_
    rcases hsg with h | h
    · exact .inl h
    · exact .inr (h a ha c hc)

/-- `f(x, 1), ",)"` and `y` -/
example : Balanced false [0x66, 0x28, 0x78, 0x2c, 0x20, 0x31, 0x29] ∧
    Balanced false [0x20, 0x22, 0x2c, 0x29, 0x22] ∧ Balanced true [0x20, 0x79] := by
  refine ⟨.plain _ _ _ (by decide) (.group _ _ 0x29 [0x78, 0x2c, 0x20, 0x31] [] (by decide) ?_ (.nil _)),
    .plain _ _ _ (by decide) (.quoted _ _ [0x2c, 0x29] [] (.inl rfl) ?_ (.nil _)),
    .plain _ _ _ (by decide) (.plain _ _ _ (by decide) (.nil _))⟩
  · exact .plain _ _ _ (by decide) (.comma _ (.plain _ _ _ (by decide) (.plain _ _ _ (by decide) (.nil _))))
  · exact .char _ _ (by decide) (by decide) (.char _ _ (by decide) (by decide) .nil)
example : (names true 3 [0x66, 0x28, 0x78, 0x2c, 0x20, 0x31, 0x29, 0x2c, 0x20, 0x22, 0x2c, 0x29, 0x22,
    0x2c, 0x20, 0x79]).map (fun r => ((List.range 17).map r.1, r.2)) =
    some ([0x66, 0x28, 0x78, 0x2c, 0x20, 0x31, 0x29, 0, 0x22, 0x2c, 0x29, 0x22, 0, 0x79, 0, 0, 0],
      [0, 8, 13]) := by decide +kernel

/-- C38.  For every text without NUL and every COUNT, nothing outside the buffer is accessed, there is
one key per entry of `data`, and every key is a NUL terminated string inside the buffer. -/
theorem C38_in_bounds (sg : Bool) (COUNT : Nat) (src : List U8) (h0 : (0 : U8) ∉ src) :
    ∃ text starts keys, names sg COUNT src = some (text, starts) ∧
      starts.length = COUNT + (if COUNT = 0 then 1 else 0) ∧
      List.Forall₂ (CStr (src.length + 1) text) starts keys := by
  obtain ⟨t, ss, e1, e2, _⟩ := rounds_eq sg (src.length + 1) (COUNT != 0)
    (COUNT + (if COUNT = 0 then 1 else 0)) src (fun _ => 0) 0 (by omega) h0
  refine ⟨t, ss, _, e1, ?_, e2⟩
  rw [e2.length_eq]
  have : ∀ (w : Bool) (n : Nat) (s : List U8), (keysOf sg w n s).length = n := by
    intro w n
    induction n with
    | zero => intro s; rfl
    | succ n ih => intro s; simp [keysOf, ih]
  rw [this]

/-- C38 is false for bytes above 127 where `char` is signed: they count as blanks at the ends of a
key.  A one-letter key 'é' (c3 a9) becomes empty. -/
theorem C38_non_ascii_false : ∃ text, names true 1 [0xc3, 0xa9] = some (text, [0]) ∧
    CStr 3 text 0 [] ∧ strip isBlank [0xc3, 0xa9] = [0xc3, 0xa9] := by
  refine ⟨_, rfl, ⟨by decide, fun j h => by simp at h, by decide, by simp⟩, by decide⟩

/-! ### C39 -/

/-- C39.  For members written with any blanks before each name, none between a name and the comma
after it, and any blanks at the end: each entry is exactly its name, NUL terminated inside the
buffer.  Missing from the full property: blanks before a comma (`C39_blank_before_comma_false`) and,
for signed `char`, names with bytes above 127. -/
theorem C39_member_names_partial (sg : Bool) (ms : List (List U8 × List U8)) (tl : List U8)
    (hb : ∀ m ∈ ms, ∀ c ∈ m.1, isBlank c = true ∧ c ≠ 0) (htl : ∀ c ∈ tl, isBlank c = true ∧ c ≠ 0)
    (hn : ∀ m ∈ ms, m.2 ≠ [] ∧ ∀ c ∈ m.2, isBlank c = false ∧ c ≠ comma)
    (hsg : sg = false ∨ ∀ m ∈ ms, ∀ c ∈ m.2, c.toNat < 128) :
    ∃ text starts, namesT sg ms.length (joined (ms.map fun m => m.1 ++ m.2) ++ tl) = some (text, starts) ∧
      List.Forall₂ (CStr ((joined (ms.map fun m => m.1 ++ m.2) ++ tl).length + 1) text) starts
        (ms.map (·.2)) := by
  have b1 : ∀ c : U8, isBlank c = true → blank sg c = true := by
    intro c hc
    rw [blank_eq sg c ?_]
    · exact hc
    · right
      have : c.toNat ≤ 32 := by simpa [isBlank] using hc
      omega
  have b2 : ∀ m ∈ ms, ∀ c ∈ m.2, inName sg c = true := by
    intro m hm c hc
    have h := (hn m hm).2 c hc
    unfold inName
    rw [blank_eq sg c (by rcases hsg with h | h; exact .inl h; exact .inr (h m hm c hc)), h.1]
    simpa using h.2
  have b3 : inName sg comma = false := by simp [inName]
  have z0 : ∀ c : U8, isBlank c = false → c ≠ 0 := by rintro c h rfl; simp [isBlank] at h
  have key : ∀ ms : List (List U8 × List U8), (∀ m ∈ ms, ∀ c ∈ m.1, isBlank c = true ∧ c ≠ 0) →
      (∀ m ∈ ms, m.2 ≠ [] ∧ ∀ c ∈ m.2, isBlank c = false ∧ c ≠ comma) →
      (∀ m ∈ ms, ∀ c ∈ m.2, inName sg c = true) →
      membersOf sg ms.length (joined (ms.map fun m => m.1 ++ m.2) ++ tl) = ms.map (·.2) ∧
      (0 : U8) ∉ joined (ms.map fun m => m.1 ++ m.2) ++ tl ∧
      others (joined (ms.map fun m => m.1 ++ m.2) ++ tl) + ms.length ≤
        (joined (ms.map fun m => m.1 ++ m.2) ++ tl).length + 1 := by
    intro ms
    induction ms with
    | nil =>
      intro _ _ _
      refine ⟨rfl, ?_, ?_⟩
      · simp only [List.map_nil, joined, List.nil_append]
        intro hc; exact (htl 0 hc).2 rfl
      · have := List.length_filter_le (· != comma) ([] ++ tl)
        simp only [others, List.map_nil, joined, List.length_nil] at this ⊢
        omega
    | cons m ms ih =>
      intro hb hn hin
      have hm0 : (0 : U8) ∉ m.1 ++ m.2 := by
        simp only [List.mem_append, not_or]
        exact ⟨fun hc => (hb m (by simp) 0 hc).2 rfl,
          fun hc => z0 0 ((hn m (by simp)).2 0 hc).1 rfl⟩
      have hne := (hn m (by simp)).1
      cases ms with
      | nil =>
        have ha := member_arg sg m.1 m.2 tl (fun c hc => b1 c (hb m (by simp) c hc).1)
          (hin m (by simp)) (fun _ => .inl hne) (fun c r h => by
            have := b1 c (htl c (by rw [h]; simp)).1
            simp [inName, this])
        refine ⟨?_, ?_, ?_⟩
        · simp only [List.map_cons, List.map_nil, joined, List.length_cons, List.length_nil, membersOf]
          rw [ha.1]
        · simp only [List.map_cons, List.map_nil, joined, List.mem_append, not_or]
          simp only [List.mem_append, not_or] at hm0
          exact ⟨hm0, fun hc => (htl 0 hc).2 rfl⟩
        · have := List.length_filter_le (· != comma) (joined [m.1 ++ m.2] ++ tl)
          simp only [others, List.map_cons, List.map_nil, List.length_cons, List.length_nil] at this ⊢
          omega
      | cons m2 ms =>
        obtain ⟨i1, i2, i3⟩ := ih (fun x hx => hb x (by simp [hx])) (fun x hx => hn x (by simp [hx]))
          (fun x hx => hin x (by simp [hx]))
        have hj : joined ((m :: m2 :: ms).map fun m => m.1 ++ m.2) ++ tl =
            (m.1 ++ m.2) ++ comma :: (joined ((m2 :: ms).map fun m => m.1 ++ m.2) ++ tl) := by
          simp only [List.map_cons, joined, List.append_assoc, List.cons_append]; rfl
        have ha := member_arg sg m.1 m.2
          (comma :: (joined ((m2 :: ms).map fun m => m.1 ++ m.2) ++ tl))
          (fun c hc => b1 c (hb m (by simp) c hc).1)
          (hin m (by simp)) (fun _ => .inl hne) (fun c r h => by
            simp only [List.cons.injEq] at h
            rw [← h.1]; exact b3)
        rw [hj]
        refine ⟨?_, ?_, ?_⟩
        · rw [List.length_cons, membersOf, ha.1, ha.2]
          simp only [skipComma, if_true]
          rw [i1]; rfl
        · simp only [List.mem_append, List.mem_cons, not_or]
          simp only [List.mem_append, not_or] at hm0 i2
          exact ⟨hm0, by decide, i2⟩
        · rw [others_append]
          have h1 : others (m.1 ++ m.2) ≤ (m.1 ++ m.2).length := List.length_filter_le _ _
          have h2 : others (comma :: (joined ((m2 :: ms).map fun m => m.1 ++ m.2) ++ tl)) =
              others (joined ((m2 :: ms).map fun m => m.1 ++ m.2) ++ tl) := by
            simp [others]
          rw [h2, List.length_append, List.length_cons (as := joined _ ++ tl), List.length_cons]
          omega
  obtain ⟨k1, k2, k3⟩ := key ms hb hn b2
  obtain ⟨t, j', ns, e1, e2, e3, e4, e5⟩ := members_eq sg
    ((joined (ms.map fun m => m.1 ++ m.2) ++ tl).length + 1) ms.length
    (joined (ms.map fun m => m.1 ++ m.2) ++ tl) (fun _ => 0) 0 (by omega) k2
  refine ⟨fun k => if j' ≤ k ∧ k < (joined (ms.map fun m => m.1 ++ m.2) ++ tl).length + 1 then 0 else t k,
    ns, ?_, ?_⟩
  · unfold namesT; rw [e1]; rfl
  · rw [← k1]
    exact e2 _ fun k hk => by rw [if_neg (by omega)]

/-- `a, bc` and a trailing blank -/
example : (namesT true 2 [0x61, 0x2c, 0x20, 0x62, 0x63, 0x20]).map
    (fun r => ((List.range 7).map r.1, r.2)) = some ([0x61, 0, 0x62, 0x63, 0, 0, 0], [0, 2]) := by
  decide +kernel

/-- C39 is false with a blank before a comma: in `a ,b` the second name comes out empty. -/
theorem C39_blank_before_comma_false : ∃ text, namesT true 2 [0x61, 0x20, 0x2c, 0x62] = some (text, [0, 2]) ∧
    CStr 5 text 0 [0x61] ∧ CStr 5 text 2 [] := by
  refine ⟨_, rfl, ⟨by decide, ?_, by decide, by decide⟩, ⟨by decide, fun j h => by simp at h, by decide, by simp⟩⟩
  intro j h
  have : j = 0 := by simp at h; omega
  subst this; rfl

theorem pieces_ne (p : U8 → Bool) (s : List U8) : ∃ a r, pieces p s = a :: r := by
  cases s with
  | nil => exact ⟨_, _, rfl⟩
  | cons c s =>
    unfold pieces
    split
    · exact ⟨_, _, rfl⟩
    · split <;> exact ⟨_, _, rfl⟩

theorem pieces_cons {p : U8 → Bool} {c : U8} {s a r} (h : p c = false) (e : pieces p s = a :: r) : pieces p (c :: s) = (c :: a) :: r := by
  unfold pieces; rw [h, e]; rfl

theorem pieces_sep {p : U8 → Bool} {c : U8} (s) (h : p c = true) : pieces p (c :: s) = [] :: pieces p s := by
  rw [pieces, if_pos h]

theorem pieces_append {p : U8 → Bool} {n t a r} (h : ∀ c ∈ n, p c = false) (e : pieces p t = a :: r) : pieces p (n ++ t) = (n ++ a) :: r := by
  induction n with
  | nil => exact e
  | cons c n ih => exact pieces_cons (h c (by simp)) (ih fun x hx => h x (by simp [hx]))

/-- the names in a text -/
def found (p : U8 → Bool) (s : List U8) : List (List U8) := (pieces (· == comma) s).flatMap (entries p)

theorem entries_ne (p : U8 → Bool) (s : List U8) : 1 ≤ (entries p s).length := by
  unfold entries
  cases e : s.getLast? with
  | none => simp
  | some c =>
    by_cases hc : p c = true
    · simp [hc]
    · have hc : p c = false := by simpa using hc
      obtain ⟨t, rfl⟩ := List.getLast?_eq_some_iff.1 e
      have : ∃ x ∈ pieces p (t ++ [c]), x ≠ [] := by
        clear e
        induction t with
        | nil => exact ⟨[c], by simp [pieces, hc], by simp⟩
        | cons b t ih =>
          obtain ⟨x, hx, h0⟩ := ih
          by_cases hb : p b = true
          · exact ⟨x, by rw [List.cons_append, pieces_sep _ hb]; simp [hx], h0⟩
          · obtain ⟨a, r, e⟩ := pieces_ne p (t ++ [c])
            exact ⟨b :: a, by rw [List.cons_append, pieces_cons (by simpa using hb) e]; simp, by simp⟩
      obtain ⟨x, hx, h0⟩ := this
      have : x ∈ words p (t ++ [c]) := by unfold words; simp [hx, h0]
      have := List.length_pos_of_mem this
      rw [List.length_append]; omega

theorem found_length (p : U8 → Bool) (s : List U8) : s.count comma + 1 ≤ (found p s).length := by
  have h1 : (pieces (· == comma) s).length = s.count comma + 1 := by
    induction s with
    | nil => rfl
    | cons c s ih =>
      by_cases hc : c = comma
      · subst hc; rw [pieces_sep _ (by simp)]; simp [ih]
      · obtain ⟨a, r, e⟩ := pieces_ne (· == comma) s
        rw [pieces_cons (by simpa using hc) e, List.count_cons_of_ne hc, ← ih, e]; rfl
  rw [← h1]
  unfold found
  generalize pieces (· == comma) s = l
  induction l with
  | nil => simp
  | cons a l ih =>
    have := entries_ne p a
    simp only [List.flatMap_cons, List.length_append, List.length_cons]; omega

theorem found_cons {p : U8 → Bool} {s a r} (e : pieces (· == comma) s = a :: r) : found p s = entries p a ++ r.flatMap (entries p) := by
  unfold found; rw [e]; rfl

/-- leading blanks do not matter -/
theorem found_blank {p : U8 → Bool} {b : U8} (s) (hb : p b = true) (hc : b ≠ comma) : found p (b :: s) = found p s := by
  obtain ⟨a, r, e⟩ := pieces_ne (· == comma) s
  rw [found_cons e, found_cons (pieces_cons (by simpa using hc) e)]
  congr 1
  unfold entries words
  rw [pieces_sep _ hb]
  cases a with
  | nil => simp [pieces, hb]
  | cons c a => simp [List.getLast?_cons_cons]

theorem found_blanks {p : U8 → Bool} {bl} (s) (hb : ∀ b ∈ bl, p b = true ∧ b ≠ comma) : found p (bl ++ s) = found p s := by
  induction bl with
  | nil => rfl
  | cons b bl ih =>
    rw [List.cons_append, found_blank _ (hb b (by simp)).1 (hb b (by simp)).2, ih fun x hx => hb x (by simp [hx])]

theorem entries_name {p : U8 → Bool} {n} (hn : ∀ c ∈ n, p c = false) : entries p n = [n] := by
  have e : pieces p n = [n] := by
    have := pieces_append (t := []) (r := []) (a := []) hn rfl
    simpa using this
  unfold entries words
  rw [e]
  cases n with
  | nil => simp
  | cons c n =>
    cases l : (c :: n).getLast? with
    | none => simp at l
    | some d =>
      have : p d = false := hn d (List.mem_of_getLast? l)
      simp [this]

theorem found_comma {p : U8 → Bool} {n} (s) (hn : ∀ c ∈ n, p c = false ∧ c ≠ comma) : found p (n ++ comma :: s) = n :: found p s := by
  have e : pieces (· == comma) (n ++ comma :: s) = n :: pieces (· == comma) s := by
    have := pieces_append (p := (· == comma)) (n := n) (fun c hc => by simpa using (hn c hc).2) (pieces_sep (c := comma) s (by simp))
    simpa using this
  rw [found_cons e, entries_name fun c hc => (hn c hc).1]
  rfl

theorem found_end {p : U8 → Bool} {n} (hn : ∀ c ∈ n, p c = false ∧ c ≠ comma) : found p n = [n] := by
  have e : pieces (· == comma) n = [n] := by
    have := pieces_append (p := (· == comma)) (n := n) (t := []) (fun c hc => by simpa using (hn c hc).2) rfl
    simpa using this
  rw [found_cons e, entries_name fun c hc => (hn c hc).1]
  rfl

theorem found_word {p : U8 → Bool} {n b} (s) (h0 : n ≠ []) (hn : ∀ c ∈ n, p c = false ∧ c ≠ comma) (hb : p b = true) (hc : b ≠ comma) :
    found p (n ++ b :: s) = n :: found p (b :: s) := by
  obtain ⟨a, r, e⟩ := pieces_ne (· == comma) s
  have e1 := pieces_cons (c := b) (p := (· == comma)) (by simpa using hc) e
  rw [found_cons e1, found_cons (pieces_append (fun c hc => by simpa using (hn c hc).2) e1), ← List.cons_append]
  congr 1
  unfold entries words
  have w := pieces_append (p := p) (n := n) (fun c hc => (hn c hc).1) (pieces_sep a hb)
  rw [w, pieces_sep a hb, List.getLast?_append_of_ne_nil _ (by simp)]
  simp [h0]

theorem mem_takeWhile {p : U8 → Bool} {l : List U8} {c} (h : c ∈ l.takeWhile p) : p c = true := by
  induction l with
  | nil => simp at h
  | cons a l ih =>
    by_cases ha : p a = true
    · rw [List.takeWhile_cons_of_pos ha] at h
      rcases List.mem_cons.1 h with rfl | h
      · exact ha
      · exact ih h
    · rw [List.takeWhile_cons_of_neg ha] at h; simp at h

theorem membersOf_found (sg : Bool) : ∀ k s, k ≤ (found (blank sg) s).length → membersOf sg k s = (found (blank sg) s).take k := by
  intro k
  induction k with
  | zero => intro s _; rfl
  | succ k ih =>
    intro s hk
    have es := (List.takeWhile_append_dropWhile (p := blank sg) (l := s)).symm
    have hbl : ∀ b ∈ s.takeWhile (blank sg), blank sg b = true ∧ b ≠ comma := by
      intro b hb
      have := mem_takeWhile hb
      refine ⟨this, ?_⟩
      rintro rfl
      cases sg <;> exact absurd this (by decide)
    have hd : ∀ c r, s.dropWhile (blank sg) = c :: r → blank sg c = false := by
      intro c r e
      have := List.head?_dropWhile_not (blank sg) s
      rw [e] at this
      simpa using this
    have e1 : found (blank sg) s = found (blank sg) (s.dropWhile (blank sg)) := by
      conv_lhs => rw [es]
      exact found_blanks _ hbl
    rw [e1] at hk ⊢
    rw [membersOf]
    generalize s.dropWhile (blank sg) = t at *
    have et := (List.takeWhile_append_dropWhile (p := inName sg) (l := t)).symm
    have hn : ∀ c ∈ t.takeWhile (inName sg), blank sg c = false ∧ c ≠ comma := by
      intro c hc
      have := mem_takeWhile hc
      unfold inName at this
      simpa using this
    have hr : ∀ c r, t.dropWhile (inName sg) = c :: r → inName sg c = false := by
      intro c r e
      have := List.head?_dropWhile_not (inName sg) t
      rw [e] at this
      simpa using this
    generalize t.takeWhile (inName sg) = n at *
    generalize t.dropWhile (inName sg) = r at *
    cases r with
    | nil =>
      rw [List.append_nil] at et
      rw [et, found_end hn] at hk ⊢
      have : k = 0 := by simpa using hk
      subst this
      rfl
    | cons c r =>
      by_cases hc : c = comma
      · subst hc
        rw [et, found_comma _ hn] at hk ⊢
        simp only [skipComma, if_true, List.take_succ_cons]
        rw [ih _ (by simpa using hk)]
      · have hb : blank sg c = true := by
          have := hr c r rfl
          unfold inName at this
          simpa [hc] using this
        have h0 : n ≠ [] := by
          rintro rfl
          have := hd c r et
          rw [hb] at this
          cases this
        rw [et, found_word _ h0 hn hb hc] at hk ⊢
        simp only [skipComma, if_neg hc, List.take_succ_cons]
        rw [ih _ (by simpa using hk)]

/-- C39.  What the names are for all texts: between commas each word is a name, and where a comma or the end does not follow a word there
is an empty name; of these the first COUNT.  A blank is what counts as one, see `endBlank`. -/
theorem C39_exact (sg : Bool) (COUNT : Nat) (s : List U8) (h0 : (0 : U8) ∉ s) (hc : COUNT ≤ s.count comma + 1) :
    ∃ text starts, namesT sg COUNT s = some (text, starts) ∧
      List.Forall₂ (CStr (s.length + 1) text) starts (((pieces (· == 0x2c) s).flatMap (entries (endBlank sg))).take COUNT) := by
  have : others s + s.count comma = s.length := by
    unfold others
    clear hc h0
    induction s with
    | nil => rfl
    | cons a s ih => by_cases ha : a = comma <;> simp [ha] <;> omega
  obtain ⟨t, j', ns, e1, e2, e3, e4, e5⟩ := members_eq sg (s.length + 1) COUNT s (fun _ => 0) 0
    (by omega) h0
  have e := membersOf_found sg COUNT s (Nat.le_trans hc (found_length _ _))
  unfold found at e
  rw [show endBlank sg = blank sg from funext fun c => (blank_endBlank sg c).symm]
  refine ⟨_, ns, by unfold namesT; rw [e1]; rfl, ?_⟩
  rw [show (pieces (· == 0x2c) s).flatMap (entries (blank sg)) = (pieces (· == comma) s).flatMap (entries (blank sg)) from rfl, ← e]
  exact e2 _ fun k hk => by simp only [ite_eq_right_iff, and_imp]; omega

-- `a ,b c,,d`: the names are `a`, an empty one, `b`, `c`
example : ((pieces (· == 0x2c) [0x61, 0x20, 0x2c, 0x62, 0x20, 0x63, 0x2c, 0x2c, 0x64]).flatMap (entries (endBlank true))).take 4 =
    [[0x61], [], [0x62], [0x63]] := by decide +kernel
example : (namesT true 4 [0x61, 0x20, 0x2c, 0x62, 0x20, 0x63, 0x2c, 0x2c, 0x64]).map (fun r => ((List.range 10).map r.1, r.2)) =
    some ([0x61, 0, 0, 0x62, 0, 0x63, 0, 0, 0, 0], [0, 2, 3, 5]) := by decide +kernel

/-- C39.  In bounds for every text without NUL, as long as COUNT is at most the number of commas plus
one (which is what `CE_COUNTOF_ARGS` gives). -/
theorem C39_in_bounds (sg : Bool) (COUNT : Nat) (s : List U8) (h0 : (0 : U8) ∉ s)
    (hc : COUNT ≤ s.count comma + 1) :
    ∃ text starts keys, namesT sg COUNT s = some (text, starts) ∧
      List.Forall₂ (CStr (s.length + 1) text) starts keys := by
  have : others s + s.count comma = s.length := by
    unfold others
    clear hc h0
    induction s with
    | nil => rfl
    | cons a s ih => by_cases ha : a = comma <;> simp [ha] <;> omega
  obtain ⟨t, j', ns, e1, e2, e3, e4, e5⟩ := members_eq sg (s.length + 1) COUNT s (fun _ => 0) 0
    (by omega) h0
  refine ⟨_, ns, _, by unfold namesT; rw [e1]; rfl, e2 _ fun k hk => by
    simp only [ite_eq_right_iff, and_imp]; omega⟩

end CE.Names
