import Verif.Spec.Log
/-!
# Records can be read back
-/
namespace CE.Log

theorem commas_cons {s : List Char} {t : List (List Char)} (h : t ≠ []) : commas (s :: t) = s ++ [',', ' '] ++ commas t := by
  cases t with
  | nil => exact absurd rfl h
  | cons u t => rfl

theorem logLoop_comma (argv : List (List Char × List Char)) : ∀ out, logLoop out [',', ' '] argv =
    out ++ (if argv = [] then [] else [',', ' '] ++ commas (argv.map pairText)) := by
  induction argv with
  | nil => intro out; simp [logLoop]
  | cons p rest ih =>
    intro out
    obtain ⟨k, v⟩ := p
    rw [logLoop, ih]
    by_cases h : rest = []
    · subst h; simp [commas, pairText, quoted]
    · rw [if_neg h, if_neg (List.cons_ne_nil _ _), List.map_cons, commas_cons (by simpa using h)]
      simp [pairText, quoted]

theorem log_eq (level : Int) (argv : List (List Char × List Char)) : log level argv = record (letter level) argv := by
  unfold log record
  cases argv with
  | nil => simp [logLoop]
  | cons p rest =>
    obtain ⟨k, v⟩ := p
    rw [logLoop, logLoop_comma]
    by_cases h : rest = []
    · subst h; simp [commas, pairText, quoted]
    · rw [if_neg h, if_neg (List.cons_ne_nil _ _), List.map_cons, commas_cons (by simpa using h)]
      simp [pairText, quoted]

/-- two texts without a quote, each followed by a quote -/
theorem quote_split {a b x y : List Char} (ha : '"' ∉ a) (hb : '"' ∉ b) (h : a ++ '"' :: x = b ++ '"' :: y) :
    a = b ∧ x = y := by
  induction a generalizing b with
  | nil =>
    cases b with
    | nil => simpa using h
    | cons c b =>
      rw [List.nil_append, List.cons_append] at h
      injection h with h1 h2
      exact absurd (by rw [h1]; exact List.mem_cons_self ..) hb
  | cons c a ih =>
    cases b with
    | nil =>
      rw [List.nil_append, List.cons_append] at h
      injection h with h1 h2
      exact absurd (by rw [← h1]; exact List.mem_cons_self ..) ha
    | cons d b =>
      rw [List.cons_append, List.cons_append] at h
      injection h with h1 h2
      obtain ⟨h3, h4⟩ := ih (fun h => ha (List.mem_cons_of_mem _ h)) (fun h => hb (List.mem_cons_of_mem _ h)) h2
      exact ⟨by rw [h1, h3], h4⟩

/-- no quotes in keys and values -/
def Plain (argv : List (List Char × List Char)) : Prop := ∀ p ∈ argv, '"' ∉ p.1 ∧ '"' ∉ p.2

theorem pair_split {p q : List Char × List Char} {x y : List Char} (hp : '"' ∉ p.1 ∧ '"' ∉ p.2)
    (hq : '"' ∉ q.1 ∧ '"' ∉ q.2) (h : pairText p ++ x = pairText q ++ y) : p = q ∧ x = y := by
  unfold pairText quoted at h
  have h' : p.1 ++ '"' :: (':' :: ' ' :: '"' :: (p.2 ++ '"' :: x)) = q.1 ++ '"' :: (':' :: ' ' :: '"' :: (q.2 ++ '"' :: y)) := by
    simpa using h
  obtain ⟨h1, h2⟩ := quote_split hp.1 hq.1 h'
  simp only [List.cons.injEq, true_and] at h2
  obtain ⟨h3, h4⟩ := quote_split hp.2 hq.2 h2
  exact ⟨Prod.ext h1 h3, h4⟩

theorem commas_inj {a b : List (List Char × List Char)} (ha : Plain a) (hb : Plain b) (na : a ≠ []) (nb : b ≠ [])
    (h : commas (a.map pairText) ++ [' ', '}', '\n'] = commas (b.map pairText) ++ [' ', '}', '\n']) : a = b := by
  induction a generalizing b with
  | nil => exact absurd rfl na
  | cons p a ih =>
    cases b with
    | nil => exact absurd rfl nb
    | cons q b =>
      have hp := ha p (List.mem_cons_self ..)
      have hq := hb q (List.mem_cons_self ..)
      have ha' : Plain a := fun r hr => ha r (List.mem_cons_of_mem _ hr)
      have hb' : Plain b := fun r hr => hb r (List.mem_cons_of_mem _ hr)
      by_cases ea : a = [] <;> by_cases eb : b = []
      · subst ea eb
        exact congrArg (fun x => [x]) (pair_split hp hq h).1
      · subst ea
        rw [List.map_cons, List.map_cons, commas_cons (t := b.map pairText) (by simpa using eb), List.append_assoc, List.append_assoc] at h
        obtain ⟨-, h2⟩ := pair_split hp hq h
        exact absurd h2 (by simp)
      · subst eb
        rw [List.map_cons, List.map_cons, commas_cons (t := a.map pairText) (by simpa using ea), List.append_assoc, List.append_assoc] at h
        obtain ⟨-, h2⟩ := pair_split hp hq h
        exact absurd h2 (by simp)
      · rw [List.map_cons, List.map_cons, commas_cons (t := b.map pairText) (by simpa using eb),
          commas_cons (t := a.map pairText) (by simpa using ea), List.append_assoc, List.append_assoc, List.append_assoc,
          List.append_assoc] at h
        obtain ⟨h1, h2⟩ := pair_split hp hq h
        have := ih ha' hb' ea eb (by simpa using h2)
        rw [h1, this]

theorem commas_clean {c : Char} (hc : c ≠ ',' ∧ c ≠ ' ') : ∀ {t : List (List Char)}, (∀ s ∈ t, c ∉ s) → c ∉ commas t := by
  intro t
  induction t with
  | nil => intro _ h; cases h
  | cons s t ih =>
    intro hs h
    by_cases ht : t = []
    · subst ht; exact hs s (List.mem_cons_self ..) h
    · rw [commas_cons ht] at h
      rcases List.mem_append.1 h with h | h
      · rcases List.mem_append.1 h with h | h
        · exact hs s (List.mem_cons_self ..) h
        · simp only [List.mem_cons, List.not_mem_nil, or_false] at h
          rcases h with h | h
          · exact hc.1 h
          · exact hc.2 h
      · exact ih (fun s hs' => hs s (List.mem_cons_of_mem _ hs')) h

theorem cstr_append {a : List Nat} (ha : ∀ x ∈ a, x ≠ 0) (b : List Nat) : cstr (a ++ 0 :: b) = some a := by
  induction a with
  | nil => rfl
  | cons x a ih =>
    rw [List.cons_append, cstr, if_neg (ha x (List.mem_cons_self ..)), ih (fun y hy => ha y (List.mem_cons_of_mem _ hy))]
    rfl

theorem next_append {a : List Nat} (ha : ∀ x ∈ a, x ≠ 0) (b : List Nat) : next (a ++ 0 :: b) = some b := by
  induction a with
  | nil => rfl
  | cons x a ih =>
    rw [List.cons_append, next, if_pos (ha x (List.mem_cons_self ..)), ih (fun y hy => ha y (List.mem_cons_of_mem _ hy))]

theorem errorLoop_comma (argv : List (List Char × List Char)) : ∀ out, errorLoop out [',', ' '] argv =
    out ++ (if argv = [] then [] else [',', ' '] ++ commas (argv.map (·.2))) := by
  induction argv with
  | nil => intro out; simp [errorLoop]
  | cons p rest ih =>
    intro out
    obtain ⟨k, v⟩ := p
    rw [errorLoop, ih]
    by_cases h : rest = []
    · subst h; simp [commas]
    · rw [if_neg h, if_neg (List.cons_ne_nil _ _), List.map_cons, commas_cons (by simpa using h)]
      simp

theorem errorLoop_eq (argv : List (List Char × List Char)) (out) : errorLoop out [] argv = out ++ commas (argv.map (·.2)) := by
  cases argv with
  | nil => simp [errorLoop, commas]
  | cons p rest =>
    obtain ⟨k, v⟩ := p
    rw [errorLoop, errorLoop_comma]
    by_cases h : rest = []
    · subst h; simp [commas]
    · rw [if_neg h, List.map_cons, commas_cons (by simpa using h)]
      simp

end CE.Log
