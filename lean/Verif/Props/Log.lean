import Verif.Proof.Log
/-!
# Log records (C65) and check macros (C66)
-/
namespace CE.Log

/-- `os::log` emits exactly the record: the letter of the level and the pairs in order. -/
theorem C65_record (level : Int) (argv : List (List Char × List Char)) : log level argv = record (letter level) argv :=
  log_eq level argv

/-- The letter is the one at the level's place in `FEWNIDSM`, negative levels counting as 0 and levels above 7 as 7. -/
theorem C65_letter (level : Int) :
    ∃ k : Fin 8, letter level = ['F', 'E', 'W', 'N', 'I', 'D', 'S', 'M'].get k ∧ (k.1 : Int) = max 0 (min 7 level) := by
  unfold letter
  by_cases h1 : level < 0
  · exact ⟨0, by rw [if_pos h1]; rfl, by show (0 : Int) = _; omega⟩
  · by_cases h2 : level > 7
    · exact ⟨7, by rw [if_neg h1, if_pos h2]; rfl, by show (7 : Int) = _; omega⟩
    · rw [if_neg h1, if_neg h2]
      obtain ⟨n, rfl⟩ := Int.eq_ofNat_of_zero_le (by omega : 0 ≤ level)
      have hn : n < 8 := by omega
      refine ⟨⟨n, hn⟩, ?_, by show (n : Int) = _; omega⟩
      rw [Int.toNat_natCast, List.getD_eq_getElem?_getD, List.getElem?_eq_getElem (by simpa using hn)]
      rfl

/-- One line: if no key or value has a newline, the record has one, at its end. -/
theorem C65_one_line (level : Int) (argv : List (List Char × List Char))
    (h : ∀ p ∈ argv, '\n' ∉ p.1 ∧ '\n' ∉ p.2) : ∃ s, log level argv = s ++ ['\n'] ∧ '\n' ∉ s := by
  rw [log_eq]
  unfold record
  refine ⟨letter level :: ([':', ' ', '{'] ++ (if argv = [] then [] else ' ' :: commas (argv.map pairText)) ++ [' ', '}']), by simp, ?_⟩
  have hl : '\n' ≠ letter level := by
    obtain ⟨k, hk, -⟩ := C65_letter level
    rw [hk]
    clear hk
    revert k
    decide
  have hc : '\n' ∉ commas (argv.map pairText) := by
    apply commas_clean (by decide)
    intro s hs
    obtain ⟨p, hp, rfl⟩ := List.mem_map.1 hs
    have := h p hp
    simp [pairText, quoted, this.1, this.2]
  split
  · simp [hl]
  · simp [hl, hc]

/-- If no key or value has a quote in it, the record determines the letter and the pairs. -/
theorem C65_lossless {l l' : Int} {a b : List (List Char × List Char)} (ha : ∀ p ∈ a, '"' ∉ p.1 ∧ '"' ∉ p.2)
    (hb : ∀ p ∈ b, '"' ∉ p.1 ∧ '"' ∉ p.2) (h : log l a = log l' b) : letter l = letter l' ∧ a = b := by
  rw [log_eq, log_eq] at h
  unfold record at h
  injection h with h1 h2
  refine ⟨h1, ?_⟩
  simp only [List.append_assoc, List.append_cancel_left_eq] at h2
  by_cases ea : a = [] <;> by_cases eb : b = []
  · rw [ea, eb]
  · exfalso
    rw [if_pos ea, if_neg eb] at h2
    cases b with
    | nil => exact eb rfl
    | cons q b =>
      by_cases hb' : b = []
      · subst hb'; simp [commas, pairText, quoted] at h2
      · rw [List.map_cons, commas_cons (by simpa using hb')] at h2
        simp [pairText, quoted] at h2
  · exfalso
    rw [if_neg ea, if_pos eb] at h2
    cases a with
    | nil => exact ea rfl
    | cons q b =>
      by_cases hb' : b = []
      · subst hb'; simp [commas, pairText, quoted] at h2
      · rw [List.map_cons, commas_cons (by simpa using hb')] at h2
        simp [pairText, quoted] at h2
  · rw [if_neg ea, if_neg eb] at h2
    exact commas_inj ha hb ea eb (by simpa using h2)

/-- Quotes are not escaped: one pair whose value holds quotes and two pairs give the same record. -/
theorem C65_escape_false : ∃ a b : List (List Char × List Char), a.length ≠ b.length ∧ log 4 a = log 4 b :=
  ⟨[(['a'], ['b', '"', ',', ' ', '"', 'c', '"', ':', ' ', '"', 'd'])], [(['a'], ['b']), (['c'], ['d'])], by decide, by decide⟩

/-- The letter of each named level is its initial, and other names log as `more`. -/
theorem C65_levels : (∀ n ∈ ["fatal", "error", "warn", "note", "info", "debug", "spam", "more"],
      n.toList.head?.map Char.toUpper = some (letter (levelOf n))) ∧
    ∀ n, n ∉ ["fatal", "error", "warn", "note", "info", "debug", "spam", "more"] → letter (levelOf n) = 'M' := by
  refine ⟨by decide +kernel, fun n hn => ?_⟩
  simp only [List.mem_cons, List.not_mem_nil, or_false, not_or] at hn
  unfold levelOf
  rw [if_neg hn.1, if_neg hn.2.1, if_neg hn.2.2.1, if_neg hn.2.2.2.1, if_neg hn.2.2.2.2.1, if_neg hn.2.2.2.2.2.1,
    if_neg hn.2.2.2.2.2.2.1, if_neg hn.2.2.2.2.2.2.2]
  rfl

/-- Both hooks are called with level 0, the kind with the file and line, the test with the argument names, and then
each argument value in order. -/
theorem C66_info {kind what file more : List Nat} (hk : ∀ x ∈ kind, x ≠ 0) (hw : ∀ x ∈ what, x ≠ 0)
    (hf : ∀ x ∈ file, x ≠ 0) (hm : ∀ x ∈ more, x ≠ 0) (args : List (List Nat)) :
    callErrorHook (packed kind what file more) args =
      some ⟨0, (kind, file) :: (what, more) :: args.map (fun a => ([46, 46, 46], a))⟩ := by
  have e : packed kind what file more = 0 :: (kind ++ 0 :: (what ++ 0 :: (file ++ 0 :: (more ++ 0 :: [])))) := by
    simp [packed]
  rw [e]
  unfold callErrorHook
  simp only [List.head?_cons, List.tail?_cons, Option.bind_eq_bind, Option.bind_some, next_append hk, next_append hw,
    next_append hf, cstr_append hk, cstr_append hw, cstr_append hf, cstr_append hm]
  rfl

/-- Whatever the first byte is, the hooks get it as a signed byte, and the rest is the same. -/
theorem C66_level (c : Nat) {kind what file more : List Nat} (hk : ∀ x ∈ kind, x ≠ 0) (hw : ∀ x ∈ what, x ≠ 0)
    (hf : ∀ x ∈ file, x ≠ 0) (hm : ∀ x ∈ more, x ≠ 0) (args : List (List Nat)) :
    ∃ l : Int, callErrorHook (c :: (packed kind what file more).tail) args =
        some ⟨l, (kind, file) :: (what, more) :: args.map (fun a => ([46, 46, 46], a))⟩ ∧
      -128 ≤ l ∧ l < 128 ∧ (l - c) % 256 = 0 := by
  refine ⟨schar c, ?_, ?_⟩
  · have e : c :: (packed kind what file more).tail = c :: (kind ++ 0 :: (what ++ 0 :: (file ++ 0 :: (more ++ 0 :: [])))) := by
      simp [packed]
    rw [e]
    unfold callErrorHook
    simp only [List.head?_cons, List.tail?_cons, Option.bind_eq_bind, Option.bind_some, next_append hk, next_append hw,
      next_append hf, cstr_append hk, cstr_append hw, cstr_append hf, cstr_append hm]
  · unfold schar
    split <;> refine ⟨?_, ?_, ?_⟩ <;> omega

/-- What `os::error` prints for such a call, and it always asks for a break. -/
theorem C66_report (kind what file more : List Char) (args : List (List Char)) :
    error 0 ((kind, file) :: (what, more) :: args.map (fun a => (['.', '.', '.'], a))) =
      ("******** FAILED ********\n".toList ++ file ++ [':', ' '] ++ kind ++ [':', ' '] ++ what ++ [':', ' ', '('] ++ more ++
        [')', ' ', '=', ' ', '('] ++ commas args ++ [')', '\n'], true) := by
  unfold error
  dsimp only
  rw [errorLoop_eq, List.map_map]
  have : ((fun x => x.2) ∘ fun a => (['.', '.', '.'], a) : List Char → List Char) = fun a => a := rfl
  rw [this, List.map_id']
  refine Prod.ext ?_ rfl
  have e : "******** FAILED ********\n".toList =
    ['*', '*', '*', '*', '*', '*', '*', '*', ' ', 'F', 'A', 'I', 'L', 'E', 'D', ' ', '*', '*', '*', '*', '*', '*', '*', '*', '\n'] := by
    decide +kernel
  rw [e]
  simp only [List.append_assoc]

variable {σ : Type} (test hook : σ → Bool × σ) (brk : σ → σ)

/-- `CE_VERIFY` evaluates the test once and has its value; if it is false the hook is called once, and then the
program breaks exactly if the hook returns true. -/
theorem C66_verify (s : σ) : eval test hook brk verify s =
    (let t := test s
     if t.1 then (true, t.2)
     else (false, if (hook t.2).1 then brk (hook t.2).2 else (hook t.2).2)) := by
  simp only [verify, orElse, eval]
  by_cases h : (test s).1 = true <;> by_cases h' : (hook (test s).2).1 = true <;> simp [h, h']

/-- `CE_REJECT` evaluates the test once and has its value; if it is true the hook is called once, and then the
program breaks exactly if the hook returns true. -/
theorem C66_reject (s : σ) : eval test hook brk reject s =
    (let t := test s
     if t.1 then (true, if (hook t.2).1 then brk (hook t.2).2 else (hook t.2).2)
     else (false, t.2)) := by
  simp only [reject, orElse, eval]
  by_cases h : (test s).1 = true <;> by_cases h' : (hook (test s).2).1 = true <;> simp [h, h']

/-- With checks turned off, both are the test. -/
theorem C66_off (s : σ) : eval test hook brk verifyOff s = test s ∧ eval test hook brk rejectOff s = test s := by
  simp [verifyOff, rejectOff, eval]

example : (∀ p ∈ [(['k'], ['v', '\n'])], '"' ∉ p.1 ∧ '"' ∉ p.2) ∧ ∀ p ∈ [(['k'], ['v', '"'])], '\n' ∉ p.1 ∧ '\n' ∉ p.2 := by decide
example : log 2 [(['k'], ['v']), (['x'], [])] = "W: { \"k\": \"v\", \"x\": \"\" }\n".toList := by decide +kernel
example : (∀ x ∈ ([65, 66] : List Nat), x ≠ 0) := by decide

end CE.Log
