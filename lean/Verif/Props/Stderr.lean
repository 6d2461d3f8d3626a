import Mathlib.Data.List.Basic
import Verif.Model.Stderr
import Verif.Props.Log
/-!
# Lines on the standard error stream (C106)
-/
namespace CE.Stderr

/-- the characters of a text that may be a null pointer -/
def chars (t : Option Text) : Text := t.getD []

/-- the characters of pieces -/
def glue (l : List (Option Text)) : Text := (l.map chars).flatten

/-- the text of a call: the record (C65), the report (C66), a null pointer saying nothing -/
def Cmd.line : Cmd → Text
  | .log level argv => Log.record (Log.letter level) (argv.map fun p => (chars p.1, chars p.2))
  | .error argv => (Log.error 0 ((argv.getD []).map fun p => (chars p.1, chars p.2))).1

theorem glue_append (a b : List (Option Text)) : glue (a ++ b) = glue a ++ glue b := by simp [glue]

theorem glue_logLoop (pre out : Text) (argv : List (Option Text × Option Text)) :
    out ++ glue (logLoop pre argv) = Log.logLoop out pre (argv.map fun p => (chars p.1, chars p.2)) := by
  induction argv generalizing pre out with
  | nil => simp [logLoop, glue, Log.logLoop]
  | cons a argv ih =>
    simp only [logLoop, List.map_cons, Log.logLoop]
    rw [← ih, glue_append]
    simp [glue, chars]

theorem glue_errorLoop (pre out : Text) (argv : List (Option Text × Option Text)) :
    out ++ glue (errorLoop pre argv) = Log.errorLoop out pre (argv.map fun p => (chars p.1, chars p.2)) := by
  induction argv generalizing pre out with
  | nil => simp [errorLoop, glue, Log.errorLoop]
  | cons a argv ih =>
    simp only [errorLoop, List.map_cons, Log.errorLoop]
    rw [← ih, glue_append]
    simp [glue, chars]

/-- The pieces of a call make up its line. -/
theorem C106_pieces (c : Cmd) : glue c.pieces = c.line := by
  cases c with
  | log level argv =>
    show glue (logPieces level argv) = Log.record (Log.letter level) _
    rw [← Log.log_eq]
    unfold logPieces Log.log
    rw [glue_append, glue_append, ← glue_logLoop]
    simp [glue, chars]
  | error argv =>
    show glue (errorPieces argv) = (Log.error 0 _).1
    unfold errorPieces Log.error
    rcases argv with _ | argv
    · simp [glue, chars]
    · rcases argv with _ | ⟨a0, _ | ⟨a1, rest⟩⟩
      · simp [glue, chars]
      · simp [glue, chars]
      · simp only [Option.getD_some, List.map_cons]
        rw [← glue_errorLoop, glue_append, glue_append, glue_append]
        simp [glue, chars]

/-- the part of a history that belongs to thread `i` -/
def part {α : Type} (i : Nat) (h : List (Nat × α)) : List α := (h.filter (·.1 = i)).map (·.2)

theorem part_append {α : Type} (i : Nat) (a b : List (Nat × α)) : part i (a ++ b) = part i a ++ part i b := by
  simp [part]

/-- all that a thread has to say -/
def say (t : Thread) : List (Option Text) := t.cur ++ t.todo.flatMap Cmd.pieces

theorem pieces_inv (lock : Bool) (sched : List (Nat × Nat)) (hd : ∀ p ∈ sched, p.2 = 0) (s : St) :
    ∃ h : List (Nat × Option Text), (run lock s sched).out = s.out ++ glue (h.map (·.2)) ∧
      ∀ i, part i h ++ say ((run lock s sched).th i) = say (s.th i) := by
  induction sched generalizing s with
  | nil => exact ⟨[], by simp [run, glue], by simp [run, part]⟩
  | cons p sched ih =>
    obtain ⟨i, d⟩ := p
    have h0 : d = 0 := hd (i, d) (by simp)
    subst h0
    obtain ⟨h, h1, h2⟩ := ih (fun p hp => hd p (by simp [hp])) (step lock s i 0)
    simp only [run]
    cases hc : (s.th i).cur with
    | cons q qs =>
      have ho : (step lock s i 0).out = s.out ++ chars q := by
        unfold step; rw [hc]; cases q <;> simp [debugOut, chars]
      refine ⟨(i, q) :: h, ?_, ?_⟩
      · rw [h1, ho]; simp [glue]
      · intro j
        have := h2 j
        by_cases hj : j = i
        · subst hj
          have ht : say (s.th j) = q :: say ((step lock s j 0).th j) := by
            unfold step; rw [hc]; simp [say, hc, St.set]
          rw [ht, ← this]; simp [part]
        · have ht : (step lock s i 0).th j = s.th j := by unfold step; rw [hc]; simp [St.set, hj]
          rw [ht] at this
          rw [← this]
          simp [part, Ne.symm hj]
    | nil =>
      have ho : (step lock s i 0).out = s.out := by
        unfold step; rw [hc]; dsimp only; split
        · rfl
        · split <;> rfl
      have ht : ∀ j, say ((step lock s i 0).th j) = say (s.th j) := by
        intro j
        unfold step; rw [hc]; dsimp only; split
        · rfl
        · next hcs =>
          split
          · rfl
          · by_cases hj : j = i
            · subst hj; simp [say, St.set, hc, hcs]
            · simp [St.set, hj]
      exact ⟨h, by rw [h1, ho], fun j => by rw [h2, ht]⟩

/-- When every `write` is complete, no character is lost or doubled, with or without a lock: the stream is made of the
pieces of the threads, those of each thread in order.  Pieces are not cut. -/
theorem C106_pieces_in_order (lock : Bool) (prog : Nat → List Cmd) (sched : List (Nat × Nat)) (hd : ∀ p ∈ sched, p.2 = 0) :
    ∃ h : List (Nat × Option Text), (run lock (start prog) sched).out = glue (h.map (·.2)) ∧
      ∀ i, part i h ++ say ((run lock (start prog) sched).th i) = (prog i).flatMap Cmd.pieces := by
  obtain ⟨h, h1, h2⟩ := pieces_inv lock sched hd (start prog)
  exact ⟨h, by rw [h1]; rfl, fun i => by rw [h2]; simp [say, start]⟩

theorem pieces_ne (c : Cmd) : c.pieces ≠ [] := by
  cases c <;> simp [Cmd.pieces, logPieces, errorPieces]

/-- what holds throughout when calls are made under a lock: the stream is whole lines and then the beginning of the line of
the thread inside -/
def Inv (prog : Nat → List Cmd) (s : St) : Prop :=
  ∃ h : List (Nat × Cmd),
    match s.owner with
    | none => s.out = (h.map fun p => p.2.line).flatten ∧ (∀ i, (s.th i).cur = []) ∧ ∀ i, part i h ++ (s.th i).todo = prog i
    | some k => ∃ c, s.out ++ glue (s.th k).cur = (h.map fun p => p.2.line).flatten ++ c.line ∧ (s.th k).cur ≠ [] ∧
        (∀ i, i ≠ k → (s.th i).cur = []) ∧ ∀ i, part i (h ++ [(k, c)]) ++ (s.th i).todo = prog i

theorem inv_step (prog : Nat → List Cmd) (s : St) (i : Nat) (hs : Inv prog s) : Inv prog (step true s i 0) := by
  obtain ⟨h, hs⟩ := hs
  cases ho : s.owner with
  | none =>
    rw [ho] at hs
    obtain ⟨h1, h2, h3⟩ := hs
    unfold step
    rw [h2 i]
    dsimp only
    cases hc : (s.th i).todo with
    | nil => dsimp only; exact ⟨h, by rw [ho]; exact ⟨h1, h2, h3⟩⟩
    | cons c cs =>
      dsimp only
      rw [ho]
      refine ⟨h, c, ?_, ?_, ?_, ?_⟩
      · simp [St.set, C106_pieces, h1]
      · simpa [St.set] using pieces_ne c
      · intro j hj; simp [St.set, hj, h2]
      · intro j
        have := h3 j
        by_cases hj : j = i
        · subst hj; rw [← this, part_append]; simp [St.set, part, hc]
        · rw [← this, part_append]; simp [St.set, part, hj, Ne.symm hj]
  | some k =>
    rw [ho] at hs
    obtain ⟨c, h1, h2, h3, h4⟩ := hs
    by_cases hk : i = k
    · subst hk
      cases hc : (s.th i).cur with
      | nil => exact absurd hc h2
      | cons p ps =>
        have hout : debugOut 0 s.out p = s.out ++ chars p := by cases p <;> simp [debugOut, chars]
        unfold step
        rw [hc]
        dsimp only
        rw [hc] at h1
        by_cases hps : ps = []
        · subst hps
          rw [if_pos rfl]
          refine ⟨h ++ [(i, c)], ?_, ?_, ?_⟩
          · rw [hout]; simpa [glue] using h1
          · intro j
            by_cases hj : j = i
            · simp [St.set, hj]
            · simp [St.set, hj, h3 j hj]
          · intro j
            rw [← h4 j]
            by_cases hj : j = i
            · subst hj; simp [St.set]
            · simp [St.set, hj]
        · rw [if_neg hps, ho]
          refine ⟨h, c, ?_, ?_, ?_, ?_⟩
          · rw [hout]; simpa [St.set, glue] using h1
          · simpa [St.set] using hps
          · intro j hj; simp [St.set, hj, h3 j hj]
          · intro j
            rw [← h4 j]
            by_cases hj : j = i
            · subst hj; simp [St.set]
            · simp [St.set, hj]
    · have hsame : step true s i 0 = s := by
        unfold step
        rw [h3 i hk]
        dsimp only
        split
        · rfl
        · simp [ho]
      rw [hsame]
      exact ⟨h, by rw [ho]; exact ⟨c, h1, h2, h3, h4⟩⟩

theorem inv_run (prog : Nat → List Cmd) (sched : List (Nat × Nat)) (hd : ∀ p ∈ sched, p.2 = 0) (s : St) (hs : Inv prog s) :
    Inv prog (run true s sched) := by
  induction sched generalizing s with
  | nil => exact hs
  | cons p sched ih =>
    obtain ⟨i, d⟩ := p
    have h0 : d = 0 := hd (i, d) (by simp)
    subst h0
    exact ih (fun p hp => hd p (by simp [hp])) _ (inv_step prog s i hs)

/-- If the calls are made under a lock and every `write` is complete, the stream consists of whole lines whenever nobody is
in a call: one for each call finished, those of a thread in the order of its calls. -/
theorem C106_whole_lines_partial (prog : Nat → List Cmd) (sched : List (Nat × Nat)) (hd : ∀ p ∈ sched, p.2 = 0)
    (hq : (run true (start prog) sched).owner = none) :
    ∃ h : List (Nat × Cmd), (run true (start prog) sched).out = (h.map fun p => p.2.line).flatten ∧
      ∀ i, part i h ++ ((run true (start prog) sched).th i).todo = prog i := by
  have h0 : Inv prog (start prog) := ⟨[], by refine ⟨rfl, fun i => rfl, fun i => ?_⟩; simp [part, start]⟩
  obtain ⟨h, hs⟩ := inv_run prog sched hd _ h0
  rw [hq] at hs
  exact ⟨h, hs.1, hs.2.2⟩

/-- a thread that is not scheduled stays as it is -/
theorem run_other (lock : Bool) (j : Nat) (sched : List (Nat × Nat)) (h : ∀ p ∈ sched, p.1 ≠ j) (s : St) :
    (run lock s sched).th j = s.th j := by
  induction sched generalizing s with
  | nil => rfl
  | cons p sched ih =>
    obtain ⟨i, d⟩ := p
    have hi : j ≠ i := fun e => h (i, d) (by simp) e.symm
    simp only [run]
    rw [ih (fun p hp => h p (by simp [hp]))]
    unfold step
    split
    · simp [St.set, hi]
    · split
      · rfl
      · split
        · rfl
        · simp [St.set, hi]

/-- two threads that log one line each -/
def two : Nat → List Cmd
  | 0 => [.log 4 [(some ['a'], some ['1'])]]
  | 1 => [.log 2 [(some ['b'], some ['2'])]]
  | _ => []

/-- a schedule of two threads in turns, long enough for both to finish -/
def turns : List (Nat × Nat) := (List.replicate 12 [(0, 0), (1, 0)]).flatten

/-- The library takes no lock: the lines of two threads may be mixed so that no line is intact. -/
theorem C106_mixed_lines_false :
    (run false (start two) turns).out = "I: {W: {  \"\"ab\": \"\": \"12\"\" }\n }\n".toList ∧
      (∀ i, (run false (start two) turns).th i = ⟨[], []⟩) ∧
      (∀ i j, ∀ c ∈ two i, ∀ c' ∈ two j, (run false (start two) turns).out ≠ c.line ++ c'.line) := by
  refine ⟨by decide +kernel, ?_, ?_⟩
  · intro i
    match i with
    | 0 => decide +kernel
    | 1 => decide +kernel
    | i + 2 =>
      have h : ∀ p ∈ turns, p.1 < 2 := by decide +kernel
      rw [run_other false (i + 2) turns (fun p hp => by have := h p hp; omega)]
      rfl
  · intro i j c hc c' hc'
    have key : ∀ i, two (i + 2) = [] := fun _ => rfl
    match i, j, hc, hc' with
    | i + 2, _, hc, _ => rw [key] at hc; cases hc
    | _, j + 2, _, hc' => rw [key] at hc'; cases hc'
    | 0, 0, hc, hc' => rw [List.mem_singleton.1 hc, List.mem_singleton.1 hc']; decide +kernel
    | 0, 1, hc, hc' => rw [List.mem_singleton.1 hc, List.mem_singleton.1 hc']; decide +kernel
    | 1, 0, hc, hc' => rw [List.mem_singleton.1 hc, List.mem_singleton.1 hc']; decide +kernel
    | 1, 1, hc, hc' => rw [List.mem_singleton.1 hc, List.mem_singleton.1 hc']; decide +kernel

/-- A `write` that takes only part of a piece is not repeated: the rest is lost although the call returns, here the end of
the line, and the next line is appended to it. -/
theorem C106_short_write_false :
    let sched := List.replicate 8 (0, 0) ++ [(0, 1)] ++ List.replicate 9 (1, 0)
    (∀ i, (run true (start two) sched).th i = ⟨[], []⟩) ∧
      (run true (start two) sched).out = "I: { \"a\": \"1\" }W: { \"b\": \"2\" }\n".toList := by
  refine ⟨?_, by decide +kernel⟩
  intro i
  match i with
  | 0 => decide +kernel
  | 1 => decide +kernel
  | i + 2 =>
    rw [run_other true (i + 2) _ (fun p hp => ?_)]
    · rfl
    · have h : ∀ p ∈ List.replicate 8 (0, 0) ++ [(0, 1)] ++ List.replicate 9 (1, 0), p.1 < 2 := by decide +kernel
      have := h p hp
      omega

-- under a lock a schedule in which both finish gives two whole lines
example : (∀ p ∈ turns, p.2 = 0) ∧ (run true (start two) (turns ++ turns)).owner = none ∧
    (run true (start two) (turns ++ turns)).out = "I: { \"a\": \"1\" }\n".toList ++ "W: { \"b\": \"2\" }\n".toList := by
  decide +kernel

end CE.Stderr
