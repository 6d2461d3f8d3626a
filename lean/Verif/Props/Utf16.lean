import Verif.Proof.Utf16
/-!
# to_utf16 (C67)
-/
namespace CE.Utf16

/-- `to_utf16` turns the UTF-8 text of any sequence of scalar values into its UTF-16 text, reading only the source. -/
theorem C67_valid (cs : List Nat) (h : ∀ c ∈ cs, Scalar c) :
    toUtf16 (cs.flatMap utf8) = some (cs.flatMap utf16) := by
  induction cs with
  | nil => rfl
  | cons c cs ih =>
    rw [List.flatMap_cons, List.flatMap_cons, toUtf16_one (h c (List.mem_cons_self ..)),
      ih (fun c hc => h c (List.mem_cons_of_mem _ hc))]
    rfl

/-- Whatever the bytes, it never writes more code units than there are bytes, unless it reads behind the source. -/
theorem C67_size {s d : List Nat} (h : toUtf16 s = some d) : d.length ≤ s.length ∧ ∀ u ∈ d, u < 65536 :=
  toUtf16_len s.length s d (Nat.le_refl _) h

/-- Different valid texts stay different. -/
theorem C67_lossless (a b : List Nat) (ha : ∀ c ∈ a, Scalar c) (hb : ∀ c ∈ b, Scalar c)
    (h : toUtf16 (a.flatMap utf8) = toUtf16 (b.flatMap utf8)) : a = b := by
  rw [C67_valid a ha, C67_valid b hb] at h
  have h := Option.some.inj h
  induction a generalizing b with
  | nil =>
    cases b with
    | nil => rfl
    | cons c b =>
      rw [List.flatMap_nil, List.flatMap_cons] at h
      unfold utf16 at h
      split at h <;> cases h
  | cons c a ih =>
    cases b with
    | nil =>
      rw [List.flatMap_nil, List.flatMap_cons] at h
      unfold utf16 at h
      split at h <;> cases h
    | cons d b =>
      have hc := ha c (List.mem_cons_self ..)
      have hd := hb d (List.mem_cons_self ..)
      have ih := ih b (fun c hc => ha c (List.mem_cons_of_mem _ hc)) (fun c hc => hb c (List.mem_cons_of_mem _ hc))
      rw [List.flatMap_cons, List.flatMap_cons] at h
      unfold Scalar at hc hd
      rw [show utf16 c = if c < 0x10000 then [c] else _ from rfl, show utf16 d = if d < 0x10000 then [d] else _ from rfl] at h
      split at h <;> split at h <;> simp only [List.cons_append, List.nil_append, List.cons.injEq] at h
      · rw [h.1, ih (congrArg some h.2) h.2]
      · omega
      · omega
      · rw [ih (congrArg some h.2.2) h.2.2]
        congr 1
        omega

/-- It reads behind the source exactly when the source ends inside a character. -/
theorem C67_reads_iff (s : List Nat) : toUtf16 s ≠ none ↔ Complete s := by
  constructor
  · suffices ∀ n (s : List Nat), s.length ≤ n → toUtf16 s ≠ none → Complete s from this _ s (Nat.le_refl _)
    intro n
    induction n with
    | zero => intro s h _; rw [List.length_eq_zero_iff.1 (Nat.le_zero.1 h)]; exact .nil
    | succ n ih =>
      intro s hl h
      cases s with
      | nil => exact .nil
      | cons b t =>
        rw [toUtf16.eq_def] at h
        simp only [List.length_cons] at hl
        dsimp only at h
        split at h
        · next h1 =>
          exact .char (b := b) (t := []) (by simp [width, h1]) (ih t (by omega) (by simpa using h))
        · next h1 =>
          split at h
          · next h2 =>
            split at h
            · next c r =>
              simp only [List.length_cons] at hl
              exact .char (b := b) (t := [c]) (by simp [width, h1, h2]) (ih r (by omega) (by simpa using h))
            · exact absurd rfl h
          · next h2 =>
            split at h
            · next h3 =>
              split at h
              · next c d r =>
                simp only [List.length_cons] at hl
                exact .char (b := b) (t := [c, d]) (by simp [width, h1, h2, h3]) (ih r (by omega) (by simpa using h))
              · exact absurd rfl h
            · next h3 =>
              split at h
              · next c d e r =>
                simp only [List.length_cons] at hl
                exact .char (b := b) (t := [c, d, e]) (by simp [width, h1, h2, h3]) (ih r (by omega) (by simpa using h))
              · exact absurd rfl h
  · intro h
    induction h with
    | nil => simp [toUtf16]
    | @char b t s hw _ ih =>
      rw [List.cons_append, toUtf16.eq_def]
      dsimp only
      unfold width at hw
      split at hw
      · next h1 =>
        rw [if_pos h1]
        obtain rfl := List.length_eq_zero_iff.1 (by omega : t.length = 0)
        simpa using ih
      · next h1 =>
        rw [if_neg h1]
        split at hw
        · next h2 =>
          rw [if_pos h2]
          match t, hw with
          | [c], _ => simpa using ih
        · next h2 =>
          rw [if_neg h2]
          split at hw
          · next h3 =>
            rw [if_pos h3]
            match t, hw with
            | [c, d], _ => simpa using ih
          · next h3 =>
            rw [if_neg h3]
            match t, hw with
            | [c, d, e], _ => simpa using ih

example : Complete [0x41, 0xe2, 0x82, 0xac] ∧ ¬ Complete [0x41, 0xe2, 0x82] :=
  ⟨(C67_reads_iff _).1 (by decide), fun h => (C67_reads_iff _).2 h (by decide)⟩

/-- A source that ends inside a character is read past its end. -/
theorem C67_truncated_false : toUtf16 [0xc3] = none ∧ toUtf16 [0x41, 0xe2, 0x82] = none ∧ toUtf16 [0xf0, 0x9f, 0x98] = none := by
  decide

/-- The texts that are converted in the library end with the 0 of a C string, which does not help if the character
before it lacks two bytes. -/
theorem C67_terminated_false : toUtf16 [0xe2, 0] = none := by decide

example : ∀ c ∈ [0x24, 0xa2, 0x20ac, 0x1f600, 0], Scalar c := by unfold Scalar; decide
example : toUtf16 [0x24, 0xc2, 0xa2, 0xe2, 0x82, 0xac, 0xf0, 0x9f, 0x98, 0x80] = some [0x24, 0xa2, 0x20ac, 0xd83d, 0xde00] := by decide

end CE.Utf16
