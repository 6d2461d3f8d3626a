import Verif.Model.Path
import Verif.Proof.Utf16
/-!
# Paths
-/
namespace CE.Path
open CE.Utf16

theorem cstr_append {p : List Nat} (h : ∀ c ∈ p, c ≠ 0) (rest : List Nat) : cstr (p ++ 0 :: rest) = some p := by
  induction p with
  | nil => rfl
  | cons c p ih =>
    show (if c = 0 then some [] else (cstr (p ++ 0 :: rest)).map (c :: ·)) = _
    rw [if_neg (h c (List.mem_cons_self ..)), ih (fun c hc => h c (List.mem_cons_of_mem _ hc))]
    rfl

theorem cstr_takeWhile (d rest : List Nat) : cstr (d ++ 0 :: rest) = some (d.takeWhile (· ≠ 0)) := by
  induction d with
  | nil => rfl
  | cons c d ih =>
    show (if c = 0 then some [] else (cstr (d ++ 0 :: rest)).map (c :: ·)) = _
    rw [ih, List.takeWhile_cons]
    by_cases h : c = 0
    · simp [h]
    · simp [h]

theorem takeWhile_all {d : List Nat} (h : ∀ u ∈ d, u ≠ 0) : d.takeWhile (· ≠ 0) = d := by
  induction d with
  | nil => rfl
  | cons u d ih =>
    rw [List.takeWhile_cons, if_pos (by simpa using h u (List.mem_cons_self ..)), ih (fun u hu => h u (List.mem_cons_of_mem _ hu))]

theorem cstr_some {m p : List Nat} (h : cstr m = some p) : ∃ rest, m = p ++ 0 :: rest ∧ ∀ c ∈ p, c ≠ 0 := by
  induction m generalizing p with
  | nil => cases h
  | cons c m ih =>
    rw [cstr] at h
    split at h
    · next hc => cases h; subst hc; exact ⟨m, rfl, fun c h => by cases h⟩
    · next hc =>
      obtain ⟨q, hq, rfl⟩ := Option.map_eq_some_iff.1 h
      obtain ⟨rest, rfl, hn⟩ := ih hq
      refine ⟨rest, rfl, fun x hx => ?_⟩
      rcases List.mem_cons.1 hx with rfl | hx
      · exact hc
      · exact hn x hx

/-- what `to_utf16` makes of whole characters does not depend on what follows -/
theorem conv_append : ∀ (k : Nat) (a d : List Nat), a.length ≤ k → toUtf16 a = some d → ∀ (left : Nat) (rest : List Nat),
    conv (a.length + left) (a ++ rest) = (conv left rest).map (d ++ ·) := by
  intro k
  have triv : ∀ (left : Nat) (rest : List Nat), conv (([] : List Nat).length + left) ([] ++ rest) = (conv left rest).map ([] ++ ·) := by
    intro left rest
    rw [List.length_nil, Nat.zero_add, List.nil_append]
    cases conv left rest <;> rfl
  induction k with
  | zero =>
    intro a d ha h left rest
    have : a = [] := List.length_eq_zero_iff.1 (by omega)
    subst this
    rw [toUtf16] at h; cases h
    exact triv left rest
  | succ k ih =>
    intro a d ha h left rest
    cases a with
    | nil => rw [toUtf16] at h; cases h; exact triv left rest
    | cons s0 a =>
      rw [List.length_cons] at ha
      rw [toUtf16.eq_def] at h
      dsimp only at h
      rw [conv.eq_def, if_neg (by rw [List.length_cons]; omega), List.cons_append]
      dsimp only
      split at h
      · next h0 =>
        obtain ⟨e, he, rfl⟩ := Option.map_eq_some_iff.1 h
        rw [if_pos h0, List.length_cons, show a.length + 1 + left - 1 = a.length + left by omega, ih a e (by omega) he, Option.map_map]
        rfl
      · next h0 =>
        rw [if_neg h0]
        split at h
        · next h1 =>
          rw [if_pos h1]
          split at h
          · next s1 r =>
            obtain ⟨e, he, rfl⟩ := Option.map_eq_some_iff.1 h
            rw [List.length_cons] at ha
            rw [List.cons_append]; dsimp only
            rw [List.length_cons, List.length_cons, show r.length + 1 + 1 + left - 2 = r.length + left by omega, ih r e (by omega) he, Option.map_map]
            rfl
          · cases h
        · next h1 =>
          rw [if_neg h1]
          split at h
          · next h2 =>
            rw [if_pos h2]
            split at h
            · next s1 s2 r =>
              obtain ⟨e, he, rfl⟩ := Option.map_eq_some_iff.1 h
              rw [List.length_cons, List.length_cons] at ha
              rw [List.cons_append, List.cons_append]; dsimp only
              rw [List.length_cons, List.length_cons, List.length_cons,
                show r.length + 1 + 1 + 1 + left - 3 = r.length + left by omega, ih r e (by omega) he, Option.map_map]
              rfl
            · cases h
          · next h2 =>
            rw [if_neg h2]
            split at h
            · next s1 s2 s3 r =>
              obtain ⟨e, he, rfl⟩ := Option.map_eq_some_iff.1 h
              rw [List.length_cons, List.length_cons, List.length_cons] at ha
              rw [List.cons_append, List.cons_append, List.cons_append]; dsimp only
              rw [List.length_cons, List.length_cons, List.length_cons, List.length_cons,
                show r.length + 1 + 1 + 1 + 1 + left - 4 = r.length + left by omega, ih r e (by omega) he, Option.map_map]
              rfl
            · cases h

/-- before a terminator there is room -/
theorem conv_len : ∀ (k : Nat) (left : Nat) (mem d : List Nat), left ≤ k → (left ≠ 0 → mem[left - 1]? = some 0) →
    conv left mem = some d → d.length ≤ left := by
  intro k
  induction k with
  | zero =>
    intro left mem d hk hz h
    have : left = 0 := by omega
    subst this
    rw [conv.eq_def, if_pos rfl] at h; cases h
    exact Nat.le_refl _
  | succ k ih =>
    intro left mem d hk hz h
    rw [conv.eq_def] at h
    split at h
    · cases h; exact Nat.zero_le _
    · next h0 =>
      replace hz := hz h0
      cases mem with
      | nil => cases h
      | cons s0 rest =>
        dsimp only at h
        -- the last byte of the text is its terminator
        have h2 : ¬ s0 < 0x80 → 2 ≤ left := by
          intro hs
          rcases Nat.lt_or_ge left 2 with hc | hc
          · have : left = 1 := by omega
            subst this
            simp at hz
            omega
          · exact hc
        have hz1 : left - 1 ≠ 0 → rest[left - 1 - 1]? = some 0 := by
          intro h1
          rw [show left - 1 = (left - 1 - 1) + 1 by omega, List.getElem?_cons_succ] at hz
          exact hz
        split at h
        · obtain ⟨e, he, rfl⟩ := Option.map_eq_some_iff.1 h
          have := ih (left - 1) rest e (by omega) hz1 he
          rw [List.length_cons]; omega
        · next h80 =>
          have h2 := h2 h80
          split at h
          · split at h
            · next s1 r =>
              obtain ⟨e, he, rfl⟩ := Option.map_eq_some_iff.1 h
              have := ih (left - 2) r e (by omega) (fun h2 => by
                have := hz1 (by omega)
                rw [show left - 1 - 1 = (left - 2 - 1) + 1 by omega, List.getElem?_cons_succ] at this
                exact this) he
              rw [List.length_cons]; omega
            · cases h
          · split at h
            · split at h
              · next s1 s2 r =>
                obtain ⟨e, he, rfl⟩ := Option.map_eq_some_iff.1 h
                have := ih (left - 3) r e (by omega) (fun h2 => by
                  have := hz1 (by omega)
                  rw [show left - 1 - 1 = (left - 3 - 1) + 1 + 1 by omega, List.getElem?_cons_succ, List.getElem?_cons_succ] at this
                  exact this) he
                rw [List.length_cons]; omega
              · cases h
            · split at h
              · next s1 s2 s3 r =>
                obtain ⟨e, he, rfl⟩ := Option.map_eq_some_iff.1 h
                have := ih (left - 4) r e (by omega) (fun h2 => by
                  have := hz1 (by omega)
                  rw [show left - 1 - 1 = (left - 4 - 1) + 1 + 1 + 1 by omega, List.getElem?_cons_succ, List.getElem?_cons_succ, List.getElem?_cons_succ] at this
                  exact this) he
                rw [List.length_cons, List.length_cons]; omega
              · cases h

theorem conv_zero (rest : List Nat) : conv 1 (0 :: rest) = some [0] := by
  rw [conv.eq_def, if_neg (by decide)]
  dsimp only
  rw [if_pos (by decide), conv.eq_def, if_pos rfl]
  rfl

theorem osPath_bytes {p d : List Nat} (hp : ∀ c ∈ p, c ≠ 0) (h : toUtf16 p = some d) (rest stale : List Nat) :
    osPath (p ++ 0 :: rest) stale = some (d.takeWhile (· ≠ 0)) := by
  have hl := (toUtf16_len p.length p d (Nat.le_refl _) h).1
  unfold osPath toPath spanSize
  rw [cstr_append hp]
  show (Option.bind (Option.bind (conv (p.length + 1) (p ++ 0 :: rest)) _) _) = _
  rw [conv_append p.length p d (Nat.le_refl _) h, conv_zero]
  show Option.bind (if (d ++ [0]).length ≤ p.length + 1 then some ((d ++ [0]) ++ _) else none) cstr = _
  rw [if_pos (by rw [List.length_append, List.length_singleton]; omega)]
  show cstr _ = _
  rw [List.append_assoc]
  exact cstr_takeWhile d _

end CE.Path
