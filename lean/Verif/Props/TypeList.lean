import Verif.Model.TypeList
import Mathlib.Data.Nat.Log
/-!
# sequence_t (C68), type lists (C69) and spans (C70)
-/
namespace CE.TypeList

/-- doubling a range -/
theorem range_double (a : Nat) : List.range a ++ (List.range a).map (a + ·) = List.range (a + a) :=
  (List.range_add (n := a) (m := a)).symm

theorem sequenceAux_eq (n : Nat) : ∀ b a i, b < 2 →
    ∃ d, sequenceAux n b (List.range a) (List.range i) = some (List.range (i + a * (2 * n + b)), d) ∧
      d = if n = 0 then 1 else Nat.log 2 n + 2 := by
  induction n using Nat.strongRecOn with
  | _ n ih =>
    intro b a i hb
    by_cases hn : n = 0
    · subst hn
      rw [if_pos rfl]
      refine ⟨1, ?_, rfl⟩
      unfold sequenceAux
      by_cases h0 : b = 0
      · rw [if_pos h0, dif_pos rfl, h0]; simp
      · have h1 : b = 1 := by omega
        rw [if_neg h0, if_pos h1, dif_pos rfl, h1, List.length_range]
        have := (List.range_add (n := i) (m := a)).symm
        rw [this]; simp
    · rw [if_neg hn]
      have key : ∀ i, ∃ d, sequenceAux (n / 2) (n % 2) (List.range (a + a)) (List.range i) =
          some (List.range (i + (a + a) * n), d) ∧ d + 1 = Nat.log 2 n + 2 := by
        intro i
        obtain ⟨d, h1, h2⟩ := ih (n / 2) (by omega) (n % 2) (a + a) i (by omega)
        rw [show 2 * (n / 2) + n % 2 = n by omega] at h1
        refine ⟨d, h1, ?_⟩
        by_cases h : n / 2 = 0
        · rw [if_pos h] at h2
          have : n = 1 := by omega
          subst this
          rw [h2]; simp
        · rw [if_neg h] at h2
          have := Nat.log_of_one_lt_of_le (b := 2) (n := n) (by omega) (by omega)
          omega
      unfold sequenceAux
      by_cases h0 : b = 0
      · rw [if_pos h0, dif_neg hn, List.length_range, range_double]
        obtain ⟨d, h1, h2⟩ := key i
        refine ⟨d + 1, ?_, h2⟩
        rw [h1, h0]
        simp only [Option.map_some]
        rw [show (a + a) * n = a * (2 * n + 0) by rw [Nat.add_zero, Nat.add_mul, ← Nat.two_mul, Nat.mul_left_comm]]
      · have hb1 : b = 1 := by omega
        rw [if_neg h0, if_pos hb1, dif_neg hn, List.length_range, List.length_range, range_double,
          ← List.range_add (n := i) (m := a)]
        obtain ⟨d, h1, h2⟩ := key (i + a)
        refine ⟨d + 1, ?_, h2⟩
        rw [h1, hb1]
        simp only [Option.map_some]
        rw [show i + a + (a + a) * n = i + a * (2 * n + 1) by
          rw [Nat.mul_add, Nat.mul_one, Nat.add_mul, ← Nat.two_mul, Nat.mul_left_comm]; omega]

/-- `sequence_t<T, N>` lists 0, 1, ..., N-1. -/
theorem C68_numbers (n : Nat) : ∃ d, sequence n = some (List.range n, d) := by
  obtain ⟨d, h, -⟩ := sequenceAux_eq (n / 2) (n % 2) 1 0 (by omega)
  refine ⟨d, ?_⟩
  unfold sequence
  rw [show (2 * (n / 2) + n % 2) = n by omega] at h
  simpa using h

/-- It instantiates one template for N below 2 and `log2 N + 1` otherwise. -/
theorem C68_depth (n : Nat) : ∃ l, sequence n = some (l, if n < 2 then 1 else Nat.log 2 n + 1) := by
  obtain ⟨d, h, hd⟩ := sequenceAux_eq (n / 2) (n % 2) 1 0 (by omega)
  refine ⟨List.range (0 + 1 * (2 * (n / 2) + n % 2)), ?_⟩
  unfold sequence
  have e : (if n < 2 then 1 else Nat.log 2 n + 1) = d := by
    rw [hd]
    by_cases hn : n < 2
    · rw [if_pos hn, if_pos (by omega)]
    · rw [if_neg hn, if_neg (by omega), Nat.log_of_one_lt_of_le (b := 2) (n := n) (by omega) (by omega)]
  rw [e]
  exact h

variable {α : Type} [DecidableEq α]

/-- `select_t<N, Ts...>` is the N-th type, and ill-formed exactly if there is none. -/
theorem C69_select (n : Nat) (ts : List α) : select n ts = ts[n]? := by
  induction ts generalizing n with
  | nil => cases n <;> rfl
  | cons t ts ih =>
    cases n with
    | zero => rfl
    | succ n => rw [select, ih, List.getElem?_cons_succ]

/-- `cond_t<E, T, U>` is `T` or `U`; `enable_t<E, T>` is `T` or ill-formed. -/
theorem C69_cond (e : Bool) (t u : α) (ts : List α) :
    cond e (t :: u :: ts) = some (if e then t else u) ∧ enable e t = if e then some t else none := by
  cases e <;> exact ⟨rfl, rfl⟩

/-- `are_same_v<Ts...>`: there is a type and all are that type. -/
theorem C69_same (ts : List α) : areSame ts = true ↔ ∃ t, ts ≠ [] ∧ ∀ u ∈ ts, u = t := by
  cases ts with
  | nil => simp [areSame]
  | cons t ts =>
    have key : areSame (t :: ts) = true ↔ ∀ u ∈ ts, u = t := by
      induction ts with
      | nil => simp [areSame]
      | cons u us ih =>
        rw [areSame]
        by_cases h : t = u
        · rw [if_pos h, ih]; simp [h]
        · rw [if_neg h]
          constructor
          · intro hf; cases hf
          · intro hf; exact absurd (hf u (List.mem_cons_self ..)).symm h
    rw [key]
    constructor
    · intro h
      refine ⟨t, by simp, fun u hu => ?_⟩
      rcases List.mem_cons.1 hu with rfl | hu
      · rfl
      · exact h u hu
    · rintro ⟨x, -, hx⟩ u hu
      rw [hx u (List.mem_cons_of_mem _ hu), hx t (List.mem_cons_self ..)]

/-- `has_v<T, Us...>`: `T` is one of `Us`. -/
theorem C69_has (t : α) (us : List α) : has t us = true ↔ t ∈ us := by
  induction us with
  | nil => simp [has]
  | cons u us ih =>
    rw [has]
    by_cases h : t = u
    · simp [h]
    · rw [if_neg h, ih]; simp [h]

/-- `count_leading_t` is the length of the longest prefix of copies of `I`. -/
theorem C69_leading (i : α) (is : List α) :
    countLeading i is ≤ is.length ∧ (∀ j ∈ is.take (countLeading i is), j = i) ∧
      ∀ j, is[countLeading i is]? = some j → j ≠ i := by
  induction is with
  | nil => simp [countLeading]
  | cons j js ih =>
    rw [countLeading]
    by_cases h : i = j
    · rw [if_pos h, Nat.add_comm 1]
      refine ⟨by rw [List.length_cons]; omega, fun k hk => ?_, fun k hk => ?_⟩
      · rw [List.take_succ_cons] at hk
        rcases List.mem_cons.1 hk with rfl | hk
        · exact h.symm
        · exact ih.2.1 k hk
      · rw [List.getElem?_cons_succ] at hk
        exact ih.2.2 k hk
    · rw [if_neg h]
      refine ⟨by omega, fun k hk => ?_, fun k hk => ?_⟩
      · rw [List.take_zero] at hk; cases hk
      · rw [List.getElem?_cons_zero] at hk
        cases hk
        exact fun hh => h hh.symm

/-- The elements of `skip(s, n)` are those of `s` without the first `n`, or none. -/
theorem C70_skip (mem : Nat → α) (s : Span) (n : Nat) : (skip s n).elems mem = (s.elems mem).drop n := by
  unfold skip Span.elems
  split
  · next h =>
    rw [← List.map_drop]
    apply List.ext_getElem?
    intro i
    simp only [List.getElem?_map, List.getElem?_drop, List.getElem?_range']
    by_cases hi : i < s.size - n
    · rw [List.getElem?_range hi, List.getElem?_range (by omega)]
      simp [Nat.add_assoc]
    · rw [List.getElem?_eq_none (by simpa using by omega), List.getElem?_eq_none (by simp; omega)]
      rfl
  · next h => simp [List.drop_eq_nil_of_le, Nat.le_of_not_lt h]

/-- The elements of `trim(s, n)` are those of `s` without the last `n`, or none. -/
theorem C70_trim (mem : Nat → α) (s : Span) (n : Nat) : (trim s n).elems mem = (s.elems mem).take (s.size - n) := by
  unfold trim Span.elems
  split
  · rw [← List.map_take, List.take_range, Nat.min_eq_left (by omega)]
  · next h => simp [Nat.sub_eq_zero_of_le (Nat.le_of_not_lt h)]

/-- Both stay inside the span, also for sizes whose sum would not fit a `size_t`. -/
theorem C70_inside (s : Span) (n : Nat) :
    (s.data ≤ (skip s n).data ∧ (skip s n).data + (skip s n).size ≤ s.data + s.size) ∧
    (s.data ≤ (trim s n).data ∧ (trim s n).data + (trim s n).size ≤ s.data + s.size) := by
  unfold skip trim
  split <;> (dsimp only; omega)

/-- Skipping and trimming compose. -/
theorem C70_compose (s : Span) (a b : Nat) (mem : Nat → α) :
    (skip (skip s a) b).elems mem = (skip s (a + b)).elems mem ∧
    (trim (skip s a) b).elems mem = (skip (trim s b) a).elems mem := by
  refine ⟨by rw [C70_skip, C70_skip, C70_skip, List.drop_drop], ?_⟩
  unfold skip trim Span.elems
  by_cases h1 : a < s.size <;> by_cases h2 : b < s.size <;> simp only [h1, h2, if_true, if_false]
  · by_cases h3 : b < s.size - a
    · rw [if_pos h3, if_pos (by omega)]
      dsimp only
      rw [Nat.sub_right_comm]
    · rw [if_neg h3, if_neg (by omega)]; rfl
  · rw [if_neg (by omega), if_neg (by omega)]; rfl
  · rw [if_neg (by omega), if_neg (by omega)]
  · rw [if_neg (by omega), if_neg (by omega)]

example : sequence 6 = some ([0, 1, 2, 3, 4, 5], 3) := by decide +kernel
example : areSame ["int", "int"] = true ∧ has "char" ["int", "char"] = true ∧ countLeading true [true, true, false, true] = 2 := by
  decide +kernel
example : (skip ⟨5, 100⟩ 2).elems (fun i => i) = [102, 103, 104] := by decide +kernel

end CE.TypeList
