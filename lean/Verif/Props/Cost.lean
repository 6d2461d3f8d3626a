import Verif.Proof.Cost
/-!
# C99: how often the algorithms compare

`CE.Cost.f` is `CE.Sorting.f` or `CE.Heap.f` with a count of the calls of `operator<`; that it is the same program is part of
every statement.
-/
namespace CE.Cost

variable {α : Type}

/-- C99.  `lower_bound` and `upper_bound` in a range of `n` elements compare at most `⌊log₂ n⌋ + 1` times, and not at all in
an empty range; this holds for any content and any `operator<`. -/
theorem C99_searches (lt : α → α → Bool) (o : Obj) (a b : Nat) (k : α) (m : Nat → α) :
    (lowerBound lt o a b k m).map Prod.fst = Sorting.lowerBound lt o a b k m ∧
    (upperBound lt o a b k m).map Prod.fst = Sorting.upperBound lt o a b k m ∧
    ∀ r, lowerBound lt o a b k m = some r ∨ upperBound lt o a b k m = some r →
      r.2 ≤ Nat.log2 (b - a) + 1 ∧ (b ≤ a → r.2 = 0) := by
  refine ⟨lowerLoop_fst .., upperLoop_fst .., fun r h => ?_⟩
  have : r.2 ≤ digits (b - a) := h.elim (lowerLoop_cost lt o k m a _) (upperLoop_cost lt o k m a _)
  unfold digits at this
  split at this
  · exact ⟨by omega, fun _ => by omega⟩
  · exact ⟨this, fun _ => by omega⟩

example : lowerBound (fun x y : Nat => decide (x < y)) ⟨0, 7⟩ 0 7 9 (fun i => i) = some (7, 3) := by decide +kernel

/-- C99.  `insertion_sort` of `n` elements compares at most `n (n - 1) / 2` times, and exactly `n - 1` times if they are
sorted already. -/
theorem C99_insertion_sort (lt : α → α → Bool) (o : Obj) (a b : Nat) (m : Nat → α) :
    (insertionSort lt o a b m).map Prod.fst = Sorting.insertionSort lt o a b m ∧
    (∀ r, insertionSort lt o a b m = some r → 2 * r.2 ≤ (b - a) * (b - a - 1)) ∧
    (a ≤ b → o.lo ≤ a → b ≤ o.hi → Sorted lt (slice m a b) → insertionSort lt o a b m = some (m, b - a - 1)) := by
  refine ⟨insertionSort_fst .., fun r h => insertionSort_cost lt o a b m h, fun hab hlo hhi hs => ?_⟩
  have := insertionLoop_sorted lt o a b (b - a) a m hs (Nat.le_refl _) (by omega) hlo hhi
  rwa [if_pos rfl] at this

example : Sorted (fun x y : Nat => decide (x < y)) (slice (fun i => i) 0 5) ∧
    (insertionSort (fun x y : Nat => decide (x < y)) ⟨0, 5⟩ 0 5 (fun i => i)).map Prod.snd = some 4 := by
  constructor
  · unfold Sorted slice; decide +kernel
  · decide +kernel
example : (insertionSort (fun x y : Nat => decide (x < y)) ⟨0, 5⟩ 0 5 (fun i => 5 - i)).map Prod.snd = some 10 := by
  decide +kernel

/-- C99.  `intro_sort<N>` of `n` elements compares at most `n (n + 5) / 2` times. -/
theorem C99_intro_sort (lt : α → α → Bool) (o : Obj) (N : Nat) (hN : 1 ≤ N) (depth a b : Nat) (m : Nat → α) :
    (introSort lt o N depth a b m).map Prod.fst = Sorting.introSort lt o N depth a b m ∧
    ∀ r, introSort lt o N depth a b m = some r → 2 * r.2 ≤ (b - a) * (b - a + 5) :=
  ⟨introSort_fst .., fun _ h => introSort_cost lt o N hN depth a b m h⟩

example : (introSort (fun x y : Nat => decide (x < y)) ⟨0, 6⟩ 2 5 0 6 (fun i => [3, 1, 4, 1, 5, 9].getD i 0)).map Prod.snd =
    some 17 := by decide +kernel

/-- C99.  What one expects of an introspective sort, a number of comparisons proportional to `n log n`, does not hold for any
cutoff: for every factor `K` there is a length for which sorting equal elements compares more often than `K n (log₂ n + 1)`. -/
theorem C99_nlogn_false (lt : α → α → Bool) (h : StrictWeak lt) (x : α) (N : Nat) (hN : 1 ≤ N) (K : Nat) :
    ∃ n depth r, introSort lt ⟨0, n⟩ N depth 0 n (fun _ => x) = some r ∧ K * n * (Nat.log2 n + 1) < r.2 := by
  obtain ⟨n, h0, hn⟩ := outgrows K (N * (N - 1))
  obtain ⟨m', e, _⟩ := Sorting.introSort_eq lt ⟨0, n⟩ h N hN (n + 1) 0 n (fun _ => x) (Nat.le_refl _) (Nat.le_refl _)
    (Nat.zero_le _) ⟨by omega, by omega⟩
  have hf := introSort_fst lt ⟨0, n⟩ N (n + 1) 0 n (fun _ => x)
  rw [e] at hf
  cases hr : introSort lt ⟨0, n⟩ N (n + 1) 0 n (fun _ => x) with
  | none => rw [hr] at hf; cases hf
  | some r =>
    refine ⟨n, n + 1, r, hr, ?_⟩
    have := introSort_const_cost lt ⟨0, n⟩ N hN (n + 1) 0 n x (h.irrefl x) (Nat.zero_le _) (Nat.le_refl _) (Nat.le_refl _) hr
    rw [Nat.sub_zero] at this
    generalize K * n * (Nat.log2 n + 1) = u at hn
    generalize n * (n - 1) = v at hn this
    omega

/-- C99.  `enqueue` into a queue of `n` elements compares at most `⌊log₂ (n + 1)⌋` times, `dequeue` from it at most
`2 ⌊log₂ (n - 1)⌋` times (at most never, for `n ≤ 2`). -/
theorem C99_priority_queue (lt : α → α → Bool) (N : Nat) (q : Heap.Pq α) (hq : q.size < 2 ^ 64) :
    (∀ x, (enqueue lt N x q).map Prod.fst = Heap.enqueue lt N x q ∧
      ∀ r, enqueue lt N x q = some r → r.2 ≤ Nat.log2 (q.size + 1)) ∧
    (dequeue lt N q).map Prod.fst = Heap.dequeue lt N q ∧
    (0 < q.size → ∀ r, dequeue lt N q = some r → r.2 ≤ 2 * Nat.log2 (q.size - 1)) :=
  ⟨fun x => ⟨enqueue_fst lt N x q, fun _ h => enqueue_cost lt N x q h⟩, dequeue_fst lt N q,
    fun h0 _ h => dequeue_cost lt N q h0 hq h⟩

example : (enqueue (fun x y : Nat => decide (x < y)) 8 0 ⟨7, fun i => i + 1⟩).map Prod.snd = some 3 ∧
    (dequeue (fun x y : Nat => decide (x < y)) 8 ⟨8, fun i => i + 1⟩).map Prod.snd = some 4 := by decide +kernel
-- an element that does not sink to the bottom
example : (dequeue (fun x y : Nat => decide (x < y)) 8 ⟨8, fun i => [1, 2, 9, 8, 8, 10, 10, 3].getD i 0⟩).map Prod.snd = some 4 ∧
    (dequeue (fun x y : Nat => decide (x < y)) 8 ⟨6, fun i => [1, 3, 2, 4, 5, 2].getD i 0⟩).map Prod.snd = some 2 ∧
    (dequeue (fun x y : Nat => decide (x < y)) 8 ⟨7, fun i => [1, 5, 5, 6, 6, 6, 4].getD i 0⟩).map Prod.snd = some 2 ∧
    (dequeue (fun x y : Nat => decide (x < y)) 8 ⟨2, fun i => i + 1⟩).map Prod.snd = some 0 := by decide +kernel

end CE.Cost
