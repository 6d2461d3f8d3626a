import Verif.Proof.Heap
/-!
# C25: min_priority_queue
-/
namespace CE.Heap

variable {α : Type}

/-- C25.  Any history of `enqueue` and `dequeue` from an empty queue, in which `dequeue` is only
called on a non-empty queue, runs without leaving `data[0 .. N)`, and its results are allowed by
the multiset specification: `enqueue` fails exactly when full, `dequeue` gives a minimal element. -/
theorem C25_history_refines (lt : α → α → Bool) (h : StrictWeak lt) (N : Nat) (hN : N < 2 ^ 64)
    (data : Nat → α) (ops : List (Op α)) (hops : (depth N 0 ops).isSome) :
    ∃ rs q, run lt N ⟨0, data⟩ ops = some (rs, q) ∧ SpecRun lt N 0 ops rs (content q) := by
  have key : ∀ (ops : List (Op α)) (q : Pq α), Inv lt N q → (depth N q.size ops).isSome →
      ∃ rs q', run lt N q ops = some (rs, q') ∧ SpecRun lt N (content q) ops rs (content q') := by
    intro ops
    induction ops with
    | nil => intro q _ _; exact ⟨[], q, rfl, .nil _⟩
    | cons op ops ih =>
      intro q inv hd
      cases op with
      | enqueue x =>
        by_cases hs : q.size < N
        · obtain ⟨q', e1, e2, e3, e4⟩ := enqueue_eq lt h N q inv x hs
          obtain ⟨rs, q'', f1, f2⟩ := ih q' e2 (by simpa [depth, hs, e4] using hd)
          refine ⟨.enqueued true :: rs, q'', by simp [run, step, e1, f1], ?_⟩
          refine .cons (M' := content q') ?_ f2
          rw [e3]
          exact .enqueue _ _ (by rw [card_content]; exact hs)
        · have := inv.size
          obtain ⟨rs, q'', f1, f2⟩ := ih q inv (by simpa [depth, hs] using hd)
          refine ⟨.enqueued false :: rs, q'', by simp [run, step, enqueue, hs, f1], ?_⟩
          exact .cons (.full _ _ (by rw [card_content]; omega)) f2
      | dequeue =>
        have hs : 0 < q.size := by
          by_contra hc
          have : q.size = 0 := by omega
          simp [depth, this] at hd
        obtain ⟨x, q', e1, e2, e3, e4, e5⟩ := dequeue_eq lt h N hN q inv hs
        obtain ⟨rs, q'', f1, f2⟩ := ih q' e2 (by rw [← e5] at hd; simpa [depth] using hd)
        refine ⟨.dequeued x :: rs, q'', by simp [run, step, e1, f1], ?_⟩
        refine .cons (M' := content q') ?_ f2
        rw [e3]
        refine .dequeue _ _ (fun y hy => ?_)
        have hy' : y ∈ content q := by rw [e3]; exact Multiset.mem_cons_of_mem hy
        unfold content at hy'
        rw [Multiset.mem_coe, mem_slice] at hy'
        obtain ⟨i, _, hi, rfl⟩ := hy'
        rw [e4]
        exact heap_min lt h q.size q.data inv.heap i hi
  obtain ⟨rs, q, h1, h2⟩ := key ops ⟨0, data⟩ ⟨by simp, fun i _ hi => by simp at hi⟩ hops
  refine ⟨rs, q, h1, ?_⟩
  have : content (⟨0, data⟩ : Pq α) = 0 := by simp [content, slice]
  rwa [this] at h2

example : (depth 2 0 [.enqueue 3, .enqueue 1, .enqueue 2, .dequeue, .dequeue] : Option Nat).isSome := by
  decide
example : (run (fun x y : Nat => decide (x < y)) 4 ⟨0, fun _ => 0⟩
    [.enqueue 3, .enqueue 1, .enqueue 2, .dequeue, .dequeue, .dequeue]).map
      (fun r => r.1.map fun | .enqueued _ => 0 | .dequeued x => x) =
    some [0, 0, 0, 1, 2, 3] := by decide +kernel

/-- C25.  After any such history `head()` shows a minimal element of the content, and `empty()` is
right. -/
theorem C25_head_is_minimal (lt : α → α → Bool) (h : StrictWeak lt) (N : Nat) (hN : N < 2 ^ 64)
    (data : Nat → α) (ops : List (Op α)) (hops : (depth N 0 ops).isSome) :
    ∃ rs q M, run lt N ⟨0, data⟩ ops = some (rs, q) ∧ SpecRun lt N 0 ops rs M ∧
      (empty q = true ↔ M = 0) ∧
      (M ≠ 0 → ∃ x, head N q = some x ∧ x ∈ M ∧ ∀ y ∈ M, lt y x = false) := by
  -- a further `dequeue` returns the head
  obtain ⟨rs, q, h1, h2⟩ := C25_history_refines lt h N hN data ops hops
  have hinv : ∀ (ops : List (Op α)) (q q' : Pq α) rs, Inv lt N q → (depth N q.size ops).isSome →
      run lt N q ops = some (rs, q') → Inv lt N q' := by
    intro ops
    induction ops with
    | nil =>
      intro q q' rs inv _ hr
      simp only [run, Option.some.injEq, Prod.mk.injEq] at hr
      rw [← hr.2]; exact inv
    | cons op ops ih =>
      intro q q' rs inv hd hr
      cases op with
      | enqueue x =>
        by_cases hs : q.size < N
        · obtain ⟨q1, e1, e2, e3, e4⟩ := enqueue_eq lt h N q inv x hs
          cases hrun : run lt N q1 ops with
          | none => simp [run, step, e1, hrun] at hr
          | some r =>
            simp [run, step, e1, hrun] at hr
            exact ih q1 q' r.1 e2 (by simpa [depth, hs, e4] using hd) (by rw [hrun, ← hr.2])
        · cases hrun : run lt N q ops with
          | none => simp [run, step, enqueue, hs, hrun] at hr
          | some r =>
            simp [run, step, enqueue, hs, hrun] at hr
            exact ih q q' r.1 inv (by simpa [depth, hs] using hd) (by rw [hrun, ← hr.2])
      | dequeue =>
        have hs : 0 < q.size := by
          by_contra hc
          have : q.size = 0 := by omega
          simp [depth, this] at hd
        obtain ⟨x, q1, e1, e2, e3, e4, e5⟩ := dequeue_eq lt h N hN q inv hs
        cases hrun : run lt N q1 ops with
        | none => simp [run, step, e1, hrun] at hr
        | some r =>
          simp [run, step, e1, hrun] at hr
          exact ih q1 q' r.1 e2 (by rw [← e5] at hd; simpa [depth] using hd) (by rw [hrun, ← hr.2])
  have inv := hinv ops ⟨0, data⟩ q rs ⟨by simp, fun i _ hi => by simp at hi⟩ hops h1
  refine ⟨rs, q, content q, h1, h2, ?_, ?_⟩
  · rw [← Multiset.card_eq_zero, card_content]; simp [empty]
  · intro hne
    have hs : 0 < q.size := by
      rw [← card_content]
      exact Multiset.card_pos.mpr hne
    have := inv.size
    refine ⟨q.data 0, ?_, ?_, ?_⟩
    · unfold head; rw [Obj.rd_eq _ _ _ ⟨Nat.le_refl _, by simp; omega⟩]
    · unfold content; rw [Multiset.mem_coe, mem_slice]; exact ⟨0, Nat.le_refl _, hs, rfl⟩
    · intro y hy
      unfold content at hy
      rw [Multiset.mem_coe, mem_slice] at hy
      obtain ⟨i, _, hi, rfl⟩ := hy
      exact heap_min lt h q.size q.data inv.heap i hi

/-- C25.  The condition on `dequeue` is needed: on an empty queue the size wraps round and the last
element is read far outside the array. -/
theorem C25_dequeue_empty_undefined (lt : α → α → Bool) (N : Nat) (hN : N < 2 ^ 64 - 1)
    (data : Nat → α) : dequeue lt N ⟨0, data⟩ = none := by
  unfold dequeue
  have : (Obj.mk 0 N).rd data (2 ^ 64 - 1) = none := by
    unfold Obj.rd; rw [if_neg]; simp; omega
  cases (Obj.mk 0 N).rd data 0 with
  | none => rfl
  | some x =>
    simp only [Nat.zero_add, Nat.mod_eq_of_lt (show 2 ^ 64 - 1 < 2 ^ 64 by omega),
      Option.bind_eq_bind, Option.bind_some, this]
    rw [if_pos (by omega)]; rfl

/-- emptying a queue -/
theorem drain (lt : α → α → Bool) (N : Nat) : ∀ (k : Nat) (M M' : Multiset α) rs, Multiset.card M = k →
    SpecRun lt N M (List.replicate k .dequeue) rs M' →
    ∃ xs : List α, rs = xs.map .dequeued ∧ (xs : Multiset α) = M ∧ xs.Pairwise (fun x y => lt y x = false) := by
  intro k
  induction k with
  | zero =>
    intro M M' rs hc h
    rw [Multiset.card_eq_zero] at hc
    cases h
    exact ⟨[], rfl, hc.symm, List.Pairwise.nil⟩
  | succ k ih =>
    intro M M' rs hc h
    rw [List.replicate_succ] at h
    cases h with
    | cons h1 h2 =>
      cases h1 with
      | dequeue _ x hmin =>
        obtain ⟨xs, rfl, hm, hp⟩ := ih _ M' _ (by simpa using hc) h2
        refine ⟨x :: xs, rfl, by rw [← hm]; rfl, List.Pairwise.cons (fun y hy => hmin y ?_) hp⟩
        rw [← hm]; exact hy

/-- filling a queue -/
theorem fill_up (lt : α → α → Bool) (N : Nat) (ops : List (Op α)) : ∀ (l a : List α) (M' : Multiset α) rs,
    a.length + l.length ≤ N → SpecRun lt N a (l.map .enqueue ++ ops) rs M' →
    ∃ rs', rs = l.map (fun _ => .enqueued true) ++ rs' ∧ SpecRun lt N (l.reverse ++ a : List α) ops rs' M' := by
  intro l
  induction l with
  | nil => intro a M' rs _ h; exact ⟨rs, rfl, by simpa using h⟩
  | cons x l ih =>
    intro a M' rs hc h
    rw [List.map_cons, List.cons_append] at h
    rw [List.length_cons] at hc
    generalize hM : (a : Multiset α) = M at h
    cases h with
    | cons h1 h2 =>
      cases h1 with
      | enqueue _ _ hl =>
        subst hM
        obtain ⟨rs', rfl, h3⟩ := ih (x :: a) _ _ (by rw [List.length_cons]; omega) h2
        exact ⟨rs', rfl, by simpa using h3⟩
      | full _ _ hf => rw [← hM, Multiset.coe_card] at hf; omega

/-- C25.  Filling the queue and emptying it sorts. -/
theorem C25_sorts (lt : α → α → Bool) (h : StrictWeak lt) (N : Nat) (hN : N < 2 ^ 64) (data : Nat → α) (l : List α)
    (hl : l.length ≤ N) : ∃ (xs : List α) (q : Pq α),
      run lt N ⟨0, data⟩ (l.map .enqueue ++ List.replicate l.length .dequeue) =
        some (l.map (fun _ => .enqueued true) ++ xs.map .dequeued, q) ∧
      xs.Perm l ∧ xs.Pairwise (fun x y => lt y x = false) := by
  have hd : ∀ (l : List α) n, n + l.length ≤ N →
      (depth N n (l.map .enqueue ++ List.replicate (n + l.length) .dequeue)).isSome := by
    intro l
    induction l with
    | nil =>
      intro n _
      induction n with
      | zero => rfl
      | succ n ih => exact ih (by simp at *; omega)
    | cons x l ih =>
      intro n hn
      rw [List.length_cons] at hn ⊢
      have := ih (n + 1) (by omega)
      rw [show n + 1 + l.length = n + (l.length + 1) by omega] at this
      simpa [depth, show n < N by omega] using this
  obtain ⟨rs, q, h1, h2⟩ := C25_history_refines lt h N hN data (l.map .enqueue ++ List.replicate l.length .dequeue)
    (by simpa using hd l 0 (by omega))
  obtain ⟨rs', rfl, h3⟩ := fill_up lt N _ l [] _ rs (by simpa using hl) h2
  obtain ⟨xs, rfl, hm, hp⟩ := drain lt N l.length _ _ _ (by simp) h3
  rw [Multiset.coe_eq_coe, List.append_nil] at hm
  exact ⟨xs, q, h1, hm.trans (List.reverse_perm l), hp⟩

example : StrictWeak (fun x y : Nat => decide (x < y)) ∧ [5, 3, 8, 3].length ≤ 4 :=
  ⟨⟨by simp, by intro a b c; simp; omega, by intro a b c; simp; omega⟩, by decide⟩

end CE.Heap
