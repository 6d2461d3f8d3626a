import Verif.Proof.AnyOrder
import Verif.Props.Sort
import Verif.Props.Heap
/-!
# C134: sorting, searching and queues with a comparison that is no order

C21 to C25 are about strict weak orders.  `operator<` of `double` is none, because of NaN.
-/
namespace CE.AnyOrder

open CE.Sorting CE.Heap

variable {α : Type}

/-- C134.  Whatever `operator<` answers, `insertion_sort(a, b)` ends, accesses nothing but `[a, b)` and
leaves there what was there, in some order. -/
theorem C134_insertion_sort (lt : α → α → Bool) (a b : Nat) (hab : a ≤ b) (m : Nat → α) :
    ∃ m', insertionSort lt ⟨a, b⟩ a b m = some m' ∧ (slice m' a b).Perm (slice m a b) ∧
      SameOutside a b m m' := by
  obtain ⟨m', h1, h2⟩ := insertionSort_any lt ⟨a, b⟩ a b m hab (Nat.le_refl _) (Nat.le_refl _)
  exact ⟨m', h1, h2.1, h2.2⟩

/-- C134.  The same for `intro_sort<N>(a, b)` with `N ≥ 1`, with the depth of C22. -/
theorem C134_intro_sort (lt : α → α → Bool) (N : Nat) (hN : 1 ≤ N) (a b : Nat) (hab : a ≤ b) (m : Nat → α)
    (depth : Nat) (hd : b - a < depth + N) (hd0 : 0 < depth) :
    ∃ m', introSort lt ⟨a, b⟩ N depth a b m = some m' ∧ (slice m' a b).Perm (slice m a b) ∧
      SameOutside a b m m' := by
  obtain ⟨m', h1, h2⟩ := introSort_any lt ⟨a, b⟩ N hN depth a b m (Nat.le_refl _) (Nat.le_refl _) hab
    ⟨hd, hd0⟩
  exact ⟨m', h1, h2.1, h2.2⟩

/-- C134.  Whatever `operator<` answers and whatever the order of the elements, `lower_bound` and
`upper_bound` stay inside `[a, b)` and return a position in `[a, b]`. -/
theorem C134_searches (lt : α → α → Bool) (a b : Nat) (hab : a ≤ b) (k : α) (m : Nat → α) :
    (∃ r, lowerBound lt ⟨a, b⟩ a b k m = some r ∧ a ≤ r ∧ r ≤ b) ∧
    (∃ r, upperBound lt ⟨a, b⟩ a b k m = some r ∧ a ≤ r ∧ r ≤ b) := by
  refine ⟨C24_lower_bound_in_bounds lt a b hab k m, ?_⟩
  unfold upperBound
  rw [upperLoop_eq]
  exact C24_lower_bound_in_bounds (fun x y => !lt y x) a b hab k m

/-- C134.  Whatever `operator<` answers, a history of `enqueue` and `dequeue` (never on an empty queue)
stays inside the array, `enqueue` fails exactly when the queue is full, and what is dequeued was enqueued
and is not dequeued again. -/
theorem C134_queue (lt : α → α → Bool) (N : Nat) (hN : N < 2 ^ 64) (data : Nat → α) (ops : List (Op α))
    (hops : (depth N 0 ops).isSome) :
    ∃ rs q, run lt N ⟨0, data⟩ ops = some (rs, q) ∧ BagRun N 0 ops rs (content q) := by
  have key : ∀ (ops : List (Op α)) (q : Pq α), q.size ≤ N → (depth N q.size ops).isSome →
      ∃ rs q', run lt N q ops = some (rs, q') ∧ BagRun N (content q) ops rs (content q') := by
    intro ops
    induction ops with
    | nil => intro q _ _; exact ⟨[], q, rfl, .nil _⟩
    | cons op ops ih =>
      intro q inv hd
      cases op with
      | enqueue x =>
        by_cases hs : q.size < N
        · obtain ⟨q', e1, e3, e4⟩ := enqueue_any lt N q x hs
          obtain ⟨rs, q'', f1, f2⟩ := ih q' (by omega) (by simpa [depth, hs, e4] using hd)
          refine ⟨.enqueued true :: rs, q'', by simp [run, step, e1, f1], ?_⟩
          refine .cons (M' := content q') ?_ f2
          rw [e3]
          exact .enqueue _ _ (by rw [card_content]; exact hs)
        · obtain ⟨rs, q'', f1, f2⟩ := ih q inv (by simpa [depth, hs] using hd)
          refine ⟨.enqueued false :: rs, q'', by simp [run, step, enqueue, hs, f1], ?_⟩
          exact .cons (.full _ _ (by rw [card_content]; omega)) f2
      | dequeue =>
        have hs : 0 < q.size := by
          by_contra hc
          have : q.size = 0 := by omega
          simp [depth, this] at hd
        obtain ⟨x, q', e1, e3, e5⟩ := dequeue_any lt N hN q inv hs
        obtain ⟨rs, q'', f1, f2⟩ := ih q' (by omega) (by rw [← e5] at hd; simpa [depth] using hd)
        refine ⟨.dequeued x :: rs, q'', by simp [run, step, e1, f1], ?_⟩
        refine .cons (M' := content q') ?_ f2
        rw [e3]
        exact .dequeue _ _
  obtain ⟨rs, q, h1, h2⟩ := key ops ⟨0, data⟩ (by simp) hops
  refine ⟨rs, q, h1, ?_⟩
  have : content (⟨0, data⟩ : Pq α) = 0 := by simp [content, slice]
  rwa [this] at h2

/-! ### a strict weak order among the values that occur -/

theorem sorted_in (S : α → Prop) (lt lt' : α → α → Bool) (hA : Agree S lt lt') (l : List α)
    (hl : ∀ x ∈ l, S x) (h : Sorted lt' l) : Sorted lt l := by
  unfold Sorted at *
  rw [List.pairwise_iff_getElem] at *
  intro i j hi hj hij
  rw [hA _ _ (hl _ (List.getElem_mem _)) (hl _ (List.getElem_mem _))]
  exact h i j hi hj hij

theorem slice_in (S : α → Prop) (a b : Nat) (m m' : Nat → α) (hm : Within S a b m)
    (hp : (slice m' a b).Perm (slice m a b)) : ∀ x ∈ slice m' a b, S x := by
  intro x hx
  rw [hp.mem_iff, mem_slice] at hx
  obtain ⟨i, h1, h2, rfl⟩ := hx
  exact hm i h1 h2

/-- C134.  It is enough for `insertion_sort` that `operator<` is a strict weak order among the values in
`[a, b)`: `double`s without a NaN are sorted, stably. -/
theorem C134_insertion_sort_on (S : α → Prop) (lt : α → α → Bool) (h : StrictWeakOn S lt) (a b : Nat)
    (hab : a ≤ b) (m : Nat → α) (hm : ∀ i, a ≤ i → i < b → S (m i)) :
    ∃ m', insertionSort lt ⟨a, b⟩ a b m = some m' ∧ Sorted lt (slice m' a b) ∧
      (slice m' a b).Perm (slice m a b) ∧
      (∀ z, S z → (slice m' a b).filter (equiv lt z) = (slice m a b).filter (equiv lt z)) ∧
      SameOutside a b m m' := by
  have hA : Agree S lt (extend S lt) := fun x y hx hy => (extend_in S lt x y hx hy).symm
  obtain ⟨m', h1, h2, h3, h4, h5⟩ := C21_insertion_sort _ (extend_weak S lt h) a b hab m
  have hs := slice_in S a b m m' hm h3
  refine ⟨m', ?_, sorted_in S lt _ hA _ hs h2, h3, ?_, h5⟩
  · rw [insertionSort_congr ⟨a, b⟩ hA a b hab (Nat.le_refl _) (Nat.le_refl _) m hm]; exact h1
  · intro z hz
    have e : ∀ l : List α, (∀ x ∈ l, S x) → l.filter (equiv lt z) = l.filter (equiv (extend S lt) z) := by
      intro l hl
      apply List.filter_congr
      intro x hx
      unfold equiv
      rw [hA z x hz (hl x hx), hA x z (hl x hx) hz]
    rw [e _ hs, e _ (slice_in S a b m m hm (List.Perm.refl _))]
    exact h4 z

/-- C134.  The same for `intro_sort`. -/
theorem C134_intro_sort_on (S : α → Prop) (lt : α → α → Bool) (h : StrictWeakOn S lt) (N : Nat) (hN : 1 ≤ N)
    (a b : Nat) (hab : a ≤ b) (m : Nat → α) (hm : ∀ i, a ≤ i → i < b → S (m i)) (depth : Nat)
    (hd : b - a < depth + N) (hd0 : 0 < depth) :
    ∃ m', introSort lt ⟨a, b⟩ N depth a b m = some m' ∧ Sorted lt (slice m' a b) ∧
      (slice m' a b).Perm (slice m a b) ∧ SameOutside a b m m' := by
  have hA : Agree S lt (extend S lt) := fun x y hx hy => (extend_in S lt x y hx hy).symm
  obtain ⟨m', h1, h2, h3, h4⟩ := C22_intro_sort _ (extend_weak S lt h) N hN a b hab m depth hd hd0
  refine ⟨m', ?_, sorted_in S lt _ hA _ (slice_in S a b m m' hm h3) h2, h3, h4⟩
  rw [introSort_congr ⟨a, b⟩ hA N hN depth a b m (Nat.le_refl _) (Nat.le_refl _) ⟨hd, hd0⟩ hm]
  exact h1

theorem searches_aux (lt : α → α → Bool) (a b : Nat) (hab : a ≤ b) (k : α) (m : Nat → α)
    (hmono : ∀ i j, a ≤ i → i ≤ j → j < b → lt (m j) k = true → lt (m i) k = true) (r : Nat)
    (hr : lowerLoop lt ⟨a, b⟩ k m a (b - a) = some r) :
    (∀ i, a ≤ i → i < r → lt (m i) k = true) ∧ (∀ i, r ≤ i → i < b → lt (m i) k = false) := by
  obtain ⟨r', h1, h2, h3, h4⟩ := lowerLoop_eq lt ⟨a, b⟩ k m a (b - a) (Nat.le_refl _) (by simp; omega)
  have : r' = r := by rw [h1] at hr; simpa using hr
  subst this
  obtain ⟨h5, h6⟩ := h4 (fun i j hi hij hj => hmono i j hi hij (by omega))
  exact ⟨h5, fun i h h' => h6 i h (by omega)⟩

/-- C134.  The same for the searches: if the values in `[a, b)` and the key are in `S` and the range is
sorted, `lower_bound` finds the first element that is not less than the key and `upper_bound` the first
that is greater. -/
theorem C134_searches_on (S : α → Prop) (lt : α → α → Bool) (h : StrictWeakOn S lt) (a b : Nat) (hab : a ≤ b)
    (k : α) (hk : S k) (m : Nat → α) (hm : ∀ i, a ≤ i → i < b → S (m i)) (hs : Sorted lt (slice m a b)) :
    (∀ r, lowerBound lt ⟨a, b⟩ a b k m = some r →
      (∀ i, a ≤ i → i < r → lt (m i) k = true) ∧ (∀ i, r ≤ i → i < b → lt (m i) k = false)) ∧
    (∀ r, upperBound lt ⟨a, b⟩ a b k m = some r →
      (∀ i, a ≤ i → i < r → lt k (m i) = false) ∧ (∀ i, r ≤ i → i < b → lt k (m i) = true)) := by
  constructor
  · intro r hr
    apply searches_aux lt a b hab k m _ r hr
    intro i j hi hij hj hjk
    rcases Nat.eq_or_lt_of_le hij with rfl | hij
    · exact hjk
    · rcases h.negtrans (m j) k (m i) (hm j (by omega) hj) hk (hm i hi (by omega)) hjk with h' | h'
      · rw [sorted_get lt m a b hs i j hi hij hj] at h'; cases h'
      · exact h'
  · intro r hr
    unfold upperBound at hr
    rw [upperLoop_eq] at hr
    have := searches_aux (fun x y => !lt y x) a b hab k m ?_ r hr
    · simpa using this
    · intro i j hi hij hj hjk
      simp only [Bool.not_eq_true'] at hjk ⊢
      rcases Nat.eq_or_lt_of_le hij with rfl | hij
      · exact hjk
      · by_contra hc
        rcases h.negtrans k (m i) (m j) hk (hm i hi (by omega)) (hm j (by omega) hj) (by simpa using hc)
          with h' | h'
        · rw [hjk] at h'; cases h'
        · rw [sorted_get lt m a b hs i j hi hij hj] at h'; cases h'

/-- C134.  The same for the queue: if `operator<` is a strict weak order among the values enqueued, every
`dequeue` gives a minimal one. -/
theorem C134_queue_on (S : α → Prop) (lt : α → α → Bool) (h : StrictWeakOn S lt) (N : Nat) (hN : N < 2 ^ 64)
    (data : Nat → α) (ops : List (Op α)) (hops : (depth N 0 ops).isSome) (hS : ∀ op ∈ ops, op.In S) :
    ∃ rs q, run lt N ⟨0, data⟩ ops = some (rs, q) ∧ SpecRun lt N 0 ops rs (content q) := by
  have hA : Agree S lt (extend S lt) := fun x y hx hy => (extend_in S lt x y hx hy).symm
  have within : ∀ q : Pq α, (∀ x ∈ content q, S x) → Within S 0 q.size q.data := by
    intro q hq i h1 h2
    apply hq
    unfold content
    rw [Multiset.mem_coe, mem_slice]
    exact ⟨i, h1, h2, rfl⟩
  have key : ∀ (ops : List (Op α)) (q : Pq α), q.size ≤ N → (depth N q.size ops).isSome →
      (∀ op ∈ ops, op.In S) → (∀ x ∈ content q, S x) → run lt N q ops = run (extend S lt) N q ops := by
    intro ops
    induction ops with
    | nil => intros; rfl
    | cons op ops ih =>
      intro q inv hd ho hq
      have h1 : (depth N q.size [op]).isSome := by
        cases op with
        | enqueue x => simp [depth]
        | dequeue =>
          cases hz : q.size with
          | zero => rw [hz] at hd; simp [depth] at hd
          | succ n => simp [depth]
      have e := step_congr hA N hN q op inv h1 (ho op (by simp)) (within q hq)
      simp only [run, e]
      cases op with
      | enqueue x =>
        by_cases hs : q.size < N
        · obtain ⟨q', e1, e3, e4⟩ := enqueue_any (extend S lt) N q x hs
          simp only [step, e1, Option.map_some, Option.bind_eq_bind, Option.bind_some]
          rw [ih q' (by omega) (by simpa [depth, hs, e4] using hd) (fun o h => ho o (by simp [h])) ?_]
          intro y hy
          rw [e3, Multiset.mem_cons] at hy
          rcases hy with rfl | hy
          · exact ho (.enqueue y) (by simp)
          · exact hq y hy
        · simp only [step, enqueue, if_neg hs, Option.map_some, Option.bind_eq_bind, Option.bind_some]
          rw [ih q inv (by simpa [depth, hs] using hd) (fun o h => ho o (by simp [h])) hq]
      | dequeue =>
        have hs : 0 < q.size := by
          by_contra hc
          have : q.size = 0 := by omega
          simp [depth, this] at hd
        obtain ⟨x, q', e1, e3, e5⟩ := dequeue_any (extend S lt) N hN q inv hs
        simp only [step, e1, Option.map_some, Option.bind_eq_bind, Option.bind_some]
        rw [ih q' (by omega) (by rw [← e5] at hd; simpa [depth] using hd) (fun o h => ho o (by simp [h])) ?_]
        intro y hy
        exact hq y (by rw [e3]; exact Multiset.mem_cons_of_mem hy)
  have conv : ∀ (M M' : Multiset α) (ops : List (Op α)) rs, SpecRun (extend S lt) N M ops rs M' →
      (∀ op ∈ ops, op.In S) → (∀ x ∈ M, S x) → SpecRun lt N M ops rs M' := by
    intro M M' ops rs h
    induction h with
    | nil M => intros; exact .nil _
    | cons h1 h2 ih =>
      intro ho hM
      cases h1 with
      | enqueue M x hc =>
        refine .cons (.enqueue _ _ hc) (ih (fun o h => ho o (by simp [h])) ?_)
        intro y hy
        rw [Multiset.mem_cons] at hy
        rcases hy with rfl | hy
        · exact ho (.enqueue y) (by simp)
        · exact hM y hy
      | full M x hc => exact .cons (.full _ _ hc) (ih (fun o h => ho o (by simp [h])) hM)
      | dequeue M x hmin =>
        refine .cons (.dequeue _ _ ?_) (ih (fun o h => ho o (by simp [h]))
          (fun y hy => hM y (Multiset.mem_cons_of_mem hy)))
        intro y hy
        rw [hA y x (hM y (Multiset.mem_cons_of_mem hy)) (hM x (Multiset.mem_cons_self _ _))]
        exact hmin y hy
  obtain ⟨rs, q, h1, h2⟩ := C25_history_refines _ (extend_weak S lt h) N hN data ops hops
  refine ⟨rs, q, ?_, conv _ _ _ _ h2 hS (by simp)⟩
  rw [key ops ⟨0, data⟩ (by simp) hops hS (by simp [content, slice])]
  exact h1

/-! ### numbers and a NaN -/

/-- `<` on numbers with a NaN, which is less than nothing and greater than nothing -/
def less : Option Int → Option Int → Bool
  | some x, some y => decide (x < y)
  | _, _ => false

/-- without the NaN `less` is a strict weak order, with it it is not -/
example : StrictWeakOn (fun x => x ≠ none) less ∧ ¬ StrictWeak less := by
  refine ⟨⟨?_, ?_, ?_⟩, ?_⟩
  · rintro (_ | a) h
    · exact absurd rfl h
    · simp [less]
  · rintro (_ | a) (_ | b) (_ | c) ha hb hc <;> simp_all [less]
    omega
  · rintro (_ | a) (_ | b) (_ | c) ha hb hc <;> simp_all [less]
    omega
  · intro h
    rcases h.negtrans (some 0) (some 1) none (by decide) with h' | h' <;> simp [less] at h'

/-- C134.  With a NaN among the elements neither sort need sort the others: 2, NaN, 1 is left as it is. -/
theorem C134_nan_sort_false : ∃ m : Nat → Option Int,
    (∃ m', insertionSort less ⟨0, 3⟩ 0 3 m = some m' ∧ m' 0 = some 2 ∧ m' 2 = some 1) ∧
    (∃ m', introSort less ⟨0, 3⟩ 128 1 0 3 m = some m' ∧ m' 0 = some 2 ∧ m' 2 = some 1) := by
  refine ⟨fun i => [some 2, none, some 1].getD i none, ?_, ?_⟩
  · have h : (insertionSort less ⟨0, 3⟩ 0 3 (fun i => [some 2, none, some 1].getD i none)).map
      (fun m => (m 0, m 2)) = some (some 2, some 1) := by decide +kernel
    rw [Option.map_eq_some_iff] at h
    obtain ⟨m', h1, h2⟩ := h
    simp only [Prod.mk.injEq] at h2
    exact ⟨m', h1, h2⟩
  · have h : (introSort less ⟨0, 3⟩ 128 1 0 3 (fun i => [some 2, none, some 1].getD i none)).map
      (fun m => (m 0, m 2)) = some (some 2, some 1) := by decide +kernel
    rw [Option.map_eq_some_iff] at h
    obtain ⟨m', h1, h2⟩ := h
    simp only [Prod.mk.injEq] at h2
    exact ⟨m', h1, h2⟩

/-- C134.  With a NaN in the queue `dequeue` may give 2 although 1 is there. -/
theorem C134_nan_queue_false : (run less 4 ⟨0, fun _ => none⟩
    [.enqueue (some 2), .enqueue none, .enqueue (some 3), .enqueue (some 1), .dequeue]).map
      (fun r => (r.1.getLast?.map fun | .enqueued _ => none | .dequeued x => x, (List.range r.2.size).map r.2.data)) =
    some (some (some 2), [none, some 1, some 3]) := by decide +kernel

/-- the hypotheses of `C134_queue` for any comparison -/
example : (depth 4 0 ([.enqueue (some 2), .enqueue none, .dequeue] : List (Op (Option Int)))).isSome := by decide

end CE.AnyOrder
