import Verif.Props.Heap
import Mathlib.Data.Multiset.AddSub
import Mathlib.Data.Multiset.MapFold
import Mathlib.Data.Multiset.UnionInter
/-!
# min_priority_queue as a queue of events (C155)
-/
namespace CE.Heap

variable {α : Type}

/-- `for (auto& e : events) ok &= q.enqueue(e)` -/
def post (lt : α → α → Bool) (N : Nat) : List α → Pq α → Option (Bool × Pq α)
  | [], q => some (true, q)
  | x :: xs, q => do
    let (a, q) ← enqueue lt N x q
    let (b, q) ← post lt N xs q
    return (a && b, q)

/-- `while (!q.empty()) { auto e = q.dequeue(); post(handler(e)); }`, at most `k` turns: the events in the order they were
handled, and whether all calls of `enqueue` succeeded -/
def events (lt : α → α → Bool) (N : Nat) (handler : α → List α) : Nat → Pq α → Option (List α × Bool × Pq α)
  | 0, q => some ([], true, q)
  | k + 1, q =>
    if empty q then some ([], true, q) else do
      let (x, q) ← dequeue lt N q
      let (a, q) ← post lt N (handler x) q
      let (xs, b, q) ← events lt N handler k q
      return (x :: xs, a && b, q)

theorem post_spec (lt : α → α → Bool) (h : StrictWeak lt) (N : Nat) (xs : List α) (q : Pq α) (inv : Inv lt N q) :
    ∃ ok q', post lt N xs q = some (ok, q') ∧ Inv lt N q' ∧ (∀ y ∈ content q', y ∈ content q ∨ y ∈ xs) ∧
      (ok = true → content q' = (xs : Multiset α) + content q) := by
  induction xs generalizing q with
  | nil => exact ⟨true, q, rfl, inv, fun y hy => .inl hy, fun _ => by simp⟩
  | cons x xs ih =>
    by_cases hs : q.size < N
    · obtain ⟨q1, e1, e2, e3, _⟩ := enqueue_eq lt h N q inv x hs
      obtain ⟨ok, q', f1, f2, f3, f4⟩ := ih q1 e2
      refine ⟨ok, q', by simp [post, e1, f1], f2, fun y hy => ?_, fun ho => ?_⟩
      · rcases f3 y hy with h1 | h1
        · rw [e3, Multiset.mem_cons] at h1
          rcases h1 with rfl | h1
          · exact .inr (List.mem_cons_self ..)
          · exact .inl h1
        · exact .inr (List.mem_cons_of_mem _ h1)
      · rw [f4 ho, e3, ← Multiset.cons_coe, Multiset.add_cons, Multiset.cons_add]
    · obtain ⟨ok, q', f1, f2, f3, f4⟩ := ih q inv
      refine ⟨false, q', by simp [post, enqueue, hs, f1], f2, fun y hy => ?_, fun ho => by cases ho⟩
      exact (f3 y hy).imp_right (List.mem_cons_of_mem _)

theorem not_lt_trans {lt : α → α → Bool} (h : StrictWeak lt) {x y z : α} (h1 : lt y x = false) (h2 : lt z y = false) : lt z x = false := by
  cases h3 : lt z x with
  | false => rfl
  | true =>
    rcases h.negtrans z x y h3 with h4 | h4
    · rw [h2] at h4; cases h4
    · rw [h1] at h4; cases h4

theorem events_spec (lt : α → α → Bool) (h : StrictWeak lt) (N : Nat) (hN : N < 2 ^ 64) (handler : α → List α)
    (hh : ∀ x, ∀ y ∈ handler x, lt y x = false) (k : Nat) (q : Pq α) (inv : Inv lt N q) :
    ∃ xs ok q', events lt N handler k q = some (xs, ok, q') ∧ Inv lt N q' ∧ xs.Pairwise (fun x y => lt y x = false) ∧
      (∀ z, (∀ y ∈ content q, lt y z = false) → ∀ y ∈ xs, lt y z = false) ∧
      (ok = true → content q + ((xs.flatMap handler : List α) : Multiset α) = (xs : Multiset α) + content q') ∧ (xs.length = k ∨ empty q' = true) := by
  induction k generalizing q with
  | zero =>
    exact ⟨[], true, q, rfl, inv, .nil, fun _ _ y hy => by simp at hy, fun _ => by simp, .inl rfl⟩
  | succ k ih =>
    by_cases he : empty q = true
    · exact ⟨[], true, q, by simp [events, he], inv, .nil, fun _ _ y hy => by simp at hy, fun _ => by simp, .inr he⟩
    · have hs : 0 < q.size := by simp [empty] at he; omega
      obtain ⟨x, q1, e1, e2, e3, e4, _⟩ := dequeue_eq lt h N hN q inv hs
      obtain ⟨a, q2, p1, p2, p3, p4⟩ := post_spec lt h N (handler x) q1 e2
      obtain ⟨xs, b, q', f1, f2, f3, f4, f5, f6⟩ := ih q2 p2
      have hmin : ∀ y ∈ content q, lt y x = false := by
        intro y hy
        unfold content at hy
        rw [Multiset.mem_coe, mem_slice] at hy
        obtain ⟨i, _, hi, rfl⟩ := hy
        rw [e4]
        exact heap_min lt h q.size q.data inv.heap i hi
      have h2 : ∀ y ∈ content q2, lt y x = false := by
        intro y hy
        rcases p3 y hy with h1 | h1
        · exact hmin y (by rw [e3]; exact Multiset.mem_cons_of_mem h1)
        · exact hh x y h1
      refine ⟨x :: xs, a && b, q', by simp [events, he, e1, p1, f1], f2, .cons (f4 x h2) f3, fun z hz y hy => ?_, fun ho => ?_, ?_⟩
      · have hx : lt x z = false := hz x (by rw [e3]; exact Multiset.mem_cons_self _ _)
        rcases List.mem_cons.1 hy with rfl | hy
        · exact hx
        · exact not_lt_trans h hx (f4 x h2 y hy)
      · rw [Bool.and_eq_true] at ho
        have g1 := p4 ho.1
        have g2 := f5 ho.2
        rw [g1] at g2
        rw [e3, List.flatMap_cons, ← Multiset.coe_add, ← Multiset.cons_coe, Multiset.cons_add, Multiset.cons_add, ← g2]
        congr 1
        rw [← Multiset.add_assoc, Multiset.add_comm (content q1)]
      · rcases f6 with h6 | h6
        · exact .inl (by simp [h6])
        · exact .inr h6

/-- **Events are handled in the order of time.** A loop that takes the first event from a `min_priority_queue` and posts new
events that are not before the one handled, whatever they are: the events come out in order, even if some did not fit; if all
fitted, those handled and those still waiting are exactly those posted; the loop ends only when none is waiting. -/
theorem C155_in_order (lt : α → α → Bool) (h : StrictWeak lt) (N : Nat) (hN : N < 2 ^ 64) (handler : α → List α)
    (hh : ∀ x, ∀ y ∈ handler x, lt y x = false) (data : Nat → α) (first : List α) (k : Nat) :
    ∃ ok0 q0 xs ok q, post lt N first ⟨0, data⟩ = some (ok0, q0) ∧ events lt N handler k q0 = some (xs, ok, q) ∧
      xs.Pairwise (fun x y => lt y x = false) ∧ (xs.length = k ∨ q.size = 0) ∧
      (ok0 = true → ok = true →
        ∃ waiting : List α, waiting.length = q.size ∧ (first ++ xs.flatMap handler).Perm (xs ++ waiting)) := by
  obtain ⟨ok0, q0, p1, p2, _, p4⟩ := post_spec lt h N first ⟨0, data⟩ ⟨by simp, fun i _ hi => by simp at hi⟩
  obtain ⟨xs, ok, q, f1, _, f3, _, f5, f6⟩ := events_spec lt h N hN handler hh k q0 p2
  refine ⟨ok0, q0, xs, ok, q, p1, f1, f3, f6.imp_right (fun h => by simp [empty] at h; omega), fun h1 h2 => ⟨slice q.data 0 q.size, by simp [slice], ?_⟩⟩
  have e := f5 h2
  have e0 : content (⟨0, data⟩ : Pq α) = 0 := by simp [content, slice]
  rw [p4 h1, e0, Multiset.add_zero] at e
  rw [← Multiset.coe_eq_coe, ← Multiset.coe_add, ← Multiset.coe_add]
  exact e

/-! ## Events at the same time -/

/-- the items of a history that are enqueued -/
def posted : List (Op α) → List α
  | [] => []
  | .enqueue x :: ops => x :: posted ops
  | .dequeue :: ops => posted ops

/-- the items that come out -/
def taken : List (Out α) → List α
  | [] => []
  | .dequeued x :: rs => x :: taken rs
  | .enqueued _ :: rs => taken rs

/-- `operator<` of an event with a number: by time, then by number -/
def byNumber {τ : Type} (before : τ → τ → Bool) (x y : τ × Nat) : Bool :=
  before x.1 y.1 || (!before y.1 x.1 && decide (x.2 < y.2))

theorem byNumber_weak {τ : Type} {before : τ → τ → Bool} (h : StrictWeak before) : StrictWeak (byNumber before) := by
  have inc : ∀ a b c, before b a = false → before c b = false → before c a = false := fun a b c => not_lt_trans h
  refine ⟨fun a => by simp [byNumber, h.irrefl], fun a b c => ?_, fun a b c => ?_⟩
  · simp only [byNumber, Bool.or_eq_true, Bool.and_eq_true, Bool.not_eq_true', decide_eq_true_eq]
    rintro (h1 | ⟨h1, n1⟩) (h2 | ⟨h2, n2⟩)
    · exact .inl (h.trans _ _ _ h1 h2)
    · rcases h.negtrans _ _ c.1 h1 with h3 | h3
      · exact .inl h3
      · rw [h2] at h3; cases h3
    · rcases h.negtrans _ _ a.1 h2 with h3 | h3
      · rw [h1] at h3; cases h3
      · exact .inl h3
    · exact .inr ⟨inc _ _ _ h1 h2, by omega⟩
  · simp only [byNumber, Bool.or_eq_true, Bool.and_eq_true, Bool.not_eq_true', decide_eq_true_eq]
    rintro (h1 | ⟨h1, n1⟩)
    · rcases h.negtrans _ _ c.1 h1 with h2 | h2
      · exact .inl (.inl h2)
      · exact .inr (.inl h2)
    · cases hac : before a.1 c.1 with
      | true => exact .inl (.inl rfl)
      | false =>
        cases hcb : before c.1 b.1 with
        | true => exact .inr (.inl rfl)
        | false =>
          by_cases hca : before c.1 a.1 = true
          · rcases h.negtrans _ _ b.1 hca with h2 | h2
            · rw [hcb] at h2; cases h2
            · rw [h1] at h2; cases h2
          · rw [Bool.not_eq_true] at hca
            by_cases hn : a.2 < c.2
            · exact .inl (.inr ⟨hca, hn⟩)
            · refine .inr (.inr ⟨?_, by omega⟩)
              exact inc _ _ _ hac h1

theorem taken_mem {lt : α → α → Bool} {N : Nat} {M M' : Multiset α} {ops : List (Op α)} {rs : List (Out α)}
    (h : SpecRun lt N M ops rs M') : ∀ y ∈ taken rs, y ∈ M ∨ y ∈ posted ops := by
  induction h with
  | nil => intro y hy; simp [taken] at hy
  | cons h1 _ ih =>
    cases h1 with
    | enqueue _ x _ =>
      intro y hy
      rcases ih y hy with h | h
      · rcases Multiset.mem_cons.1 h with rfl | h
        · exact .inr (List.mem_cons_self ..)
        · exact .inl h
      · exact .inr (List.mem_cons_of_mem _ h)
    | full _ x _ =>
      intro y hy
      exact (ih y hy).imp_right (List.mem_cons_of_mem _)
    | dequeue _ x _ =>
      intro y hy
      rcases List.mem_cons.1 hy with rfl | hy
      · exact .inl (Multiset.mem_cons_self _ _)
      · exact (ih y hy).imp_left Multiset.mem_cons_of_mem

theorem fifo_run {τ : Type} {before : τ → τ → Bool} {N : Nat} {M M' : Multiset (τ × Nat)}
    {ops : List (Op (τ × Nat))} {rs : List (Out (τ × Nat))} (h : SpecRun (byNumber before) N M ops rs M')
    (hp : (posted ops).Pairwise (fun x y => x.2 < y.2)) (hM : ∀ x ∈ M, ∀ y ∈ posted ops, x.2 < y.2) (hd : (M.map Prod.snd).Nodup) :
    (taken rs).Pairwise (fun x y => before x.1 y.1 = false → before y.1 x.1 = false → x.2 < y.2) := by
  induction h with
  | nil => exact .nil
  | cons h1 hs ih =>
    cases h1 with
    | enqueue _ x _ =>
      rw [posted, List.pairwise_cons] at hp
      refine ih hp.2 (fun z hz y hy => ?_) ?_
      · rcases Multiset.mem_cons.1 hz with rfl | hz
        · exact hp.1 y hy
        · exact hM z hz y (List.mem_cons_of_mem _ hy)
      · rw [Multiset.map_cons, Multiset.nodup_cons]
        refine ⟨fun hx => ?_, hd⟩
        obtain ⟨z, hz, e⟩ := Multiset.mem_map.1 hx
        have := hM z hz x (List.mem_cons_self ..)
        omega
    | full _ x _ =>
      rw [posted, List.pairwise_cons] at hp
      exact ih hp.2 (fun z hz y hy => hM z hz y (List.mem_cons_of_mem _ hy)) hd
    | dequeue _ x hmin =>
      rw [Multiset.map_cons, Multiset.nodup_cons] at hd
      refine .cons (fun y hy h1 h2 => ?_) (ih hp (fun z hz y hy => hM z (Multiset.mem_cons_of_mem hz) y hy) hd.2)
      rcases taken_mem hs y hy with hm | hm
      · have h3 := hmin y hm
        simp only [byNumber, h1, h2, Bool.false_or, Bool.not_false, Bool.true_and, decide_eq_false_iff_not] at h3
        have : x.2 ≠ y.2 := fun e => hd.1 (Multiset.mem_map.2 ⟨y, hm, e.symm⟩)
        omega
      · exact hM x (Multiset.mem_cons_self _ _) y hm

/-- **Events at the same time come out in the order they were posted**, if events are numbered as they are posted and compared
by time, then by number. Any history of calls. -/
theorem C155_numbered_fifo {τ : Type} (before : τ → τ → Bool) (h : StrictWeak before) (N : Nat) (hN : N < 2 ^ 64)
    (data : Nat → τ × Nat) (ops : List (Op (τ × Nat))) (hops : (depth N 0 ops).isSome)
    (hp : (posted ops).Pairwise (fun x y => x.2 < y.2)) :
    ∃ rs q, run (byNumber before) N ⟨0, data⟩ ops = some (rs, q) ∧
      (taken rs).Pairwise (fun x y => before x.1 y.1 = false → before y.1 x.1 = false → x.2 < y.2) := by
  obtain ⟨rs, q, h1, h2⟩ := C25_history_refines _ (byNumber_weak h) N hN data ops hops
  exact ⟨rs, q, h1, fifo_run h2 hp (fun x hx => by simp at hx) (by simp)⟩

/-- Compared by time alone they do not: of four events at the same time the last one posted comes out third. -/
theorem C155_fifo_false : ∃ ops : List (Op (Nat × Nat)), (depth 4 0 ops).isSome ∧
    (posted ops).Pairwise (fun x y => x.2 < y.2) ∧ 
      (run (fun x y => decide (x.1 < y.1)) 4 ⟨0, fun _ => (0, 0)⟩ ops).map (fun r => taken r.1) = some [(7, 1), (7, 2), (7, 4), (7, 3)] := by
  refine ⟨[.enqueue (7, 1), .enqueue (7, 2), .enqueue (7, 3), .enqueue (7, 4), .dequeue, .dequeue, .dequeue, .dequeue], by decide, by decide, by decide +kernel⟩

/-! ## Concrete cases -/

/-- every event up to 20 posts two later ones -/
example : (∀ x : Nat, ∀ y ∈ (if x < 20 then [x + 7, x + 3] else []), decide (y < x) = false) ∧
    ((post (fun x y : Nat => decide (x < y)) 8 [5, 1] ⟨0, fun _ => 0⟩).bind fun p =>
      events (fun x y : Nat => decide (x < y)) 8 (fun x => if x < 20 then [x + 7, x + 3] else []) 6 p.2).map Prod.fst =
      some [1, 4, 5, 7, 8, 8] := by
  refine ⟨?_, by decide +kernel⟩
  intro x y hy
  split at hy
  · simp at hy
    rcases hy with rfl | rfl <;> simp
  · simp at hy

end CE.Heap
