import Verif.Model.Sort
import Verif.Model.Heap
/-!
# Comparisons made by the algorithms of lib/h/ce/sort.h and by the heap of lib/h/ce/ce.h

The functions of Model/Sort and Model/Heap once more, with a second result: how often `operator<` of the element type was
called.
-/
namespace CE.Cost

variable {α : Type} (lt : α → α → Bool) (o : Obj)

/-- `c` more comparisons -/
def tick {β : Type} (c : Nat) (x : Option (β × Nat)) : Option (β × Nat) := x.map fun r => (r.1, r.2 + c)

/-- no comparison -/
def free {β : Type} (x : Option β) : Option (β × Nat) := x.map fun r => (r, 0)

/-- inner loop of `insertion_sort` with the final store, lib/h/ce/sort.h:37-39; `k < *(q - 1)` is evaluated if `q > a` -/
def insertLoop (a : Nat) (k : α) (m : Nat → α) : Nat → Option ((Nat → α) × Nat)
  | 0 => if 0 > a then none else free (o.wr m 0 k)
  | q + 1 =>
    if q + 1 > a then
      (o.rd m q).bind fun x =>
      if lt k x then
        (o.wr m (q + 1) x).bind fun m => tick 1 (insertLoop a k m q)
      else tick 1 (free (o.wr m (q + 1) k))
    else free (o.wr m (q + 1) k)

/-- outer loop of `insertion_sort`, lib/h/ce/sort.h:33-40 -/
def insertionLoop (a : Nat) : Nat → Nat → (Nat → α) → Option ((Nat → α) × Nat)
  | 0, _, m => some (m, 0)
  | left + 1, p, m =>
    (o.rd m p).bind fun k =>
    (insertLoop lt o a k m p).bind fun r => tick r.2 (insertionLoop a left (p + 1) r.1)

/-- `insertion_sort(a, b)` lib/h/ce/sort.h:30-41 -/
def insertionSort (a b : Nat) (m : Nat → α) : Option ((Nat → α) × Nat) := insertionLoop lt o a (b - a) a m

/-- `median(*a, *b, *c)` lib/h/ce/sort.h:44-63 -/
def median (a b c : Nat) (m : Nat → α) : Option ((Nat → α) × Nat) :=
  (o.rd m a).bind fun va => (o.rd m b).bind fun vb => (o.rd m c).bind fun vc =>
  if lt va vb then
    if lt vb vc then some (m, 2)
    else if lt va vc then tick 3 (free (o.swap m b c)) else tick 3 (free (o.swap m b a))
  else
    if lt vc vb then some (m, 2)
    else if lt va vc then tick 3 (free (o.swap m b a)) else tick 3 (free (o.swap m b c))

/-- loop of `partition` lib/h/ce/sort.h:74-76 -/
def partitionLoop (k : α) : Nat → Nat → Nat → (Nat → α) → Option ((Nat × (Nat → α)) × Nat)
  | 0, p, _, m => some ((p, m), 0)
  | left + 1, p, q, m =>
    (o.rd m q).bind fun x =>
    if lt x k then
      (o.swap m p q).bind fun m => tick 1 (partitionLoop k left (p + 1) (q + 1) m)
    else tick 1 (partitionLoop k left p (q + 1) m)

/-- `partition(a, b)` lib/h/ce/sort.h:65-79 -/
def partition (a b : Nat) (m : Nat → α) : Option ((Nat × (Nat → α)) × Nat) :=
  if b = 0 then none else
  (median lt o a (b - 1) ((b - a) / 2 + a) m).bind fun r =>
  (o.rd r.1 (b - 1)).bind fun k =>
  (partitionLoop lt o k (b - 1 - a) a a r.1).bind fun s =>
  (o.swap s.1.2 s.1.1 (b - 1)).bind fun m => some ((s.1.1, m), r.2 + s.2)

/-- `intro_sort<N>(a, b, intro)` lib/h/ce/sort.h:81-95 -/
def introRec (N : Nat) : Nat → Nat → Nat → Nat → (Nat → α) → Option ((Nat → α) × Nat)
  | 0, _, _, _, _ => none
  | depth + 1, a, b, intro, m =>
    if b - a < N then insertionSort lt o a b m
    else
      (partition lt o a b m).bind fun r =>
      (introRec N depth (r.1.1 + 1) b (intro / 2) r.1.2).bind fun s =>
      tick (r.2 + s.2) (introRec N depth a r.1.1 (intro / 2) s.1)

/-- `intro_sort<N>(a, b)` lib/h/ce/sort.h:97-110 -/
def introSort (N depth : Nat) (a b : Nat) (m : Nat → α) : Option ((Nat → α) × Nat) :=
  if a < b then
    if b - a < N then insertionSort lt o a b m
    else
      (partition lt o a b m).bind fun r =>
      (introRec lt o N depth a r.1.1 (b - a) r.1.2).bind fun s =>
      tick (r.2 + s.2) (introRec lt o N depth (r.1.1 + 1) b (b - a) s.1)
  else some (m, 0)

/-- `lower_bound(a, b, k)` lib/h/ce/sort.h:112-127 -/
def lowerLoop (k : α) (m : Nat → α) (a n : Nat) : Option (Nat × Nat) :=
  if h : n > 0 then
    (o.rd m (a + n / 2)).bind fun x =>
    if lt x k then tick 1 (lowerLoop k m (a + n / 2 + 1) (n - (n / 2 + 1)))
    else tick 1 (lowerLoop k m a (n / 2))
  else some (a, 0)
termination_by n

/-- `upper_bound(a, b, k)` lib/h/ce/sort.h:129-144 -/
def upperLoop (k : α) (m : Nat → α) (a n : Nat) : Option (Nat × Nat) :=
  if h : n > 0 then
    (o.rd m (a + n / 2)).bind fun x =>
    if !lt k x then tick 1 (upperLoop k m (a + n / 2 + 1) (n - (n / 2 + 1)))
    else tick 1 (upperLoop k m a (n / 2))
  else some (a, 0)
termination_by n

/-- `lower_bound(a, b, k)` -/
def lowerBound (a b : Nat) (k : α) (m : Nat → α) : Option (Nat × Nat) := lowerLoop lt o k m a (b - a)

/-- `upper_bound(a, b, k)` -/
def upperBound (a b : Nat) (k : α) (m : Nat → α) : Option (Nat × Nat) := upperLoop lt o k m a (b - a)

/-- `heap_raise(data, item, n)` lib/h/ce/ce.h:1419-1433 -/
def heapRaise (item : α) (m : Nat → α) (n : Nat) : Option ((Nat → α) × Nat) :=
  if h : n > 0 then
    (o.rd m ((n - 1) / 2)).bind fun x =>
    if lt item x then
      (o.wr m n x).bind fun m => tick 1 (heapRaise item m ((n - 1) / 2))
    else tick 1 (free (o.wr m n item))
  else free (o.wr m n item)
termination_by n

/-- the child that is followed, lib/h/ce/ce.h:1443-1444 -/
def pickChild (size : Nat) (m : Nat → α) (p : Nat) : Option (Nat × Nat) :=
  if p + 1 < size then
    (o.rd m (p + 1)).bind fun y => (o.rd m p).bind fun x => some (if lt y x then p + 1 else p, 1)
  else some (p, 0)

/-- `heap_lower(size, data, item, n)` lib/h/ce/ce.h:1435-1453 -/
def heapLower (size : Nat) (item : α) (m : Nat → α) (n : Nat) : Option ((Nat → α) × Nat) :=
  if n * 2 + 1 ≥ size then free (o.wr m n item)
  else
    match pickChild lt o size m (n * 2 + 1) with
    | none => none
    | some r =>
      match o.rd m r.1 with
      | none => none
      | some x =>
        if lt item x then tick (r.2 + 1) (free (o.wr m n item))
        else
          match o.wr m n x with
          | none => none
          | some m => if h : n < r.1 ∧ n < size then tick (r.2 + 1) (heapLower size item m r.1) else none
termination_by size - n

/-- `enqueue(item)` lib/h/ce/ce.h:1464-1467 -/
def enqueue (N : Nat) (item : α) (q : Heap.Pq α) : Option ((Bool × Heap.Pq α) × Nat) :=
  if q.size < N then
    (heapRaise lt ⟨0, N⟩ item q.data q.size).bind fun r => some ((true, ⟨q.size + 1, r.1⟩), r.2)
  else some ((false, q), 0)

/-- `dequeue()` lib/h/ce/ce.h:1469-1477 -/
def dequeue (N : Nat) (q : Heap.Pq α) : Option ((α × Heap.Pq α) × Nat) :=
  ((Obj.mk 0 N).rd q.data 0).bind fun item =>
  if (q.size + (2 ^ 64 - 1)) % 2 ^ 64 > 0 then
    ((Obj.mk 0 N).rd q.data ((q.size + (2 ^ 64 - 1)) % 2 ^ 64)).bind fun last =>
    (heapLower lt ⟨0, N⟩ ((q.size + (2 ^ 64 - 1)) % 2 ^ 64) last q.data 0).bind fun r =>
    some ((item, ⟨(q.size + (2 ^ 64 - 1)) % 2 ^ 64, r.1⟩), r.2)
  else some ((item, ⟨(q.size + (2 ^ 64 - 1)) % 2 ^ 64, q.data⟩), 0)

end CE.Cost
