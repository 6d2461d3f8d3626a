import Verif.Model.Buf
/-!
# Model of `heap_raise`, `heap_lower` and `min_priority_queue` (lib/h/ce/ce.h:1419-1478)

`o` is the array object; `lt` is `operator<` of the element type.
-/
namespace CE.Heap

variable {α : Type} (lt : α → α → Bool) (o : Obj)

/-- `heap_raise(data, item, n)` lib/h/ce/ce.h:1419-1433 -/
def heapRaise (item : α) (m : Nat → α) (n : Nat) : Option (Nat → α) :=
  if h : n > 0 then do
    let p := (n - 1) / 2
    let x ← o.rd m p
    if lt item x then
      let m ← o.wr m n x
      heapRaise item m p
    else o.wr m n item
  else o.wr m n item
termination_by n

/-- the child that is followed, lib/h/ce/ce.h:1443-1444 (`p < size`) -/
def pickChild (size : Nat) (m : Nat → α) (p : Nat) : Option Nat :=
  if p + 1 < size then do
    let y ← o.rd m (p + 1)
    let x ← o.rd m p
    return if lt y x then p + 1 else p
  else some p

/-- `heap_lower(size, data, item, n)` lib/h/ce/ce.h:1435-1453; the guard `n < p` always holds and
only shows that the loop ends -/
def heapLower (size : Nat) (item : α) (m : Nat → α) (n : Nat) : Option (Nat → α) :=
  if n * 2 + 1 ≥ size then o.wr m n item
  else
    match pickChild lt o size m (n * 2 + 1) with
    | none => none
    | some p =>
      match o.rd m p with
      | none => none
      | some x =>
        if lt item x then o.wr m n item
        else
          match o.wr m n x with
          | none => none
          | some m => if h : n < p ∧ n < size then heapLower size item m p else none
termination_by size - n

/-- `min_priority_queue<N, T>` lib/h/ce/ce.h:1455-1458 -/
structure Pq (α : Type) where
  size : Nat
  data : Nat → α

/-- `head()` lib/h/ce/ce.h:1460 -/
def head (N : Nat) (q : Pq α) : Option α := (Obj.mk 0 N).rd q.data 0

/-- `empty()` lib/h/ce/ce.h:1462 -/
def empty (q : Pq α) : Bool := q.size < 1

/-- `enqueue(item)` lib/h/ce/ce.h:1464-1467 -/
def enqueue (N : Nat) (item : α) (q : Pq α) : Option (Bool × Pq α) :=
  if q.size < N then do
    let m ← heapRaise lt ⟨0, N⟩ item q.data q.size
    return (true, { size := q.size + 1, data := m })
  else some (false, q)

/-- `dequeue()` lib/h/ce/ce.h:1469-1477; `--size` is modulo 2^64 -/
def dequeue (N : Nat) (q : Pq α) : Option (α × Pq α) := do
  let item ← (Obj.mk 0 N).rd q.data 0
  let size := (q.size + (2 ^ 64 - 1)) % 2 ^ 64
  if size > 0 then
    let last ← (Obj.mk 0 N).rd q.data size
    let m ← heapLower lt ⟨0, N⟩ size last q.data 0
    return (item, { size := size, data := m })
  else return (item, { size := size, data := q.data })

/-- operations of a history -/
inductive Op (α : Type) where
  | enqueue (x : α)
  | dequeue

/-- what the caller sees: the result and, if there is an element, the new head -/
inductive Out (α : Type) where
  | enqueued (ok : Bool)
  | dequeued (x : α)

/-- one call -/
def step (N : Nat) (q : Pq α) : Op α → Option (Out α × Pq α)
  | .enqueue x => (enqueue lt N x q).map fun r => (.enqueued r.1, r.2)
  | .dequeue => (dequeue lt N q).map fun r => (.dequeued r.1, r.2)

/-- a history of calls -/
def run (N : Nat) (q : Pq α) : List (Op α) → Option (List (Out α) × Pq α)
  | [] => some ([], q)
  | op :: ops => do
    let (r, q) ← step lt N q op
    let (rs, q) ← run N q ops
    return (r :: rs, q)

end CE.Heap
