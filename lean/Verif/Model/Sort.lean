import Verif.Model.Buf
/-!
# Model of lib/h/ce/sort.h

Pointers into the sorted array are indices; `o` is the array object, any access outside it is
`none`.  `lt` is `operator<` of the element type.  `size_t` is a natural number (an array cannot
have 2^64 elements).
-/
namespace CE.Sorting

variable {α : Type} (lt : α → α → Bool) (o : Obj)

/-- inner loop of `insertion_sort` with the final store, lib/h/ce/sort.h:37-39 -/
def insertLoop (a : Nat) (k : α) (m : Nat → α) : Nat → Option (Nat → α)
  | 0 => if 0 > a then none else o.wr m 0 k
  | q + 1 => do
    if q + 1 > a then
      let x ← o.rd m q
      if lt k x then
        let m ← o.wr m (q + 1) x
        insertLoop a k m q
      else o.wr m (q + 1) k
    else o.wr m (q + 1) k

/-- outer loop of `insertion_sort`, lib/h/ce/sort.h:33-40, `left = b - p` rounds to go -/
def insertionLoop (a : Nat) : Nat → Nat → (Nat → α) → Option (Nat → α)
  | 0, _, m => some m
  | left + 1, p, m => do
    let k ← o.rd m p
    let m ← insertLoop lt o a k m p
    insertionLoop a left (p + 1) m

/-- `insertion_sort(a, b)` lib/h/ce/sort.h:30-41 -/
def insertionSort (a b : Nat) (m : Nat → α) : Option (Nat → α) := insertionLoop lt o a (b - a) a m

/-- `median(*a, *b, *c)` lib/h/ce/sort.h:44-63 -/
def median (a b c : Nat) (m : Nat → α) : Option (Nat → α) := do
  let va ← o.rd m a
  let vb ← o.rd m b
  let vc ← o.rd m c
  if lt va vb then
    if lt vb vc then return m
    if lt va vc then o.swap m b c else o.swap m b a
  else
    if lt vc vb then return m
    if lt va vc then o.swap m b a else o.swap m b c

/-- loop of `partition` lib/h/ce/sort.h:74-76, `left = e - q` rounds to go -/
def partitionLoop (k : α) : Nat → Nat → Nat → (Nat → α) → Option (Nat × (Nat → α))
  | 0, p, _, m => some (p, m)
  | left + 1, p, q, m => do
    let x ← o.rd m q
    if lt x k then
      let m ← o.swap m p q
      partitionLoop k left (p + 1) (q + 1) m
    else partitionLoop k left p (q + 1) m

/-- `partition(a, b)` lib/h/ce/sort.h:65-79; `b - 1` for `b = 0` is no pointer -/
def partition (a b : Nat) (m : Nat → α) : Option (Nat × (Nat → α)) := do
  let n := b - a
  if b = 0 then none else
  let e := b - 1
  let m ← median lt o a e (n / 2 + a) m
  let k ← o.rd m e
  let (p, m) ← partitionLoop lt o k (e - a) a a m
  let m ← o.swap m p e
  return (p, m)

/-- `intro_sort<N>(a, b, intro)` lib/h/ce/sort.h:81-95.  The first argument is the depth of stack
available; a call that needs more does not return (`none`). -/
def introRec (N : Nat) : Nat → Nat → Nat → Nat → (Nat → α) → Option (Nat → α)
  | 0, _, _, _, _ => none
  | depth + 1, a, b, intro, m => do
    let n := b - a
    if n < N then insertionSort lt o a b m
    else
      let (p, m) ← partition lt o a b m
      let limit := intro / 2
      let m ← introRec N depth (p + 1) b limit m
      introRec N depth a p limit m

/-- `intro_sort<N>(a, b)` lib/h/ce/sort.h:97-110, with `depth` levels of stack for the recursion -/
def introSort (N depth : Nat) (a b : Nat) (m : Nat → α) : Option (Nat → α) := do
  if a < b then
    let n := b - a
    if n < N then insertionSort lt o a b m
    else
      let (p, m) ← partition lt o a b m
      let m ← introRec lt o N depth a p n m
      introRec lt o N depth (p + 1) b n m
  else return m

/-- `lower_bound(a, b, k)` lib/h/ce/sort.h:112-127; `n` is the loop variable -/
def lowerLoop (k : α) (m : Nat → α) (a n : Nat) : Option Nat :=
  if h : n > 0 then do
    let step := n / 2
    let x ← o.rd m (a + step)
    if lt x k then lowerLoop k m (a + step + 1) (n - (step + 1))
    else lowerLoop k m a step
  else some a
termination_by n

/-- `lower_bound(a, b, k)` -/
def lowerBound (a b : Nat) (k : α) (m : Nat → α) : Option Nat := lowerLoop lt o k m a (b - a)

/-- loop of `upper_bound` lib/h/ce/sort.h:129-144 -/
def upperLoop (k : α) (m : Nat → α) (a n : Nat) : Option Nat :=
  if h : n > 0 then do
    let step := n / 2
    let x ← o.rd m (a + step)
    if !lt k x then upperLoop k m (a + step + 1) (n - (step + 1))
    else upperLoop k m a step
  else some a
termination_by n

/-- `upper_bound(a, b, k)` -/
def upperBound (a b : Nat) (k : α) (m : Nat → α) : Option Nat := upperLoop lt o k m a (b - a)

end CE.Sorting
