/-!
# Arrays with checked access

An array is a function from index to content together with the half-open range of indices that
belong to the object.  Access outside the range is undefined behaviour: `none`.
-/
namespace CE

/-- a range of array elements that may be accessed -/
structure Obj where
  lo : Nat
  hi : Nat

/-- `*p` for reading -/
def Obj.rd {α : Type} (o : Obj) (m : Nat → α) (i : Nat) : Option α :=
  if o.lo ≤ i ∧ i < o.hi then some (m i) else none

/-- replace one element -/
def upd {α : Type} (m : Nat → α) (i : Nat) (x : α) : Nat → α := fun j => if j = i then x else m j

/-- `*p = x` -/
def Obj.wr {α : Type} (o : Obj) (m : Nat → α) (i : Nat) (x : α) : Option (Nat → α) :=
  if o.lo ≤ i ∧ i < o.hi then some (upd m i x) else none

/-- `swap(*p, *q)` lib/h/ce/ce.h:46-52: a copy and two assignments -/
def Obj.swap {α : Type} (o : Obj) (m : Nat → α) (i j : Nat) : Option (Nat → α) := do
  let c ← o.rd m i
  let y ← o.rd m j
  let m ← o.wr m i y
  o.wr m j c

end CE
