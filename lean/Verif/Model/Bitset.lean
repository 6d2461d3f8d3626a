/-!
# Model of `ce::bitset<N>` (lib/h/ce/ce.h:1482-1529)

Bytes are `BitVec 8`; the operands are promoted to `int` (`BitVec 32`) as in C++.  An access outside
`data[(N + 7) >> 3]` and a failed `CE_ASSERT` are `none`.
-/
namespace CE.Bitset

abbrev Data := Nat → BitVec 8

/-- number of bytes, lib/h/ce/ce.h:1484 -/
def bytes (N : Nat) : Nat := (N + 7) >>> 3

/-- checked read of `data[i]` -/
def rd (N : Nat) (m : Data) (i : Nat) : Option (BitVec 8) := if i < bytes N then some (m i) else none

/-- checked write of `data[i]` -/
def wr (N : Nat) (m : Data) (i : Nat) (v : BitVec 8) : Option Data :=
  if i < bytes N then some (fun j => if j = i then v else m j) else none

/-- `CE_ASSERT(index < N)` lib/h/ce/ce.h:1489, 1500, 1511, 1517 -/
def check (N i : Nat) : Option Unit := if i < N then some () else none

/-- `'\1' << (index % 8)`, an `int` -/
def mask (i : Nat) : BitVec 32 := 1#32 <<< (i % 8)

/-- `operator[]` lib/h/ce/ce.h:1487-1491 -/
def get (N : Nat) (m : Data) (i : Nat) : Option Bool := do
  check N i
  let v ← rd N m (i >>> 3)
  return (v.zeroExtend 32 &&& mask i) != 0

/-- `set()` lib/h/ce/ce.h:1493-1496 (`CE_MEMSET`) -/
def setAll (N : Nat) (m : Data) : Data := fun j => if j < bytes N then 0xff else m j

/-- `reset()` lib/h/ce/ce.h:1504-1507 -/
def resetAll (N : Nat) (m : Data) : Data := fun j => if j < bytes N then 0 else m j

/-- `set(index)` lib/h/ce/ce.h:1498-1502 -/
def set1 (N : Nat) (m : Data) (i : Nat) : Option Data := do
  check N i
  let v ← rd N m (i >>> 3)
  wr N m (i >>> 3) ((v.zeroExtend 32 ||| mask i).truncate 8)

/-- `reset(index)` lib/h/ce/ce.h:1509-1513 -/
def reset1 (N : Nat) (m : Data) (i : Nat) : Option Data := do
  check N i
  let v ← rd N m (i >>> 3)
  wr N m (i >>> 3) ((v.zeroExtend 32 &&& ~~~ mask i).truncate 8)

/-- `set(index, value)` lib/h/ce/ce.h:1515-1526 -/
def put (N : Nat) (m : Data) (i : Nat) (b : Bool) : Option Data := do
  check N i
  let v ← rd N m (i >>> 3)
  if b then wr N m (i >>> 3) ((v.zeroExtend 32 ||| mask i).truncate 8)
  else wr N m (i >>> 3) ((v.zeroExtend 32 &&& ~~~ mask i).truncate 8)

/-- mutating calls -/
inductive Op where
  | setAll
  | resetAll
  | set (i : Nat)
  | reset (i : Nat)
  | put (i : Nat) (b : Bool)

/-- one call -/
def step (N : Nat) (m : Data) : Op → Option Data
  | .setAll => some (setAll N m)
  | .resetAll => some (resetAll N m)
  | .set i => set1 N m i
  | .reset i => reset1 N m i
  | .put i b => put N m i b

/-- a history of calls -/
def run (N : Nat) (m : Data) (ops : List Op) : Option Data := ops.foldlM (step N) m

end CE.Bitset
