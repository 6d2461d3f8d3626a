import Verif.Model.Buf
/-!
# Model of `ce::bulk<N, T>` (lib/h/ce/ce.h:1247-1415)

The array of a bulk is raw storage; whether a slot holds a live object is recorded in `live`.
Constructing over a live object, destroying, reading or assigning a dead one, and leaving the array
are undefined behaviour (`none`).  Two things depend on the element type (`Traits`):
* a trivially constructible type is not constructed at all: the object simply starts to exist with
  whatever is in the storage;
* a type with implicit lifetime (trivial copies) may be assigned to raw storage.
For a trivially destructible type nothing runs at destruction, but the end of the lifetime is still
recorded.  `size_t` is a natural number: sizes never exceed `N`.
`operator=` and the copy constructor take the source as a separate value; in a self assignment every
element is assigned to itself.
-/
namespace CE.Bulk

/-- what matters of the element type -/
structure Traits (α : Type) where
  /-- `is_constructible_with<T>::value`: `T{ }` is well formed -/
  constructible : Bool
  /-- `__is_trivially_constructible(T)` -/
  trivialCtor : Bool
  /-- value of a default constructed object of a type that is not trivially constructible -/
  dflt : α
  /-- assigning to raw storage creates the object -/
  implicitLife : Bool
  /-- what is left in an object that has been moved from -/
  moved : α → α

/-- storage -/
structure Slots (α : Type) where
  val : Nat → α
  live : Nat → Bool

variable {α : Type} (t : Traits α) (N : Nat)

/-- placement new `T { x }` in slot `i` -/
def construct (s : Slots α) (i : Nat) (x : α) : Option (Slots α) :=
  if i < N ∧ s.live i = false then some { val := upd s.val i x, live := upd s.live i true } else none

/-- placement new `T` in slot `i` -/
def constructDefault (s : Slots α) (i : Nat) : Option (Slots α) :=
  if t.trivialCtor then
    if i < N ∧ s.live i = false then some { s with live := upd s.live i true } else none
  else if t.constructible then construct N s i t.dflt
  else none

/-- `data[i].~T()` -/
def destroy (s : Slots α) (i : Nat) : Option (Slots α) :=
  if i < N ∧ s.live i = true then some { s with live := upd s.live i false } else none

/-- `data[i]` as a value -/
def read (s : Slots α) (i : Nat) : Option α := if i < N ∧ s.live i = true then some (s.val i) else none

/-- `data[i] = x` -/
def assign (s : Slots α) (i : Nat) (x : α) : Option (Slots α) :=
  if i < N ∧ (s.live i = true ∨ t.implicitLife = true) then
    some { val := upd s.val i x, live := upd s.live i true }
  else none

/-- `construct_at(data, head, tail)` lib/h/ce/ce.h:1250-1257, `left = tail - head` -/
def constructAt : Nat → Nat → Slots α → Option (Slots α)
  | 0, _, s => some s
  | left + 1, head, s => do
    let s ← constructDefault t N s head
    constructAt left (head + 1) s

/-- `destroy_at(data, head, tail)` lib/h/ce/ce.h:1259-1266, `left = tail - head` -/
def destroyAt (head : Nat) : Nat → Slots α → Option (Slots α)
  | 0, s => some s
  | left + 1, s => do
    let s ← destroy N s (head + left)
    destroyAt head left s

/-- `construct_copy(data[i], x)` lib/h/ce/ce.h:1282-1296.  `is_constructible_with<T, T>::value`
(lib/h/ce/ce.h:1268-1273) is `false` for every `T`: both overloads of `test` return `false`. -/
def constructCopy (s : Slots α) (i : Nat) (x : α) : Option (Slots α) :=
  if t.constructible then do
    let s ← constructDefault t N s i
    assign t N s i x
  else assign t N s i x

/-- the loop `for (; i < n; ++i) dst[i] = src[i]` of lib/h/ce/ce.h:1302-1303 and 1309-1310 -/
def assignLoop (src : Slots α) : Nat → Nat → Slots α → Option (Slots α)
  | 0, _, s => some s
  | left + 1, i, s => do
    let x ← read N src i
    let s ← assign t N s i x
    assignLoop src left (i + 1) s

/-- the loop `for (; i < n; ++i) construct_copy(dst[i], src[i])` of lib/h/ce/ce.h:1304-1305 and
1328-1329 -/
def copyLoop (src : Slots α) : Nat → Nat → Slots α → Option (Slots α)
  | 0, _, s => some s
  | left + 1, i, s => do
    let x ← read N src i
    let s ← constructCopy t N s i x
    copyLoop src left (i + 1) s

/-- `assign_items` lib/h/ce/ce.h:1298-1314 -/
def assignItems (dstSize : Nat) (dst : Slots α) (srcSize : Nat) (src : Slots α) : Option (Slots α) :=
  if dstSize < srcSize then do
    let s ← assignLoop t N src dstSize 0 dst
    copyLoop t N src (srcSize - dstSize) dstSize s
  else do
    let s ← assignLoop t N src srcSize 0 dst
    destroyAt N srcSize (dstSize - srcSize) s

/-- `bulk<N, T>` lib/h/ce/ce.h:1316-1319 -/
structure Bulk (α : Type) where
  size : Nat
  slots : Slots α

/-- `bulk()` lib/h/ce/ce.h:1321, in storage with arbitrary content -/
def new (junk : Nat → α) : Bulk α := { size := 0, slots := { val := junk, live := fun _ => false } }

/-- `~bulk()` lib/h/ce/ce.h:1322 : what is left of the storage -/
def dtor (b : Bulk α) : Option (Slots α) := destroyAt N 0 b.size b.slots

/-- `CE_ASSERT(...)`: `none` if it fails -/
def check (p : Bool) : Option Unit := if p then some () else none

/-- copy constructor lib/h/ce/ce.h:1324-1331 -/
def copy (junk : Nat → α) (b : Bulk α) : Option (Bulk α) := do
  check (b.size ≤ N)
  let s ← copyLoop t N b.slots b.size 0 (new junk).slots
  return { size := b.size, slots := s }

/-- `operator=` lib/h/ce/ce.h:1333-1338 -/
def assignBulk (a b : Bulk α) : Option (Bulk α) := do
  check (a.size ≤ N && b.size ≤ N)
  let s ← assignItems t N a.size a.slots b.size b.slots
  return { size := b.size, slots := s }

/-- `clear()` lib/h/ce/ce.h:1345 -/
def clear (b : Bulk α) : Option (Bulk α) := do
  let s ← destroyAt N 0 b.size b.slots
  return { size := 0, slots := s }

/-- `resize(n)` lib/h/ce/ce.h:1349-1356 -/
def resize (b : Bulk α) (n : Nat) : Option (Bool × Bulk α) :=
  if n > N then some (false, b)
  else if n ≤ b.size then do
    let s ← destroyAt N n (b.size - n) b.slots
    return (true, { size := n, slots := s })
  else do
    let s ← constructAt t N (n - b.size) b.size b.slots
    return (true, { size := n, slots := s })

/-- `append_n(n)` lib/h/ce/ce.h:1373-1380 -/
def appendN (b : Bulk α) (n : Nat) : Option (Bool × Bulk α) :=
  if N - b.size < n then some (false, b)
  else do
    let s ← constructAt t N n b.size b.slots
    return (true, { size := b.size + n, slots := s })

/-- `append(us...)` lib/h/ce/ce.h:1382-1388; `x` is the value of `T { us... }` -/
def append (b : Bulk α) (x : α) : Option (Bool × Bulk α) :=
  if b.size < N then do
    let s ← construct N b.slots b.size x
    return (true, { size := b.size + 1, slots := s })
  else some (false, b)

/-- `data[i] = static_cast<T&&>(data[j])` -/
def moveAssign (s : Slots α) (i j : Nat) : Option (Slots α) := do
  let x ← read N s j
  let s ← assign t N { s with val := upd s.val j (t.moved x) } i x
  return s

/-- the loop of lib/h/ce/ce.h:1399-1400 -/
def shiftLoop : Nat → Nat → Slots α → Option (Slots α)
  | 0, _, s => some s
  | left + 1, i, s => do
    let s ← moveAssign t N s i (i + 1)
    shiftLoop left (i + 1) s

/-- `remove_at<Ordered>(i)` lib/h/ce/ce.h:1390-1411 -/
def removeAt (ordered : Bool) (b : Bulk α) (i : Nat) : Option (Bool × Bulk α) :=
  if i ≥ b.size then some (false, b)
  else do
    let size := b.size - 1
    let s ← if ordered then shiftLoop t N (size - i) i b.slots
      else if i < size then moveAssign t N b.slots i size
      else some b.slots
    let s ← destroy N s size
    return (true, { size := size, slots := s })

/-- `operator[]` lib/h/ce/ce.h:1370-1371 -/
def get (b : Bulk α) (i : Nat) : Option α := read N b.slots i

/-- `b[i] = x` through the reference of lib/h/ce/ce.h:1370 -/
def put (b : Bulk α) (i : Nat) (x : α) : Option (Bulk α) := do
  let s ← assign t N b.slots i x
  return { b with slots := s }

/-- reading `n` elements from `data[i]` on -/
def readFrom (s : Slots α) : Nat → Nat → Option (List α)
  | 0, _ => some []
  | n + 1, i => do
    let x ← read N s i
    let xs ← readFrom s n (i + 1)
    return x :: xs

/-- what is read from `begin()` to `end()` lib/h/ce/ce.h:1361-1365, or in `make_span(b)` lines 1413-1414 -/
def items (b : Bulk α) : Option (List α) := readFrom N b.slots b.size 0

/-- `back()` lib/h/ce/ce.h:1367-1368; a null reference for an empty bulk -/
def back (b : Bulk α) : Option α := if b.size > 0 then read N b.slots (b.size - 1) else none

/-- `room()` lib/h/ce/ce.h:1359 -/
def room (b : Bulk α) : Nat := N - b.size

/-- calls on bulk variables `k`, `j` -/
inductive Op (α : Type) where
  | new (k : Nat) (junk : Nat → α)
  | drop (k : Nat)
  | copy (k j : Nat) (junk : Nat → α)
  | assign (k j : Nat)
  | clear (k : Nat)
  | resize (k n : Nat)
  | appendN (k n : Nat)
  | append (k : Nat) (x : α)
  | remove (ordered : Bool) (k i : Nat)
  | get (k i : Nat)
  | put (k i : Nat) (x : α)
  | items (k : Nat)
  | back (k : Nat)
  | room (k : Nat)

/-- results -/
inductive Out (α : Type) where
  | unit
  | ok (b : Bool)
  | value (x : α)
  | count (n : Nat)
  | values (xs : List α)

/-- the bulk variables that exist -/
abbrev Store (α : Type) := Nat → Option (Bulk α)

/-- one call; using a variable that does not exist, or creating one that does, is no C++ program -/
def step (σ : Store α) : Op α → Option (Out α × Store α)
  | .new k junk => if (σ k).isSome then none else some (.unit, upd σ k (some (new junk)))
  | .drop k => do
    let b ← σ k
    let _ ← dtor N b
    return (.unit, upd σ k none)
  | .copy k j junk => do
    let b ← σ j
    if (σ k).isSome then none else
    let c ← copy t N junk b
    return (.unit, upd σ k (some c))
  | .assign k j => do
    let a ← σ k
    let b ← σ j
    let c ← assignBulk t N a b
    return (.unit, upd σ k (some c))
  | .clear k => do
    let b ← σ k
    let c ← clear N b
    return (.unit, upd σ k (some c))
  | .resize k n => do
    let b ← σ k
    let (r, c) ← resize t N b n
    return (.ok r, upd σ k (some c))
  | .appendN k n => do
    let b ← σ k
    let (r, c) ← appendN t N b n
    return (.ok r, upd σ k (some c))
  | .append k x => do
    let b ← σ k
    let (r, c) ← append N b x
    return (.ok r, upd σ k (some c))
  | .remove ordered k i => do
    let b ← σ k
    let (r, c) ← removeAt t N ordered b i
    return (.ok r, upd σ k (some c))
  | .get k i => do
    let b ← σ k
    let x ← get N b i
    return (.value x, σ)
  | .put k i x => do
    let b ← σ k
    let c ← put t N b i x
    return (.unit, upd σ k (some c))
  | .items k => do
    let b ← σ k
    let xs ← items N b
    return (.values xs, σ)
  | .back k => do
    let b ← σ k
    let x ← back N b
    return (.value x, σ)
  | .room k => do
    let b ← σ k
    return (.count (room N b), σ)

/-- a history of calls -/
def run (σ : Store α) : List (Op α) → Option (List (Out α) × Store α)
  | [] => some ([], σ)
  | op :: ops => do
    let (r, σ) ← step t N σ op
    let (rs, σ) ← run σ ops
    return (r :: rs, σ)

end CE.Bulk
