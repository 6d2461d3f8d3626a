import Verif.Model.Buf
/-!
# Model of `ce::pool<N, T, IndexT>` (lib/h/ce/pool.h:30-182)

Indices are natural numbers: the `static_assert` of pool.h:35 makes `N - 1` fit `IndexT`, and no
index exceeds `N - 1`.  Access outside `next[N]` or `data[N]` is `none`.
-/
namespace CE.Pool

variable {α : Type}

/-- `pool` lib/h/ce/pool.h:45-49 -/
structure Pool (α : Type) where
  next : Nat → Nat
  size : Nat
  data : Nat → α

variable (N : Nat)

/-- `next[i]` -/
def rdNext (s : Pool α) (i : Nat) : Option Nat := (Obj.mk 0 N).rd s.next i
/-- `next[i] = j` -/
def wrNext (s : Pool α) (i j : Nat) : Option (Pool α) := do
  let m ← (Obj.mk 0 N).wr s.next i j
  return { s with next := m }
/-- `data[i]` -/
def rdData (s : Pool α) (i : Nat) : Option α := (Obj.mk 0 N).rd s.data i
/-- `data[i] = x` -/
def wrData (s : Pool α) (i : Nat) (x : α) : Option (Pool α) := do
  let m ← (Obj.mk 0 N).wr s.data i x
  return { s with data := m }

/-- `reset()` lib/h/ce/pool.h:53-57 -/
def reset (s : Pool α) : Option (Pool α) := wrNext N { s with size := 0 } 0 0

/-- `alloc_index()` lib/h/ce/pool.h:59-72 -/
def allocIndex (s : Pool α) : Option (Nat × Pool α) := do
  let node ← rdNext N s 0
  if node ≠ 0 then
    let n ← rdNext N s node
    let s ← wrNext N s 0 n
    return (node, s)
  else if s.size < N - 1 then return (s.size + 1, { s with size := s.size + 1 })
  else return (node, s)

/-- `free_index(node)` lib/h/ce/pool.h:74-81 -/
def freeIndex (s : Pool α) (node : Nat) : Option (Pool α) :=
  if node ≠ 0 then do
    let f ← rdNext N s 0
    let s ← wrNext N s node f
    wrNext N s 0 node
  else some s

/-- `head(q)` lib/h/ce/pool.h:92: the node it refers to -/
def headNode (s : Pool α) (tail : Nat) : Option Nat := rdNext N s tail

/-- `remove_head(q)` lib/h/ce/pool.h:97-119; the queue is its `tail` index -/
def removeHead (s : Pool α) (tail : Nat) : Option (Bool × Pool α × Nat) :=
  if tail = 0 then some (false, s, tail)
  else do
    let head ← rdNext N s tail
    let n ← rdNext N s head
    let s ← wrNext N s tail n
    let f ← rdNext N s 0
    let s ← wrNext N s head f
    let s ← wrNext N s 0 head
    return (true, s, if head = tail then 0 else tail)

/-- `insert_head(q, item)` lib/h/ce/pool.h:121-150 -/
def insertHead (s : Pool α) (tail : Nat) (item : α) : Option (Bool × Pool α × Nat) := do
  let (node, s) ← allocIndex N s
  if node = 0 then return (false, s, tail)
  let s ← wrData N s node item
  if tail = 0 then
    let s ← wrNext N s node node
    return (true, s, node)
  else
    let head ← rdNext N s tail
    let s ← wrNext N s node head
    let s ← wrNext N s tail node
    return (true, s, tail)

/-- `append_tail(q, item)` lib/h/ce/pool.h:152-181 -/
def appendTail (s : Pool α) (tail : Nat) (item : α) : Option (Bool × Pool α × Nat) := do
  let (node, s) ← allocIndex N s
  if node = 0 then return (false, s, tail)
  let s ← wrData N s node item
  if tail = 0 then
    let s ← wrNext N s node node
    return (true, s, node)
  else
    let head ← rdNext N s tail
    let s ← wrNext N s node head
    let s ← wrNext N s tail node
    return (true, s, node)

/-- a pool and the `tail` of every queue -/
structure St (α : Type) where
  pool : Pool α
  tail : Nat → Nat

/-- calls; `q` names a queue, `x` is a node index -/
inductive Op (α : Type) where
  | alloc
  | free (x : Nat)
  | peek (x : Nat)
  | poke (x : Nat) (v : α)
  | append (q : Nat) (v : α)
  | insert (q : Nat) (v : α)
  | remove (q : Nat)
  | head (q : Nat)
  | tail (q : Nat)
  | setHead (q : Nat) (v : α)
  | setTail (q : Nat) (v : α)
  | isEmpty (q : Nat)
  | forget (q : Nat)
  | reset

/-- results -/
inductive Out (α : Type) where
  | unit
  | node (x : Nat)
  | ok (b : Bool)
  | value (v : α)

/-- one call.  `peek`/`poke` use `data[x]` of a node; `head`/`tail` read and `setHead`/`setTail`
write through the reference that lib/h/ce/pool.h:92-93 return; `forget` is `queue_t::reset()`
lib/h/ce/pool.h:86-89; `reset` is the one of the pool. -/
def step (s : St α) : Op α → Option (Out α × St α)
  | .alloc => do
    let (x, p) ← allocIndex N s.pool
    return (.node x, { s with pool := p })
  | .free x => do
    let p ← freeIndex N s.pool x
    return (.unit, { s with pool := p })
  | .peek x => do
    let v ← rdData N s.pool x
    return (.value v, s)
  | .poke x v => do
    let p ← wrData N s.pool x v
    return (.unit, { s with pool := p })
  | .append q v => do
    let (r, p, t) ← appendTail N s.pool (s.tail q) v
    return (.ok r, { pool := p, tail := upd s.tail q t })
  | .insert q v => do
    let (r, p, t) ← insertHead N s.pool (s.tail q) v
    return (.ok r, { pool := p, tail := upd s.tail q t })
  | .remove q => do
    let (r, p, t) ← removeHead N s.pool (s.tail q)
    return (.ok r, { pool := p, tail := upd s.tail q t })
  | .head q => do
    let x ← headNode N s.pool (s.tail q)
    let v ← rdData N s.pool x
    return (.value v, s)
  | .tail q => do
    let v ← rdData N s.pool (s.tail q)
    return (.value v, s)
  | .setHead q v => do
    let x ← headNode N s.pool (s.tail q)
    let p ← wrData N s.pool x v
    return (.unit, { s with pool := p })
  | .setTail q v => do
    let p ← wrData N s.pool (s.tail q) v
    return (.unit, { s with pool := p })
  | .isEmpty q => some (.ok (s.tail q == 0), s)
  | .forget q => some (.unit, { s with tail := upd s.tail q 0 })
  | .reset => do
    let p ← reset N s.pool
    return (.unit, { s with pool := p })

/-- a history of calls -/
def run (s : St α) : List (Op α) → Option (List (Out α) × St α)
  | [] => some ([], s)
  | op :: ops => do
    let (r, s) ← step N s op
    let (rs, s) ← run s ops
    return (r :: rs, s)

end CE.Pool
