import Verif.Model.Buf
/-!
# Model of `ce::dictionary<N, T, K>` (lib/h/ce/dictionary.h:30-111)

Access outside `data[N]` and `names[N]` is `none`.  A `ptr_t` is its index, `nil` is 0.  `bind`
destroys and reconstructs `data[i]`; the model stores the new value (the arguments must not refer to
the entry itself, which is destroyed first).  `ge` is `operator>=` of the key type.
-/
namespace CE.Dictionary

/-- lib/h/ce/dictionary.h:38-42 -/
structure Dict (K V : Type) where
  size : Nat
  data : Nat → V
  heap : Nat
  names : Nat → K

variable {K V : Type} [DecidableEq K] (ge : K → K → Bool) (N : Nat)

/-- `names[i]` -/
def rdName (d : Dict K V) (i : Nat) : Option K := (Obj.mk 0 N).rd d.names i

/-- heap scan lib/h/ce/dictionary.h:48-51; `some 0` when it ends without a match.  `i > 0` holds
throughout and only shows that the loop ends. -/
def heapScan (d : Dict K V) (n : K) (i : Nat) : Option Nat :=
  if h : i < d.heap ∧ i > 0 then
    match rdName N d i with
    | none => none
    | some x => if x = n then some i else heapScan d n (i + (i + (ge x n).toNat))
  else some 0
termination_by d.heap - i

/-- linear scan lib/h/ce/dictionary.h:53-56, `left = size - i` -/
def linearScan (d : Dict K V) (n : K) : Nat → Nat → Option Nat
  | 0, _ => some 0
  | left + 1, i => do
    let x ← rdName N d i
    if x = n then return i else linearScan d n left (i + 1)

/-- `find(n)` lib/h/ce/dictionary.h:46-59; the heap scan never matches index 0 -/
def find (d : Dict K V) (n : K) : Option Nat := do
  let i ← heapScan ge N d n 1
  if i ≠ 0 then return i
  else linearScan N d n (d.size - d.heap) d.heap

/-- `bind(n, v)` lib/h/ce/dictionary.h:61-82 -/
def bind (d : Dict K V) (n : K) (v : V) : Option (Nat × Dict K V) := do
  let i ← find ge N d n
  if i = 0 then
    if d.size ≥ N then return (0, d)
    let i := d.size + (if d.size = 0 then 1 else 0)
    let names ← (Obj.mk 0 N).wr d.names i n
    let data ← (Obj.mk 0 N).wr d.data i v
    return (i, { d with size := i + 1, names := names, data := data })
  else
    let data ← (Obj.mk 0 N).wr d.data i v
    return (i, { d with data := data })

/-- `CE_ASSERT(i != 0 && i < size)` lib/h/ce/dictionary.h:87, 94, 101, 108; `none` if it fails -/
def check (d : Dict K V) (i : Nat) : Option Unit := if i ≠ 0 ∧ i < d.size then some () else none

/-- `operator[](ptr_t)` lib/h/ce/dictionary.h:84-96, for reading -/
def get (d : Dict K V) (p : Nat) : Option V := do
  check d p
  (Obj.mk 0 N).rd d.data p

/-- `operator[](ptr_t)` for writing -/
def put (d : Dict K V) (p : Nat) (v : V) : Option (Dict K V) := do
  check d p
  let data ← (Obj.mk 0 N).wr d.data p v
  return { d with data := data }

/-- `operator[](name_t)` lib/h/ce/dictionary.h:98-110 -/
def getName (d : Dict K V) (n : K) : Option V := do
  let i ← find ge N d n
  get N d i

/-- calls -/
inductive Op (K V : Type) where
  | find (n : K)
  | bind (n : K) (v : V)
  | get (p : Nat)
  | put (p : Nat) (v : V)
  | getName (n : K)

/-- results -/
inductive Out (V : Type) where
  | unit
  | ptr (p : Nat)
  | value (v : V)

/-- one call -/
def step (d : Dict K V) : Op K V → Option (Out V × Dict K V)
  | .find n => do
    let p ← find ge N d n
    return (.ptr p, d)
  | .bind n v => do
    let (p, d) ← bind ge N d n v
    return (.ptr p, d)
  | .get p => do
    let v ← get N d p
    return (.value v, d)
  | .put p v => do
    let d ← put N d p v
    return (.unit, d)
  | .getName n => do
    let v ← getName ge N d n
    return (.value v, d)

/-- a history of calls -/
def run (d : Dict K V) : List (Op K V) → Option (List (Out V) × Dict K V)
  | [] => some ([], d)
  | op :: ops => do
    let (r, d) ← step ge N d op
    let (rs, d) ← run d ops
    return (r :: rs, d)

end CE.Dictionary
