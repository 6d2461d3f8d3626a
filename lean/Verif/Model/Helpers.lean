import Verif.Model.TypeList
/-!
# Model of `rotl32` and of `get` on small structures (lib/h/ce/ce.h:76-79, 385-435)

For `get` the program is the template code, so what is modelled is the compiler: which function a call finds, and
which member it returns.  `none` is undefined behaviour for `rotl32` and an ill-formed program for `get`.
-/
namespace CE.Helpers

/-- `x << s`, undefined from 32 on -/
def shl32 (x : BitVec 32) (s : Nat) : Option (BitVec 32) := if s < 32 then some (x <<< s) else none
/-- `x >> s`, undefined from 32 on -/
def shr32 (x : BitVec 32) (s : Nat) : Option (BitVec 32) := if s < 32 then some (x >>> s) else none

/-- `detail::rotl32` lib/h/ce/ce.h:76-79; `i & 31` of an `int` in two's complement is the remainder -/
def rotl32 (x : BitVec 32) (i : Int) : Option (BitVec 32) := do
  let s := (i % 32).toNat
  return (← shl32 x s) ||| (← shr32 x (32 - s))

/-- an aggregate, as far as `get` sees it: its members, in order -/
abbrev Agg (α : Type) := List α

/-- `detail::has_arrity<T, N>` lib/h/ce/ce.h:401-407: `T{any, …, any}` with N initialisers is well-formed for an aggregate
with at least N members, each of which takes an `any` -/
def hasArity {α : Type} (t : Agg α) (n : Nat) : Bool := n ≤ t.length

/-- `detail::arrity_count<T>` lib/h/ce/ce.h:410-416: leading `true`s of `has_arrity<T, 1>` … `has_arrity<T, 5>` -/
def arityCount {α : Type} (t : Agg α) : Nat :=
  CE.TypeList.countLeading true ((List.range 5).map fun n => hasArity t (n + 1))

/-- `detail::get(items<size_t, N>, ts...)` lib/h/ce/ce.h:418-419 -/
def pick {α : Type} : Nat → List α → Option α
  | 0, t :: _ => some t
  | n + 1, _ :: ts => pick n ts
  | _, [] => none

/-- what a declaration named `get` accepts -/
structure Decl where
  /-- the number of arguments it can be called with -/
  takes : Nat → Bool

/-- a scope: is it a class, and its declarations of `get` -/
structure Scope where
  /-- declarations found here are class members -/
  isClass : Bool
  /-- the declarations named `get` -/
  decls : List Decl

/-- the scopes seen from the body of `crack<T, N, k>::get` lib/h/ce/ce.h:421-425, innermost first: the class with its
static `get(T)`, then namespace `detail` with the two templates of lines 421-422 -/
def scopes : List Scope :=
  [⟨true, [⟨fun n => n == 1⟩]⟩, ⟨false, [⟨fun n => 2 ≤ n⟩, ⟨fun n => 2 ≤ n⟩]⟩]

/-- unqualified name lookup: the declarations of the innermost scope that has one.  Lookup by argument types adds
nothing here: it is not done when a class member is found, and the arguments (`items` and members of the
aggregate) do not bring in `detail`. -/
def lookup : List Scope → Option Scope
  | [] => none
  | s :: ss => if s.decls.isEmpty then lookup ss else some s

/-- the scope of the function a call with `n` arguments resolves to, if one of those found takes them -/
def resolve (ss : List Scope) (n : Nat) : Option Scope := do
  let s ← lookup ss
  if s.decls.any (·.takes n) then some s else none

/-- `get<N>(t)` with structured bindings lib/h/ce/ce.h:421-425 and 435: `crack` has bodies for one to four members and is
deleted otherwise -/
def getBindings {α : Type} (n : Nat) (t : Agg α) : Option α :=
  let k := arityCount t
  if 1 ≤ k ∧ k ≤ 4 then
    match resolve scopes (k + 1) with
    | some ⟨false, _⟩ => pick n t
    | _ => none
  else none

/-- `get<N>(t)` without structured bindings lib/h/ce/ce.h:427-431 and 435, for a `tuple` of the given members: they are
named `_0` to `_3`, and for other N `crack` is deleted -/
def getNamed {α : Type} (n : Nat) (t : Agg α) : Option α :=
  if n < 4 ∧ t.length ≤ 4 then t[n]? else none

end CE.Helpers
