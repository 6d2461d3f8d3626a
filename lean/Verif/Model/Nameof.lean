/-!
# Model of nameof / as_enum (lib/h/ce/nameof.h:33-143)

A `char` is its code; an array is a list, which for texts includes the terminating 0.  `none` is a read
outside an array.  What the compiler writes into `__PRETTY_FUNCTION__` is a parameter: a fixed text `pre`,
then the template argument as the compiler writes it, then a fixed text `suf`.
-/
namespace CE.Nameof

/-- `same` lib/h/ce/nameof.h:33-38 -/
def same : List Nat → List Nat → Option Nat
  | a :: as, b :: bs => if a ≠ b ∨ a = 0 then some 0 else (same as bs).map (· + 1)
  | _, _ => none

/-- the loop of `skip` lib/h/ce/nameof.h:42-44, from index `n` -/
def skipLoop (what : Nat) : Nat → List Nat → Option Nat
  | _, [] => none
  | n, c :: cs =>
    if c = 0 then some 0
    else if c = what then
      match cs with
      | [] => none
      | d :: _ => if d ≠ what then some (n + 1) else skipLoop what (n + 1) cs
    else skipLoop what (n + 1) cs

/-- `skip` lib/h/ce/nameof.h:40-46 -/
def skip (what : Nat) (text : List Nat) : Option Nat := skipLoop what 0 text

/-- `const_text<N>(text)` lib/h/ce/nameof.h:48-58: copies `N + 1` characters, then ends the text -/
def constText (n : Nat) (text : List Nat) : Option (List Nat) :=
  if n + 1 ≤ text.length then some (text.take n ++ [0]) else none

/-- what the compiler does -/
structure Compiler where
  /-- `__PRETTY_FUNCTION__` up to the argument -/
  pre : List Nat
  /-- and after it -/
  suf : List Nat
  /-- how it writes the enumerator of value `v`, or the value if there is none -/
  item : Nat → List Nat

/-- `name<void, N>()` with the argument written `r` lib/h/ce/nameof.h:60; `name<void>()` is `pretty []` -/
def Compiler.pretty (c : Compiler) (r : List Nat) : List Nat := c.pre ++ r ++ c.suf ++ [0]

/-- `skip_item` lib/h/ce/nameof.h:63 -/
def Compiler.skipItem (c : Compiler) : Option Nat := same (c.pretty [48]) (c.pretty [])

/-- `name_item<N>` lib/h/ce/nameof.h:65 -/
def Compiler.nameItem (c : Compiler) (v : Nat) : Option (List Nat) := do
  let k ← c.skipItem
  constText ((c.pretty (c.item v)).length - (c.pretty []).length) ((c.pretty (c.item v)).drop k)

/-- `nameof<T, N>`: `is_known` and `text` lib/h/ce/nameof.h:74-79 -/
def Compiler.entry (c : Compiler) (v : Nat) : Option (Bool × List Nat) := do
  let data ← c.nameItem v
  let d0 ← data.head?
  if d0 ≠ 40 then
    let k ← skip 58 data
    let text ← constText (data.length - 1 - k) (data.drop k)
    some (true, text)
  else
    let text ← constText 3 [63, 63, 63, 0]
    some (false, text)

/-- `unsigned(n)` of the value of an enumerator -/
def uns (n : Int) : Nat := (n % 2 ^ 32).toNat

/-- `nameof_enum<T, L, H>(n)` lib/h/ce/nameof.h:87-110 -/
def Compiler.nameofEnum (c : Compiler) (n : Int) (l h : Nat) : Option (List Nat) :=
  if h - l > 64 then
    let m := l + (h - l) / 2
    if uns n < m then c.nameofEnum n l m else c.nameofEnum n m h
  else if l < h then
    if uns n = l then do
      let e ← c.entry l
      if e.1 then some e.2 else some [63, 63, 63, 0]
    else c.nameofEnum n (l + 1) h
  else some [63, 63, 63, 0]
termination_by h - l

/-- `as_enum<T, L, H>(name)` lib/h/ce/nameof.h:112-135: the value when good -/
def Compiler.asEnumRange (c : Compiler) (name : List Nat) (l h : Nat) : Option (Option Nat) :=
  if h - l > 64 then do
    let m := l + (h - l) / 2
    let n ← c.asEnumRange name l m
    if n.isSome then some n else c.asEnumRange name m h
  else if l < h then do
    let e ← c.entry l
    if e.1 then
      let k ← same e.2 name
      if k = e.2.length - 1 then
        let z ← name[k]?
        if z = 0 then some (some l) else c.asEnumRange name (l + 1) h
      else c.asEnumRange name (l + 1) h
    else c.asEnumRange name (l + 1) h
  else some none
termination_by h - l

/-- `nameof(n)` lib/h/ce/nameof.h:138 -/
def Compiler.nameof (c : Compiler) (n : Int) : Option (List Nat) := c.nameofEnum n 0 256

/-- `as_enum(name, unknown)` lib/h/ce/nameof.h:139-143 -/
def Compiler.asEnum (c : Compiler) (name : List Nat) (unknown : Int) : Option Int := do
  let n ← c.asEnumRange name 0 256
  match n with
  | some v => some (v : Int)
  | none => some unknown

/-- `nameof<T>()` lib/h/ce/nameof.h:68-72 given the compiler's text of the type: what remains after `skip(' ')` -/
def typeText (t : List Nat) : Option (List Nat) := do
  let k ← skip 32 (t ++ [0])
  constText (t.length - k) ((t ++ [0]).drop k)

end CE.Nameof
