import Mathlib.Logic.Function.Basic
/-!
# Model of the io visitor (lib/h/ce/io.h:60-128)

A reflected type is described by a tree; `io<IO>::item` walks it and calls the handlers of the derived class `IO`.
The handlers get references, so a handler may change an atom or a size (that is how a reader works); this is modelled
by handlers returning the new value.  `none` is undefined behaviour (an element outside its array), or a handler that
gives up.
-/
namespace CE.Io

/-- reflected types; `obj` holds a chain of named members -/
inductive Ty
  /-- the primary `reflection<T>`: `io.atom(data)` -/
  | atom
  /-- `T[N]`, and `vec<N, T>` which is visited as `T[N]` -/
  | arr (n : Nat) (t : Ty)
  /-- `list<T, N>` -/
  | list (cap : Nat) (t : Ty)
  /-- a class bound by `CE_IO_BIND` (and `vec<2, T>`, with members "x" and "y") -/
  | obj (members : Ty)
  /-- no more members -/
  | nil
  /-- a member and the remaining ones -/
  | member (name : String) (t rest : Ty)

/-- the values of a type whose atoms are values of `A` -/
def Val (A : Type) : Ty → Type
  | .atom => A
  | .arr n t => Fin n → Val A t
  | .list cap t => Nat × (Fin cap → Val A t)
  | .obj m => Val A m
  | .nil => Unit
  | .member _ t rest => Val A t × Val A rest

/-- the derived class: `σ` is its state -/
structure Handler (A σ : Type) where
  /-- `atom(data)` -/
  atom : A → σ → Option (A × σ)
  /-- `enter_array(size, dynamic)` -/
  enterArray : Nat → Bool → σ → Option (Nat × σ)
  /-- `leave_array(size, dynamic)` -/
  leaveArray : Nat → Bool → σ → Option (Nat × σ)
  /-- `name(text)` -/
  name : String → σ → Option σ
  /-- `enter_class()` -/
  enterClass : σ → Option σ
  /-- `leave_class()` -/
  leaveClass : σ → Option σ

/-- `for (size_t i = 0; i < size; ++i) item(data[i]);` lib/h/ce/io.h:79-80, 104-105, with `k` rounds to go -/
def loop {α σ : Type} {cap : Nat} (f : α → σ → Option (α × σ)) :
    Nat → Nat → (Fin cap → α) → σ → Option ((Fin cap → α) × σ)
  | 0, _, d, s => some (d, s)
  | k + 1, i, d, s =>
    if h : i < cap then do
      let r ← f (d ⟨i, h⟩) s
      loop f k (i + 1) (Function.update d ⟨i, h⟩ r.1) r.2
    else none

/-- `item(data)` for each type.
`atom`: lib/h/ce/io.h:60-63, 68-72.
`arr`: lib/h/ce/io.h:74-82, 116-119; `size` is a local initialised with `N`.
`list`: lib/h/ce/io.h:100-107, 110-113.
`obj`: `items(names, data...)` lib/h/ce/io.h:91-97, 121-128.
`member`: `item(name, data)` lib/h/ce/io.h:84-89, and the fold at 95.
`CE_IO_AS(T, U)` (line 129) visits a `T` as a `U`, so it needs no case of its own. -/
def item {A σ : Type} (io : Handler A σ) : (t : Ty) → Val A t → σ → Option (Val A t × σ)
  | .atom, a, s => io.atom a s
  | .arr n t, d, s => do
    let e ← io.enterArray n false s
    let r ← loop (item io t) e.1 0 d e.2
    let l ← io.leaveArray e.1 false r.2
    some (r.1, l.2)
  | .list _ t, d, s => do
    let e ← io.enterArray d.1 true s
    let r ← loop (item io t) e.1 0 d.2 e.2
    let l ← io.leaveArray e.1 true r.2
    some ((l.1, r.1), l.2)
  | .obj m, d, s => do
    let s1 ← io.enterClass s
    let r ← item io m d s1
    let s2 ← io.leaveClass r.2
    some (r.1, s2)
  | .nil, d, s => some (d, s)
  | .member name t rest, d, s => do
    let s1 ← io.name name s
    let r ← item io t d.1 s1
    let q ← item io rest d.2 r.2
    some ((r.1, q.1), q.2)

end CE.Io
