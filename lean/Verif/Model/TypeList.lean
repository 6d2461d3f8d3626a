/-!
# Model of the compile-time lists and of span

lib/h/ce/ce.h:292-316 (select, are_same, has), 372-381 (sequence), 413-414 (count_leading_t), 1199-1219 (span).
Types are elements of a type `α` with decidable equality; partial specialisations become equations.  `none` is an
ill-formed program.
-/
namespace CE.TypeList

/-- `select_t<N, Ts...>` lib/h/ce/ce.h:295-299: the primary template has no `type` -/
def select {α : Type} : Nat → List α → Option α
  | 0, t :: _ => some t
  | n + 1, _ :: ts => select n ts
  | _, [] => none

/-- `cond_t<E, Ts...>` lib/h/ce/ce.h:300 -/
def cond {α : Type} (e : Bool) (ts : List α) : Option α := select (if e then 0 else 1) ts

/-- `enable_t<E, T>` lib/h/ce/ce.h:301 -/
def enable {α : Type} (e : Bool) (t : α) : Option α := select (if e then 0 else 1) [t]

/-- `are_same_v<Ts...>` lib/h/ce/ce.h:303-306 -/
def areSame {α : Type} [DecidableEq α] : List α → Bool
  | [_] => true
  | t :: u :: ts => if t = u then areSame (t :: ts) else false
  | [] => false
termination_by l => l.length

/-- `has_v<T, Us...>` lib/h/ce/ce.h:313-316; with no arguments at all it is false too -/
def has {α : Type} [DecidableEq α] (t : α) : List α → Bool
  | [] => false
  | u :: us => if t = u then true else has t us

/-- `detail::count_leading_t<items<T, I>, items<T, Is...>>` lib/h/ce/ce.h:413-414 -/
def countLeading {α : Type} [DecidableEq α] (i : α) : List α → Nat
  | [] => 0
  | j :: js => if i = j then 1 + countLeading i js else 0

/-- `detail::sequence<T, N, B, items<As...>, items<Is...>>` lib/h/ce/ce.h:374-378, for `B` 0 or 1: the resulting
numbers and the number of templates instantiated.
For `N = 0` the specialisations of lines 377-378 are the more specialised ones. -/
def sequenceAux (n b : Nat) (as is : List Nat) : Option (List Nat × Nat) :=
  if b = 0 then
    if h : n = 0 then some (is, 1)
    else (sequenceAux (n / 2) (n % 2) (as ++ as.map (as.length + ·)) is).map (fun r => (r.1, r.2 + 1))
  else if b = 1 then
    if h : n = 0 then some (is ++ as.map (is.length + ·), 1)
    else (sequenceAux (n / 2) (n % 2) (as ++ as.map (as.length + ·)) (is ++ as.map (is.length + ·))).map (fun r => (r.1, r.2 + 1))
  else none
termination_by n
decreasing_by all_goals omega

/-- `sequence_t<T, N>` lib/h/ce/ce.h:381 -/
def sequence (n : Nat) : Option (List Nat × Nat) := sequenceAux (n / 2) (n % 2) [0] []

/-- `span<T>` lib/h/ce/ce.h:1199-1202: a size and the address (index) of the first element -/
structure Span where
  /-- number of elements -/
  size : Nat
  /-- first element -/
  data : Nat

/-- `skip(s, n)` lib/h/ce/ce.h:1210-1213 -/
def skip (s : Span) (n : Nat) : Span := if n < s.size then ⟨s.size - n, s.data + n⟩ else ⟨0, s.data⟩

/-- `trim(s, n)` lib/h/ce/ce.h:1215-1218 -/
def trim (s : Span) (n : Nat) : Span := if n < s.size then ⟨s.size - n, s.data⟩ else ⟨0, s.data⟩

/-- the elements of a span in a memory -/
def Span.elems {α : Type} (mem : Nat → α) (s : Span) : List α := (List.range s.size).map (fun i => mem (s.data + i))

end CE.TypeList
