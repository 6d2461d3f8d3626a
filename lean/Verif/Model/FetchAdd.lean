import Verif.Spec.Linear
/-!
# Model of the atomic operations on one location
(lib/h/ce/atomic_std.h:60-80, lib/h/ce/atomic_msvc_x86.h:178-325)

Any number of threads `T` call operations on one atomic of values (bit patterns) `V`.  A successful
compare-exchange is one atomic read-modify-write.  Plain loads and failed compare-exchanges are allowed
to yield any value whatsoever: stale (relaxed order), torn (a 64-bit read on 32-bit x86), spurious.
Not modelled: arithmetic of `T` itself (`u += n` is any function of `u`), types without `==`.
-/
namespace CE.FetchAdd
open CE.Linear

/-- operations: `atomic_fetch_add(a, n)` and `atomic_fetch_sub(a, n)` are `fetch` of `(· += n)`, `(· -= n)` -/
inductive Op (V : Type) where
  /-- `atomic_fetch_add` / `atomic_fetch_sub` -/
  | fetch (f : V → V)
  /-- `atomic_exchange`, `atomic_store` (whose result is ignored) -/
  | exchange (v : V)

/-- outcome of a round of the loop -/
inductive Round (V : Type) where
  /-- `return` -/
  | result (r : V)
  /-- next round, with this expectation -/
  | again (e : V)

section
variable {V : Type} [DecidableEq V]

/-- `compare_exchange_weak(e, n)`: whether it succeeded, the new `e`, the new contents. `spurious` makes it fail, `seen`
is what a failure sees -/
def casWeak (mem e n : V) (spurious : Bool) (seen : V) : Bool × V × V :=
  if mem = e ∧ spurious = false then (true, e, n) else (false, seen, mem)

/-- `_InterlockedCompareExchange(&a, n, p)`: the previous contents and the new ones -/
def interlockedCas (mem n p : V) : V × V :=
  (mem, if mem = p then n else mem)

/-- the loop body lib/h/ce/atomic_std.h:67-69 (and 77-79) -/
def stdRound (f : V → V) (mem e : V) (spurious : Bool) (seen : V) : Round V × V :=
  let n := e
  let n := f n
  let c := casWeak mem e n spurious seen
  if c.1 then (.result c.2.1, c.2.2) else (.again c.2.1, c.2.2)

/-- the loop body lib/h/ce/atomic_msvc_x86.h:261-279 (and 299-317) -/
def msvcRound (f : V → V) (mem b : V) : Round V × V :=
  let p := b
  let u := b
  let b := f u
  let c := interlockedCas mem b p
  if c.1 = p then (.result c.1, c.2) else (.again c.1, c.2)
end

/-- where a thread is -/
inductive Pc (V : Type) where
  /-- between calls -/
  | idle
  /-- at the start of an operation -/
  | start (o : Op V)
  /-- in the loop, with expectation `e` -/
  | loop (f : V → V) (e : V)
  /-- about to return -/
  | fin (r : V)

/-- the state: contents, threads, history -/
structure St (T V : Type) where
  /-- contents of the atomic -/
  mem : V
  /-- threads -/
  pc : T → Pc V
  /-- history -/
  tr : List (Ev T (Op V) V)

section
variable {T V : Type} [DecidableEq T] [DecidableEq V]

/-- thread `t` moves to `p` -/
def setPc (pc : T → Pc V) (t : T) (p : Pc V) : T → Pc V := fun s => if s = t then p else pc s

/-- after a round: return (the effect happened) or go on -/
def after (s : St T V) (t : T) (f : V → V) (r : Round V × V) : St T V :=
  match r.1 with
  | .result v => ⟨r.2, setPc s.pc t (.fin v), s.tr ++ [.lin t (.fetch f) v]⟩
  | .again e => ⟨r.2, setPc s.pc t (.loop f e), s.tr⟩

/-- one step of one thread -/
inductive Step : St T V → St T V → Prop
  /-- a call -/
  | call (s t o) : s.pc t = .idle → Step s ⟨s.mem, setPc s.pc t (.start o), s.tr ++ [.inv t o]⟩
  /-- the first load; any value -/
  | load (s t f e) : s.pc t = .start (.fetch f) → Step s ⟨s.mem, setPc s.pc t (.loop f e), s.tr⟩
  /-- a round of the loop, std -/
  | std (s t f e spurious seen) : s.pc t = .loop f e → Step s (after s t f (stdRound f s.mem e spurious seen))
  /-- a round of the loop, MSVC -/
  | msvc (s t f e) : s.pc t = .loop f e → Step s (after s t f (msvcRound f s.mem e))
  /-- `fetch_add` where the type has one: a single instruction -/
  | direct (s t f) : s.pc t = .start (.fetch f) →
      Step s ⟨f s.mem, setPc s.pc t (.fin s.mem), s.tr ++ [.lin t (.fetch f) s.mem]⟩
  /-- `exchange`: a single instruction -/
  | exchange (s t v) : s.pc t = .start (.exchange v) →
      Step s ⟨v, setPc s.pc t (.fin s.mem), s.tr ++ [.lin t (.exchange v) s.mem]⟩
  /-- the return -/
  | ret (s t r) : s.pc t = .fin r → Step s ⟨s.mem, setPc s.pc t .idle, s.tr ++ [.ret t r]⟩

/-- states reachable from contents `v` -/
inductive Reach (v : V) : St T V → Prop
  | init : Reach v ⟨v, fun _ => .idle, []⟩
  | step {s s'} : Reach v s → Step s s' → Reach v s'
end

end CE.FetchAdd
