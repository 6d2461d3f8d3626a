import Verif.Model.SpinSlots
/-!
# Model of critical sections inside critical sections

For a type whose operations take the lock, `atomic_fetch_add` and `atomic_fetch_sub` run the user's `operator+=`, `operator-=` under
the lock (lib/h/ce/atomic_msvc_x86.h:282-285, 320-323), and all operations run its copy constructor or assignment.  When these use atomics
themselves, a thread that has one slot asks for another.  Here a thread is the sequence of its acquisitions and releases of slots.
Simplified: of the memory only the slots are kept, and of the store buffers (as in Model/SpinLock) only the releases.
-/
namespace CE.SpinNest

/-- what a thread does with the slots `S` -/
inductive Ins (S : Type) where
  /-- `scope_spin_lock` lib/h/ce/atomic_msvc_x86.h:82-84, leaves when it has the slot -/
  | take (g : S)
  /-- `~scope_lock` lib/h/ce/atomic_msvc_x86.h:74-78 -/
  | give (g : S)
deriving DecidableEq

/-- state -/
structure St (S T : Type) where
  /-- the slots: not null -/
  lk : S → Bool
  /-- releases in the store buffers, oldest first -/
  buf : T → List S
  /-- what each thread has still to do -/
  code : T → List (Ins S)

variable {S T : Type} [DecidableEq S] [DecidableEq T]

/-- steps; a thread whose slot is taken has none (it goes round in the loop) -/
inductive Step : St S T → St S T → Prop
  /-- the compare-exchange, which waits until the thread's buffer is empty, finds 0 -/
  | take (s : St S T) (t g p) : s.code t = .take g :: p → s.buf t = [] → s.lk g = false →
      Step s ⟨fun h => if h = g then true else s.lk h, s.buf, fun u => if u = t then p else s.code u⟩
  /-- `lock = 0` -/
  | give (s : St S T) (t g p) : s.code t = .give g :: p →
      Step s ⟨s.lk, fun u => if u = t then s.buf t ++ [g] else s.buf u, fun u => if u = t then p else s.code u⟩
  /-- the oldest release of a thread reaches memory -/
  | flush (s : St S T) (t g b) : s.buf t = g :: b →
      Step s ⟨fun h => if h = g then false else s.lk h, fun u => if u = t then b else s.buf u, s.code⟩

/-- states reachable when thread `t` runs `prog t` -/
inductive Reach (prog : T → List (Ins S)) : St S T → Prop
  | init : Reach prog ⟨fun _ => false, fun _ => [], prog⟩
  | step {s s'} : Reach prog s → Step s s' → Reach prog s'

end CE.SpinNest
