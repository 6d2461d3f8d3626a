/-!
# Model of the mutex wrappers (lib/mutex_std.cpp:28-45, lib/mutex_win32.cpp:31-46)

The locks of the platform (`std::mutex`, `std::shared_mutex`, `SRWLOCK`) are taken by their documentation:
a machine `Lock` in which misuse is undefined behaviour (`Outcome.ub`), a blocking acquire waits, and a `try` may
fail without reason.  What is modelled of the repository is which of these operations each wrapper is.
-/
namespace CE.Mutex

/-- operations of the platform's locks -/
inductive LockOp
  /-- `std::mutex()`, `std::shared_mutex()`, `InitializeSRWLock` -/
  | construct
  /-- `~mutex()`, `~shared_mutex()`; reinitialization for SRWLOCK -/
  | destroy
  /-- `try_lock`, `TryAcquireSRWLockExclusive` -/
  | tryLock
  /-- `lock`, `AcquireSRWLockExclusive` -/
  | lock
  /-- `unlock`, `ReleaseSRWLockExclusive` -/
  | unlock
  /-- `try_lock_shared`, `TryAcquireSRWLockShared` -/
  | tryLockShared
  /-- `lock_shared`, `AcquireSRWLockShared` -/
  | lockShared
  /-- `unlock_shared`, `ReleaseSRWLockShared` -/
  | unlockShared
deriving DecidableEq, Repr

/-- functions of lib/h/ce/mutex.h:63-84 -/
inductive Call
  /-- `construct_mutex` -/
  | construct
  /-- `destroy_mutex` -/
  | destroy
  /-- `try_acquire_mutex` -/
  | tryAcquire
  /-- `acquire_mutex` -/
  | acquire
  /-- `release_mutex` -/
  | release
  /-- `try_acquire_mutex_shared`, `thread_shared_mutex` only -/
  | tryAcquireShared
  /-- `acquire_mutex_shared`, `thread_shared_mutex` only -/
  | acquireShared
  /-- `release_mutex_shared`, `thread_shared_mutex` only -/
  | releaseShared
deriving DecidableEq, Repr

/-- the wrappers of `thread_shared_mutex` lib/mutex_std.cpp:36-44, lib/mutex_win32.cpp:38-45 -/
def implShared : Call → LockOp
  | .construct => .construct
  | .destroy => .destroy
  | .tryAcquire => .tryLock
  | .acquire => .lock
  | .release => .unlock
  | .tryAcquireShared => .tryLockShared
  | .acquireShared => .lockShared
  | .releaseShared => .unlockShared

/-- the wrappers of `thread_mutex` lib/mutex_std.cpp:30-34, lib/mutex_win32.cpp:32-36; there are no shared ones -/
def implMutex : Call → Option LockOp
  | .construct => some .construct
  | .destroy => some .destroy
  | .tryAcquire => some .tryLock
  | .acquire => some .lock
  | .release => some .unlock
  | _ => none

/-- a platform lock -/
structure Lock (T : Type) where
  /-- constructed -/
  live : Bool
  /-- exclusive owner -/
  excl : Option T
  /-- shared owners -/
  shared : T → Bool

/-- what an operation does -/
inductive Outcome (T : Type) where
  /-- undefined behaviour -/
  | ub
  /-- waits -/
  | blocked
  /-- completes with this lock and result -/
  | done (l : Lock T) (r : Bool)

section
variable {T : Type} [DecidableEq T]

/-- the thread owns the lock in some way -/
def Lock.owns (l : Lock T) (t : T) : Prop := l.excl = some t ∨ l.shared t = true

instance (l : Lock T) (t : T) : Decidable (l.owns t) := by unfold Lock.owns; infer_instance

/-- documented behaviour; `free` tells whether no thread owns the lock shared, `fail` that a try fails without
reason -/
noncomputable def Lock.op (l : Lock T) (t : T) (fail : Bool) : LockOp → Outcome T
  | .construct => if l.live then .ub else .done ⟨true, none, fun _ => false⟩ true
  | .destroy =>
    open Classical in
    if l.live ∧ l.excl = none ∧ ∀ u, l.shared u = false then .done { l with live := false } true else .ub
  | .tryLock =>
    open Classical in
    if l.live = false ∨ l.owns t then .ub
    else if fail = false ∧ l.excl = none ∧ ∀ u, l.shared u = false then .done { l with excl := some t } true
    else .done l false
  | .lock =>
    open Classical in
    if l.live = false ∨ l.owns t then .ub
    else if l.excl = none ∧ ∀ u, l.shared u = false then .done { l with excl := some t } true
    else .blocked
  | .unlock => if l.live ∧ l.excl = some t then .done { l with excl := none } true else .ub
  | .tryLockShared =>
    if l.live = false ∨ l.owns t then .ub
    else if fail = false ∧ l.excl = none then .done { l with shared := fun u => if u = t then true else l.shared u } true
    else .done l false
  | .lockShared =>
    if l.live = false ∨ l.owns t then .ub
    else if l.excl = none then .done { l with shared := fun u => if u = t then true else l.shared u } true
    else .blocked
  | .unlockShared =>
    if l.live ∧ l.shared t = true then .done { l with shared := fun u => if u = t then false else l.shared u } true
    else .ub
end

/-- what a client thread has obtained by the calls it made -/
inductive Hold
  /-- nothing -/
  | none
  /-- acquired -/
  | excl
  /-- acquired shared -/
  | shared
deriving DecidableEq, Repr

/-- clients and lock -/
structure St (T : Type) where
  /-- the lock -/
  lock : Lock T
  /-- whether the clients have constructed it -/
  made : Bool
  /-- what each client has -/
  hold : T → Hold
  /-- undefined behaviour has happened -/
  bad : Bool

/-- the discipline: construct first, acquire only without holding, release only what is held, destroy only when nobody
holds it -/
def Allowed {T : Type} (s : St T) (t : T) : Call → Prop
  | .construct => s.made = false
  | .destroy => s.made = true ∧ ∀ u, s.hold u = .none
  | .release => s.made = true ∧ s.hold t = .excl
  | .releaseShared => s.made = true ∧ s.hold t = .shared
  | _ => s.made = true ∧ s.hold t = .none

/-- what the client has after a call that returned `r` -/
def holdAfter (h : Hold) (r : Bool) : Call → Hold
  | .construct => h
  | .destroy => h
  | .release => .none
  | .releaseShared => .none
  | .acquire => .excl
  | .tryAcquire => if r then .excl else h
  | .acquireShared => .shared
  | .tryAcquireShared => if r then .shared else h

/-- whether the lock is constructed after a call -/
def madeAfter (m : Bool) : Call → Bool
  | .construct => true
  | .destroy => false
  | _ => m

section
variable {T : Type} [DecidableEq T]

/-- one call of one thread through the wrappers `impl` -/
inductive Step (impl : Call → Option LockOp) : St T → St T → Prop
  /-- it completes -/
  | done (s : St T) (t c o fail l r) : Allowed s t c → impl c = some o → s.lock.op t fail o = .done l r →
      Step impl s ⟨l, madeAfter s.made c, fun u => if u = t then holdAfter (s.hold t) r c else s.hold u, s.bad⟩
  /-- it is undefined -/
  | ub (s : St T) (t c o fail) : Allowed s t c → impl c = some o → s.lock.op t fail o = .ub →
      Step impl s { s with bad := true }

/-- reachable states -/
inductive Reach (impl : Call → Option LockOp) : St T → Prop
  | init (junk : Option T) (junk' : T → Bool) : Reach impl ⟨⟨false, junk, junk'⟩, false, fun _ => .none, false⟩
  | step {s s'} : Reach impl s → Step impl s s' → Reach impl s'
end

end CE.Mutex
