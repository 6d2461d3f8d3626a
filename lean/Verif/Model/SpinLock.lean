import Verif.Spec.Linear
/-!
# Model of the spin lock and of the atomics built on it
(lib/h/ce/atomic_msvc_x86.h:67-87 `scope_spin_lock`; 178-325 the operations)

One slot of `locks`, the objects `A` whose addresses hash to it (`255 & (address / 8)`), any number of
threads `T`.  An object is `n` words of `V`, copied word by word.  Memory is x86-TSO: a plain store goes
to the thread's store buffer, from which it reaches memory later; a load sees the thread's own
buffered stores; an interlocked instruction waits until the thread's buffer is empty and acts on
memory at once.  `_ReadWriteBarrier` only restrains the compiler, which here keeps the program order.
Not modelled: other slots (each is its own such machine), user code in `operator+=` calling atomics.
-/
namespace CE.SpinLock
open CE.Linear

/-- operations on an object of `n` words; `fetch f` is `atomic_fetch_add` / `atomic_fetch_sub` -/
inductive Op (A V : Type) (n : Nat) where
  /-- `atomic_load` lib/h/ce/atomic_msvc_x86.h:178-192 -/
  | load (a : A)
  /-- `atomic_store` lib/h/ce/atomic_msvc_x86.h:194-209 -/
  | store (a : A) (b : Fin n → V)
  /-- `atomic_exchange` lib/h/ce/atomic_msvc_x86.h:211-228 -/
  | exchange (a : A) (b : Fin n → V)
  /-- `atomic_fetch_add`, `atomic_fetch_sub` lib/h/ce/atomic_msvc_x86.h:280-286, 318-324 -/
  | fetch (a : A) (f : (Fin n → V) → (Fin n → V))

/-- results; a store has none -/
abbrev Res (V : Type) (n : Nat) := Option (Fin n → V)

section
variable {A V : Type} {n : Nat}

/-- the object -/
def Op.obj : Op A V n → A
  | .load a => a
  | .store a _ => a
  | .exchange a _ => a
  | .fetch a _ => a

/-- whether the code under the lock copies the object to `u` -/
def Op.reads : Op A V n → Bool
  | .store _ _ => false
  | _ => true

/-- what the code under the lock writes, given `u`. For `a.data += n` the operator is taken to read the object as it
was copied to `u`, under the same lock. -/
def Op.new : Op A V n → (Fin n → V) → Option (Fin n → V)
  | .load _, _ => none
  | .store _ b, _ => some b
  | .exchange _ b, _ => some b
  | .fetch _ f, u => some (f u)

/-- what is returned -/
def Op.res : Op A V n → (Fin n → V) → Res V n
  | .store _ _, _ => none
  | _, u => some u
end

/-- a buffered store -/
inductive Ent (A V : Type) (n : Nat) where
  /-- `lock = 0` -/
  | unlock
  /-- a word of an object -/
  | word (a : A) (i : Fin n) (v : V)

/-- where a thread is -/
inductive Pc (A V : Type) (n : Nat) where
  /-- between calls -/
  | idle
  /-- at the compare-exchange on the slot -/
  | spin (o : Op A V n)
  /-- in the inner loop, waiting for the slot to look free -/
  | pause (o : Op A V n)
  /-- under the lock, `u` copied below word `k` -/
  | copy (o : Op A V n) (k : Nat) (u : Fin n → V)
  /-- under the lock, `w` written below word `k`; `u` as copied -/
  | write (o : Op A V n) (k : Nat) (u w : Fin n → V)
  /-- in the destructor of the scope lock -/
  | leave (o : Op A V n) (u : Fin n → V)
  /-- lock released, about to return -/
  | fin (r : Res V n)

/-- the critical section -/
def Pc.inside {A V : Type} {n : Nat} : Pc A V n → Bool
  | .copy .. => true
  | .write .. => true
  | .leave .. => true
  | _ => false

/-- state -/
structure St (T A V : Type) (n : Nat) where
  /-- the slot in memory: not null -/
  lk : Bool
  /-- the objects in memory -/
  data : A → Fin n → V
  /-- store buffers, oldest first -/
  buf : T → List (Ent A V n)
  /-- threads -/
  pc : T → Pc A V n
  /-- history -/
  tr : List (Ev T (Op A V n) (Res V n))

section
variable {T A V : Type} {n : Nat} [DecidableEq T] [DecidableEq A]

/-- change at one thread -/
def set {X : Type} (f : T → X) (t : T) (x : X) : T → X := fun s => if s = t then x else f s

/-- a store reaching memory: words -/
def Ent.put (d : A → Fin n → V) : Ent A V n → A → Fin n → V
  | .unlock => d
  | .word a i v => fun b j => if b = a ∧ j = i then v else d b j

/-- a store reaching memory: the slot -/
def Ent.putLk (l : Bool) : Ent A V n → Bool
  | .unlock => false
  | .word _ _ _ => l

/-- the words as a thread with buffer `b` sees them -/
def view (d : A → Fin n → V) (b : List (Ent A V n)) : A → Fin n → V := b.foldl Ent.put d

/-- the slot as a thread with buffer `b` sees it -/
def viewLk (l : Bool) (b : List (Ent A V n)) : Bool := b.foldl Ent.putLk l

/-- where the code continues once it has the lock -/
def Op.enter (o : Op A V n) (junk : Fin n → V) : Pc A V n :=
  if o.reads then .copy o 0 junk else
  match o.new junk with
  | none => .leave o junk
  | some w => .write o 0 junk w

/-- where the code continues once `u` is copied -/
def Op.copied (o : Op A V n) (u : Fin n → V) : Pc A V n :=
  match o.new u with
  | none => .leave o u
  | some w => .write o 0 u w

/-- steps; `small` says that the type has 1, 2, 4 or 8 bytes, for which `atomic_store` and `atomic_exchange` use one
interlocked instruction instead of the lock (and fetch_add a compare-exchange loop, not repeated here) -/
inductive Step (small : Bool) : St T A V n → St T A V n → Prop
  /-- a call -/
  | call (s : St T A V n) (t o) : s.pc t = .idle →
      Step small s { s with pc := set s.pc t (.spin o), tr := s.tr ++ [.inv t o] }
  /-- `_InterlockedCompareExchangePointer(spin, spin, 0)` finds 0: locked -/
  | lock (s : St T A V n) (t o junk) : s.pc t = .spin o → s.buf t = [] → s.lk = false →
      (small = true → ∃ a, o = .load a) →
      Step small s { s with lk := true, pc := set s.pc t (o.enter junk) }
  /-- the compare-exchange fails -/
  | busy (s : St T A V n) (t o) : s.pc t = .spin o → s.buf t = [] → s.lk = true →
      Step small s { s with pc := set s.pc t (.pause o) }
  /-- `while (*spin != 0)`, still locked -/
  | waiting (s : St T A V n) (t o) : s.pc t = .pause o → viewLk s.lk (s.buf t) = true → Step small s s
  /-- `while (*spin != 0)`, free -/
  | retry (s : St T A V n) (t o) : s.pc t = .pause o → viewLk s.lk (s.buf t) = false →
      Step small s { s with pc := set s.pc t (.spin o) }
  /-- copy a word to `u` -/
  | copy (s : St T A V n) (t o k u) (hk : k < n) : s.pc t = .copy o k u →
      Step small s { s with pc := set s.pc t (.copy o (k + 1)
        (fun i => if i = ⟨k, hk⟩ then view s.data (s.buf t) o.obj ⟨k, hk⟩ else u i)) }
  /-- all words copied -/
  | copied (s : St T A V n) (t o k u) : s.pc t = .copy o k u → ¬ k < n →
      Step small s { s with pc := set s.pc t (o.copied u) }
  /-- write a word -/
  | write (s : St T A V n) (t o k u w) (hk : k < n) : s.pc t = .write o k u w →
      Step small s { s with pc := set s.pc t (.write o (k + 1) u w),
                            buf := set s.buf t (s.buf t ++ [.word o.obj ⟨k, hk⟩ (w ⟨k, hk⟩)]) }
  /-- all words written -/
  | written (s : St T A V n) (t o k u w) : s.pc t = .write o k u w → ¬ k < n →
      Step small s { s with pc := set s.pc t (.leave o u) }
  /-- `lock = 0`; from here on the operation counts as done -/
  | leave (s : St T A V n) (t o u) : s.pc t = .leave o u →
      Step small s { s with pc := set s.pc t (.fin (o.res u)), buf := set s.buf t (s.buf t ++ [.unlock]),
                            tr := s.tr ++ [.lin t o (o.res u)] }
  /-- the return -/
  | ret (s : St T A V n) (t r) : s.pc t = .fin r →
      Step small s { s with pc := set s.pc t .idle, tr := s.tr ++ [.ret t r] }
  /-- the oldest buffered store of a thread reaches memory -/
  | flush (s : St T A V n) (t e b) : s.buf t = e :: b →
      Step small s { s with lk := e.putLk s.lk, data := e.put s.data, buf := set s.buf t b }
  /-- `_InterlockedExchange64` and the like, for small types -/
  | interlocked (s : St T A V n) (t o w) : small = true → s.pc t = .spin o → s.buf t = [] → (∃ a, o = .store a w ∨ o = .exchange a w) →
      Step small s { s with data := fun b i => if b = o.obj then w i else s.data b i,
                            pc := set s.pc t (.fin (o.res (s.data o.obj))),
                            tr := s.tr ++ [.lin t o (o.res (s.data o.obj))] }

/-- states reachable from contents `d` -/
inductive Reach (small : Bool) (d : A → Fin n → V) : St T A V n → Prop
  | init : Reach small d ⟨false, d, fun _ => [], fun _ => .idle, []⟩
  | step {s s'} : Reach small d s → Step small s s' → Reach small d s'
end

end CE.SpinLock
