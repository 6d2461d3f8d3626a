import Verif.Model.SpinLock
/-!
# Model of all the spin locks together (lib/h/ce/atomic_msvc_x86.h:67-87)

`Model/SpinLock` has one slot of `locks` and the objects that hash to it.  Here are all slots `S` and all objects `A`;
`slot` says where an object's lock is.  A thread has one store buffer for all of them.  Only types whose every operation takes the
lock (any size but 1, 2, 4, 8).
-/
namespace CE.SpinSlots
open CE.Linear CE.SpinLock

/-- a buffered store -/
inductive Ent (S A V : Type) (n : Nat) where
  /-- `lock = 0` -/
  | unlock (g : S)
  /-- a word of an object -/
  | word (a : A) (i : Fin n) (v : V)

/-- state -/
structure St (S T A V : Type) (n : Nat) where
  /-- the slots in memory: not null -/
  lk : S → Bool
  /-- the objects in memory -/
  data : A → Fin n → V
  /-- store buffers, oldest first -/
  buf : T → List (Ent S A V n)
  /-- threads -/
  pc : T → Pc A V n
  /-- history -/
  tr : List (Ev T (Op A V n) (Res V n))

section
variable {S T A V : Type} {n : Nat} [DecidableEq S] [DecidableEq T] [DecidableEq A]

/-- a store reaching memory: words -/
def Ent.put (d : A → Fin n → V) : Ent S A V n → A → Fin n → V
  | .unlock _ => d
  | .word a i v => fun b j => if b = a ∧ j = i then v else d b j

/-- a store reaching memory: the slots -/
def Ent.putLk (l : S → Bool) : Ent S A V n → S → Bool
  | .unlock g => fun h => if h = g then false else l h
  | .word _ _ _ => l

/-- the words as a thread with buffer `b` sees them -/
def view (d : A → Fin n → V) (b : List (Ent S A V n)) : A → Fin n → V := b.foldl Ent.put d

/-- the slots as a thread with buffer `b` sees them -/
def viewLk (l : S → Bool) (b : List (Ent S A V n)) : S → Bool := b.foldl Ent.putLk l

/-- steps, as in `Model/SpinLock` -/
inductive Step (slot : A → S) : St S T A V n → St S T A V n → Prop
  /-- a call -/
  | call (s : St S T A V n) (t o) : s.pc t = .idle →
      Step slot s { s with pc := set s.pc t (.spin o), tr := s.tr ++ [.inv t o] }
  /-- `_InterlockedCompareExchangePointer(spin, spin, 0)` finds 0: locked -/
  | lock (s : St S T A V n) (t o junk) : s.pc t = .spin o → s.buf t = [] → s.lk (slot o.obj) = false →
      Step slot s { s with lk := fun g => if g = slot o.obj then true else s.lk g, pc := set s.pc t (o.enter junk) }
  /-- the compare-exchange fails -/
  | busy (s : St S T A V n) (t o) : s.pc t = .spin o → s.buf t = [] → s.lk (slot o.obj) = true →
      Step slot s { s with pc := set s.pc t (.pause o) }
  /-- `while (*spin != 0)`, still locked -/
  | waiting (s : St S T A V n) (t o) : s.pc t = .pause o → viewLk s.lk (s.buf t) (slot o.obj) = true → Step slot s s
  /-- `while (*spin != 0)`, free -/
  | retry (s : St S T A V n) (t o) : s.pc t = .pause o → viewLk s.lk (s.buf t) (slot o.obj) = false →
      Step slot s { s with pc := set s.pc t (.spin o) }
  /-- copy a word to `u` -/
  | copy (s : St S T A V n) (t o k u) (hk : k < n) : s.pc t = .copy o k u →
      Step slot s { s with pc := set s.pc t (.copy o (k + 1)
        (fun i => if i = ⟨k, hk⟩ then view s.data (s.buf t) o.obj ⟨k, hk⟩ else u i)) }
  /-- all words copied -/
  | copied (s : St S T A V n) (t o k u) : s.pc t = .copy o k u → ¬ k < n →
      Step slot s { s with pc := set s.pc t (o.copied u) }
  /-- write a word -/
  | write (s : St S T A V n) (t o k u w) (hk : k < n) : s.pc t = .write o k u w →
      Step slot s { s with pc := set s.pc t (.write o (k + 1) u w),
                           buf := set s.buf t (s.buf t ++ [.word o.obj ⟨k, hk⟩ (w ⟨k, hk⟩)]) }
  /-- all words written -/
  | written (s : St S T A V n) (t o k u w) : s.pc t = .write o k u w → ¬ k < n →
      Step slot s { s with pc := set s.pc t (.leave o u) }
  /-- `lock = 0`; from here on the operation counts as done -/
  | leave (s : St S T A V n) (t o u) : s.pc t = .leave o u →
      Step slot s { s with pc := set s.pc t (.fin (o.res u)), buf := set s.buf t (s.buf t ++ [.unlock (slot o.obj)]),
                           tr := s.tr ++ [.lin t o (o.res u)] }
  /-- the return -/
  | ret (s : St S T A V n) (t r) : s.pc t = .fin r →
      Step slot s { s with pc := set s.pc t .idle, tr := s.tr ++ [.ret t r] }
  /-- the oldest buffered store of a thread reaches memory -/
  | flush (s : St S T A V n) (t e b) : s.buf t = e :: b →
      Step slot s { s with lk := e.putLk s.lk, data := e.put s.data, buf := set s.buf t b }

/-- states reachable from contents `d` -/
inductive Reach (slot : A → S) (d : A → Fin n → V) : St S T A V n → Prop
  | init : Reach slot d ⟨fun _ => false, d, fun _ => [], fun _ => .idle, []⟩
  | step {s s'} : Reach slot d s → Step slot s s' → Reach slot d s'

/-- the slot whose critical section the thread is in -/
def within (slot : A → S) : Pc A V n → Option S
  | .copy o _ _ => some (slot o.obj)
  | .write o _ _ _ => some (slot o.obj)
  | .leave o _ => some (slot o.obj)
  | _ => none
end

/-- `&locks[255 & (static_cast<void**>(p) - static_cast<void**>(0))]` lib/h/ce/atomic_msvc_x86.h:81: the index for an object at
an address, with pointers of `w` bytes -/
def index (w : Nat) (address : Nat) : Nat := 255 &&& (address / w)

end CE.SpinSlots
