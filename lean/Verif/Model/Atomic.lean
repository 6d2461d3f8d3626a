import Verif.Spec.Linear
/-!
# Model of how an atomic operation of lib/h/ce/atomic_msvc_x86.h is carried out

First, which code the templates pick for a type (lines 89-128 `atom`, `info`; 178-325 the branches).  Second, the
machine: operations on atomics that are single instructions (or compare-exchange loops), among plain reads and writes of
other variables, on x86-TSO.  A plain write goes to the store buffer of its thread; an interlocked instruction waits until the
buffer is empty.  `atomic_load` is a plain read; nothing but interlocked instructions writes to an atomic.
`_ReadWriteBarrier` only restrains the compiler, which here keeps the program order.
-/
namespace CE.Atomic
open CE.Linear

/-! ## the choice of code -/

/-- what `info<T>` asks about a type, lib/h/ce/atomic_msvc_x86.h:98-109 -/
structure Ty where
  /-- `sizeof(T)` -/
  size : Nat
  /-- `T() - T()` is an expression: `test_can_sub` -/
  canSub : Bool
  /-- `operator-(T(), T())` is an expression: `test_can_user_sub`.  It finds functions, not members. -/
  canUserSub : Bool
  /-- `T() ^ T()` is an expression: `test_can_xor` -/
  canXor : Bool
  /-- `operator^(T(), T())` is an expression: `test_can_user_xor` -/
  canUserXor : Bool
  /-- `is_ptr<T>::value` -/
  isPtr : Bool

/-- `can_cpu_sub` lib/h/ce/atomic_msvc_x86.h:108 -/
def Ty.cpuSub (t : Ty) : Bool := t.canSub && !t.canUserSub
/-- `can_cpu_xor` lib/h/ce/atomic_msvc_x86.h:109 -/
def Ty.cpuXor (t : Ty) : Bool := t.canXor && !t.canUserXor
/-- `info<T>::is_cpu` lib/h/ce/atomic_msvc_x86.h:114 -/
def Ty.isCpu (t : Ty) : Bool := t.cpuSub
/-- `info<T>::is_fpu` lib/h/ce/atomic_msvc_x86.h:115 -/
def Ty.isFpu (t : Ty) : Bool := t.cpuSub && !t.cpuXor && !t.isPtr
/-- `info<T>::is_mem` lib/h/ce/atomic_msvc_x86.h:116 -/
def Ty.isMem (t : Ty) : Bool := t.size &&& (t.size - 1) == 0 && decide (t.size ≤ 16)
/-- `info<T>::is_m8` and so on lib/h/ce/atomic_msvc_x86.h:118-122, by bytes -/
def Ty.isM (t : Ty) (n : Nat) : Bool := t.size == n
/-- `info<T>::is_i8` and so on lib/h/ce/atomic_msvc_x86.h:124-128, by bytes -/
def Ty.isI (t : Ty) (n : Nat) : Bool := t.isM n && t.isCpu && !t.isFpu

/-- the operations -/
inductive Kind where
  | load | store | exchange | compareExchange | fetchAdd | fetchSub
  deriving DecidableEq

/-- how an operation is carried out -/
inductive Path where
  /-- a plain read -/
  | plain
  /-- one instruction that exchanges -/
  | xchg
  /-- one instruction that compares and exchanges -/
  | cmpxchg
  /-- one instruction that adds -/
  | xadd
  /-- a loop around a compare-exchange -/
  | loop
  /-- under the spin lock -/
  | lock
  /-- does not compile: `atom_t<16>` is an array, which cannot be copied -/
  | illFormed
  /-- reaches the end of the function without a return -/
  | noReturn
  deriving DecidableEq

/-- `atomic_load` lib/h/ce/atomic_msvc_x86.h:178-192 -/
def Ty.load (t : Ty) : Path := if t.isCpu then .plain else .lock

/-- `atomic_store` lib/h/ce/atomic_msvc_x86.h:194-209 and `atomic_exchange` lines 211-228 -/
def Ty.exchange (t : Ty) : Path :=
  if t.isM 1 then .xchg else if t.isM 2 then .xchg else if t.isM 4 then .xchg else if t.isM 8 then .xchg else .lock

/-- `atomic_compare_exchange` lib/h/ce/atomic_msvc_x86.h:230-249 -/
def Ty.compareExchange (t : Ty) : Path :=
  if t.isMem then
    if t.isM 1 then .cmpxchg else if t.isM 2 then .cmpxchg else if t.isM 4 then .cmpxchg else if t.isM 8 then .cmpxchg
    else .illFormed
  else .noReturn

/-- `atomic_fetch_add` lib/h/ce/atomic_msvc_x86.h:251-287 and `atomic_fetch_sub` lines 289-325 -/
def Ty.fetch (t : Ty) : Path :=
  if t.isI 1 then .xadd else if t.isI 2 then .xadd else if t.isI 4 then .xadd else if t.isI 8 then .xadd
  else if t.isMem then
    if t.isM 1 then .loop else if t.isM 2 then .loop else if t.isM 4 then .loop else if t.isM 8 then .loop
    else .illFormed
  else .lock

/-- the code of an operation -/
def Ty.path (t : Ty) : Kind → Path
  | .load => t.load
  | .store => t.exchange
  | .exchange => t.exchange
  | .compareExchange => t.compareExchange
  | .fetchAdd => t.fetch
  | .fetchSub => t.fetch

/-! ## arithmetic of the instruction that adds -/

/-- `_InterlockedExchangeAdd(&a.atom, v)`: new contents and result -/
def xadd {w : Nat} (cell v : BitVec w) : BitVec w × BitVec w := (cell + v, cell)

/-- `atomic_fetch_add` of an integer of `w` bits, `as_atom<T>{ T{ } + n }` lib/h/ce/atomic_msvc_x86.h:253-260 -/
def fetchAddInt {w : Nat} (cell : BitVec w) (n : Int) : BitVec w × BitVec w := xadd cell (BitVec.ofInt w (0 + n))
/-- `atomic_fetch_sub` of an integer, `as_atom<T>{ T{ } - n }` lib/h/ce/atomic_msvc_x86.h:291-298; `T{ } - n` of a signed type
of 32 or 64 bits (the others are computed in `int`) must not overflow -/
def fetchSubInt {w : Nat} (signed : Bool) (cell : BitVec w) (n : Int) : Option (BitVec w × BitVec w) :=
  if signed = true ∧ 32 ≤ w ∧ ¬ (-2 ^ (w - 1) ≤ 0 - n ∧ 0 - n < 2 ^ (w - 1)) then none
  else some (xadd cell (BitVec.ofInt w (0 - n)))
/-- `atomic_fetch_add` of a pointer to elements of `stride` bytes, where `T{ } + n` is a pointer -/
def fetchAddPtr (stride : Nat) (cell : BitVec 64) (n : Int) : BitVec 64 × BitVec 64 :=
  xadd cell (BitVec.ofInt 64 (0 + n * stride))
/-- `atomic_fetch_sub` of a pointer -/
def fetchSubPtr (stride : Nat) (cell : BitVec 64) (n : Int) : BitVec 64 × BitVec 64 :=
  xadd cell (BitVec.ofInt 64 (0 - n * stride))
/-- `atomic_fetch_add` of a class of two 16-bit numbers (low and high half) whose operators are members, so that `info` takes
it for an integer; `T{ } + n` is the user's sum -/
def fetchAddPair (cell n : BitVec 32) : BitVec 32 × BitVec 32 := xadd cell n

/-! ## the machine -/

/-- operations on the atomic `a`; `fetch a f` is `atomic_fetch_add`, `atomic_fetch_sub` with `f` for `+= n`, `-= n` -/
inductive Op (A V : Type) where
  | load (a : A)
  | store (a : A) (v : V)
  | exchange (a : A) (v : V)
  | cas (a : A) (expected v : V)
  | fetch (a : A) (f : V → V)

/-- results -/
inductive Res (V : Type) where
  /-- of a store -/
  | unit
  /-- of load, exchange, fetch -/
  | val (v : V)
  /-- of a compare-exchange: what is returned and what `expected` is afterwards -/
  | cas (ok : Bool) (expected : V)

/-- where a thread is -/
inductive Pc (A V : Type) where
  /-- outside -/
  | idle
  /-- at the start of an operation -/
  | start (o : Op A V)
  /-- in the loop of a fetch, with expectation `b` -/
  | loop (a : A) (f : V → V) (b : V)
  /-- about to return -/
  | fin (r : Res V)

/-- what is seen of a step -/
inductive Lab (T A V L : Type) where
  /-- a call, effect or return of an atomic operation -/
  | op (e : Ev T (Op A V) (Res V))
  /-- a plain write of a variable -/
  | write (t : T) (x : L) (v : V)
  /-- a plain read of a variable -/
  | read (t : T) (x : L) (v : V)
  /-- a round of a loop in vain -/
  | again (t : T)
  /-- a store reaching memory -/
  | flush (t : T)
  /-- anything else -/
  | quiet (t : T)

/-- state: `at'` the atomics and `mem` the other variables in memory -/
structure St (T A V L : Type) where
  at' : A → V
  mem : L → V
  buf : T → List (L × V)
  pc : T → Pc A V

section
variable {T A V L : Type} [DecidableEq T] [DecidableEq A] [DecidableEq V] [DecidableEq L]

/-- change at one place -/
def put {X Y : Type} [DecidableEq X] (f : X → Y) (a : X) (y : Y) : X → Y := fun b => if b = a then y else f b

/-- a variable as a thread with buffer `b` sees it: the newest buffered store, or else memory -/
def view (mem : L → V) (b : List (L × V)) : L → V := b.foldl (fun m e => put m e.1 e.2) mem

/-- `_InterlockedCompareExchange(&a, n, p)`: previous contents and new ones -/
def cmpxchg (cell n p : V) : V × V := (cell, if cell = p then n else cell)

/-- the single instruction of an operation: new contents and result -/
def single : Op A V → V → V × Res V
  | .load _, c => (c, .val c)
  | .store _ v, _ => (v, .unit)
  | .exchange _ v, c => (v, .val c)
  | .cas _ b v, c =>
    let n := cmpxchg c v b
    (n.2, .cas (decide (n.1 = b)) n.1)
  | .fetch _ f, c => (f c, .val c)

/-- the atomic of an operation -/
def Op.obj : Op A V → A
  | .load a => a
  | .store a _ => a
  | .exchange a _ => a
  | .cas a _ _ => a
  | .fetch a _ => a

/-- whether the instruction is interlocked -/
def Op.locked : Op A V → Bool
  | .load _ => false
  | _ => true

/-- steps -/
inductive Step : St T A V L → Lab T A V L → St T A V L → Prop
  /-- a plain write -/
  | write (s t x v) : s.pc t = .idle →
      Step s (.write t x v) { s with buf := put s.buf t (s.buf t ++ [(x, v)]) }
  /-- a plain read -/
  | read (s t x) : s.pc t = .idle → Step s (.read t x (view s.mem (s.buf t) x)) s
  /-- the oldest buffered store of a thread reaches memory -/
  | flush (s t e b) : s.buf t = e :: b →
      Step s (.flush t) { s with mem := put s.mem e.1 e.2, buf := put s.buf t b }
  /-- a call -/
  | call (s t o) : s.pc t = .idle → Step s (.op (.inv t o)) { s with pc := put s.pc t (.start o) }
  /-- a single instruction -/
  | single (s t o) : s.pc t = .start o → (o.locked = true → s.buf t = []) →
      Step s (.op (.lin t o (single o (s.at' o.obj)).2))
        { s with at' := put s.at' o.obj (single o (s.at' o.obj)).1, pc := put s.pc t (.fin (single o (s.at' o.obj)).2) }
  /-- `for (auto b = a.atom;;)` lib/h/ce/atomic_msvc_x86.h:262 -/
  | enter (s t a f) : s.pc t = .start (.fetch a f) → Step s (.quiet t) { s with pc := put s.pc t (.loop a f (s.at' a)) }
  /-- a round that returns -/
  | done (s t a f b) : s.pc t = .loop a f b → s.buf t = [] → (cmpxchg (s.at' a) (f b) b).1 = b →
      Step s (.op (.lin t (.fetch a f) (.val (cmpxchg (s.at' a) (f b) b).1)))
        { s with at' := put s.at' a (cmpxchg (s.at' a) (f b) b).2,
                 pc := put s.pc t (.fin (.val (cmpxchg (s.at' a) (f b) b).1)) }
  /-- a round that does not -/
  | again (s t a f b) : s.pc t = .loop a f b → s.buf t = [] → (cmpxchg (s.at' a) (f b) b).1 ≠ b →
      Step s (.again t) { s with at' := put s.at' a (cmpxchg (s.at' a) (f b) b).2,
                                 pc := put s.pc t (.loop a f (cmpxchg (s.at' a) (f b) b).1) }
  /-- the return -/
  | ret (s t r) : s.pc t = .fin r → Step s (.op (.ret t r)) { s with pc := put s.pc t .idle }

/-- executions with what is seen of them -/
inductive Exec (s : St T A V L) : List (Lab T A V L) → St T A V L → Prop
  | nil : Exec s [] s
  | snoc {l s' e s''} : Exec s l s' → Step s' e s'' → Exec s (l ++ [e]) s''

/-- the beginning -/
def St.init (at' : A → V) (mem : L → V) : St T A V L := ⟨at', mem, fun _ => [], fun _ => .idle⟩
end

end CE.Atomic
