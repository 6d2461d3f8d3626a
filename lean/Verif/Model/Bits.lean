import Verif.Model.Atomic
/-!
# Model of the compare-exchange of lib/h/ce/atomic_std.h and lib/h/ce/atomic_msvc_x86.h, by bits

`Model/Atomic.lean` has the atomics hold values.  Here they hold representations: the bits of the object, of which `val` is
the value.  A value can have several (padding).  The processor compares bits.  The loops are those of atomic_std.h, which
are weaker than those of atomic_msvc_x86.h (lines 261-280, 299-318): the first load is relaxed, and the compare-exchange may
fail for no reason.

Simplified: a relaxed load may give any bits at all; the other variables of the program are left out (C90 has them).
-/
namespace CE.Bits
open CE.Linear CE.Atomic

/-- where a thread is; `b` the bits expected -/
inductive Pc (A R V : Type) where
  /-- outside -/
  | idle
  /-- at the start of an operation -/
  | start (o : Op A V)
  /-- in the loop of a fetch -/
  | loop (a : A) (f : V → V) (b : R)
  /-- about to return -/
  | fin (r : Res V)

/-- what is seen of a step -/
inductive Lab (T A V : Type) where
  /-- a call, effect or return -/
  | op (e : Ev T (Op A V) (Res V))
  /-- a round of a loop in vain, the bits being others than those expected -/
  | again (t : T)
  /-- a round in vain for no reason -/
  | spurious (t : T)
  /-- anything else -/
  | quiet (t : T)

/-- state: the bits of the atomics, and the threads -/
structure St (T A R V : Type) where
  at' : A → R
  pc : T → Pc A R V

section
variable {T A R V : Type} [DecidableEq T] [DecidableEq A] [DecidableEq R]

/-- The strong compare-exchange: `compare_exchange_strong(expected, v)` lib/h/ce/atomic_std.h:56, and
lib/h/ce/atomic_msvc_x86.h:230-249.  `p` are the bits of `expected`, `n` those of `v`: the new bits, what is returned, and the
bits of `expected` afterwards. -/
def casBits (cell p n : R) : R × Bool × R := if cell = p then (n, true, cell) else (cell, false, cell)

/-- steps; a value handed over has some representation -/
inductive Step (val : R → V) : St T A R V → Lab T A V → St T A R V → Prop
  /-- a call -/
  | call (s t o) : s.pc t = .idle → Step val s (.op (.inv t o)) { s with pc := put s.pc t (.start o) }
  /-- `atomic_load` lib/h/ce/atomic_std.h:53 -/
  | load (s t a) : s.pc t = .start (.load a) →
      Step val s (.op (.lin t (.load a) (.val (val (s.at' a))))) { s with pc := put s.pc t (.fin (.val (val (s.at' a)))) }
  /-- `atomic_store` lib/h/ce/atomic_std.h:54 -/
  | store (s t a v n) : s.pc t = .start (.store a v) → val n = v →
      Step val s (.op (.lin t (.store a v) .unit)) { s with at' := put s.at' a n, pc := put s.pc t (.fin .unit) }
  /-- `atomic_exchange` lib/h/ce/atomic_std.h:55 -/
  | exchange (s t a v n) : s.pc t = .start (.exchange a v) → val n = v →
      Step val s (.op (.lin t (.exchange a v) (.val (val (s.at' a)))))
        { s with at' := put s.at' a n, pc := put s.pc t (.fin (.val (val (s.at' a)))) }
  /-- `atomic_compare_exchange` lib/h/ce/atomic_std.h:56 -/
  | cas (s t a e v p n) : s.pc t = .start (.cas a e v) → val p = e → val n = v →
      Step val s
        (.op (.lin t (.cas a e v) (.cas (casBits (s.at' a) p n).2.1 (val (casBits (s.at' a) p n).2.2))))
        { s with at' := put s.at' a (casBits (s.at' a) p n).1,
                 pc := put s.pc t (.fin (.cas (casBits (s.at' a) p n).2.1 (val (casBits (s.at' a) p n).2.2))) }
  /-- `T e = a.atom.load(std::memory_order_relaxed)` lib/h/ce/atomic_std.h:67, 78 -/
  | enter (s t a f b) : s.pc t = .start (.fetch a f) → Step val s (.quiet t) { s with pc := put s.pc t (.loop a f b) }
  /-- a round that returns, lib/h/ce/atomic_std.h:68-69, 79-80 -/
  | done (s t a f b n) : s.pc t = .loop a f b → val n = f (val b) → (casBits (s.at' a) b n).2.1 = true →
      Step val s (.op (.lin t (.fetch a f) (.val (val b))))
        { s with at' := put s.at' a (casBits (s.at' a) b n).1, pc := put s.pc t (.fin (.val (val b))) }
  /-- a round that does not -/
  | again (s t a f b n) : s.pc t = .loop a f b → val n = f (val b) → (casBits (s.at' a) b n).2.1 = false →
      Step val s (.again t)
        { s with at' := put s.at' a (casBits (s.at' a) b n).1, pc := put s.pc t (.loop a f (casBits (s.at' a) b n).2.2) }
  /-- a round of `compare_exchange_weak` that fails though the bits agree -/
  | spurious (s t a f b) : s.pc t = .loop a f b → s.at' a = b →
      Step val s (.spurious t) { s with pc := put s.pc t (.loop a f (s.at' a)) }
  /-- the return -/
  | ret (s t r) : s.pc t = .fin r → Step val s (.op (.ret t r)) { s with pc := put s.pc t .idle }

/-- executions with what is seen of them -/
inductive Exec (val : R → V) (s : St T A R V) : List (Lab T A V) → St T A R V → Prop
  | nil : Exec val s [] s
  | snoc {l s' e s''} : Exec val s l s' → Step val s' e s'' → Exec val s (l ++ [e]) s''

/-- the beginning -/
def St.init (d : A → R) : St T A R V := ⟨d, fun _ => .idle⟩

/-- The caller's loop `while (!atomic_compare_exchange(a, e, v));` while nobody else writes: whether it has ended after `n`
rounds.  `copy i` is what becomes of bits when the object is copied: in lib/h/ce/atomic_msvc_x86.h:235 (`as_atom<T>{ b }`)
and 246 (`b = as_data<T>{ n }.as`). -/
def retry (copy : Nat → R → R) (cell : R) : Nat → R → Bool
  | 0, _ => false
  | n + 1, e =>
    let r := casBits cell (copy (2 * n + 1) e) cell
    if r.2.1 then true else retry copy cell n (copy (2 * n) r.2.2)
end

end CE.Bits
