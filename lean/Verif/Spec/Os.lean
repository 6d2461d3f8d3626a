import Verif.Model.Os
/-! What one expects of sleeping and of mapped files. -/
namespace CE.Os

/-- how long a call may take: `nanosleep` refuses malformed arguments at once, may be interrupted by a signal, and otherwise waits
at least the given time -/
def PosixTakes (interrupted : Bool) (ts : Timespec) (t : Nat) : Prop :=
  (0 ≤ ts.nsec ∧ ts.nsec < 1000000000 ∧ 0 ≤ ts.sec) → interrupted = false → ts.sec * 1000000000 + ts.nsec ≤ t

/-- `SleepEx` waits for the given number of milliseconds, or for ever if it is `INFINITE` (2^32 - 1): it returns after `t` -/
def WinTakes (ms : Nat) (t : Nat) : Prop := ms ≠ 2 ^ 32 - 1 ∧ ms * 1000000 ≤ t

/-- numbers in use are below the next free one -/
structure World.Fresh {P : Type} (w : World P) : Prop where
  file : ∀ n, w.next ≤ n → w.file n = none
  sect : ∀ n, w.next ≤ n → w.sect n = none
  view : ∀ n, w.next ≤ n → w.view n = none

/-- the span shows these bytes -/
def World.Shows {P : Type} (w : World P) (s : Span) (c : List UInt8) : Prop :=
  s.size = c.length ∧ ∃ a, s.data = some a ∧ w.view a = some c

end CE.Os
