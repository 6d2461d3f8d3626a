import Verif.Model.SpinLock
/-!
# Runs of the spin lock, for ever
-/
namespace CE.SpinLock
open CE.Linear

variable {T A V : Type} {n : Nat} [DecidableEq T] [DecidableEq A]

/-- number of operations that took effect -/
def effects : List (Ev T (Op A V n) (Res V n)) → Nat
  | [] => 0
  | .lin _ _ _ :: tr => 1 + effects tr
  | _ :: tr => effects tr

/-- number of operations called -/
def invoked : List (Ev T (Op A V n) (Res V n)) → Nat
  | [] => 0
  | .inv _ _ :: tr => 1 + invoked tr
  | _ :: tr => invoked tr

/-- an execution without end, in which also nothing may happen -/
def Run (d : A → Fin n → V) (σ : Nat → St T A V n) : Prop :=
  Reach false d (σ 0) ∧ ∀ i, σ (i + 1) = σ i ∨ Step false (σ i) (σ (i + 1))

/-- the code of thread `t` gets ahead with a call -/
def Goes (t : T) (s s' : St T A V n) : Prop := Step false s s' ∧ s.pc t ≠ .idle ∧ s'.pc t ≠ s.pc t

/-- a buffered store of thread `t` reaches memory -/
def Drains (t : T) (s s' : St T A V n) : Prop := Step false s s' ∧ (s'.buf t).length < (s.buf t).length

/-- Weak fairness: no thread that could get ahead all the time is left out for ever, nor any store that could reach memory. -/
def Fair (σ : Nat → St T A V n) : Prop :=
  ∀ t i, (∃ j, i ≤ j ∧ (Goes t (σ j) (σ (j + 1)) ∨ ¬ ∃ s', Goes t (σ j) s')) ∧
    ∃ j, i ≤ j ∧ (Drains t (σ j) (σ (j + 1)) ∨ ¬ ∃ s', Drains t (σ j) s')

/-- thread `t` has called an operation that did not take effect yet -/
def Pending (s : St T A V n) (t : T) : Prop := (∀ r, s.pc t ≠ .fin r) ∧ s.pc t ≠ .idle

end CE.SpinLock
