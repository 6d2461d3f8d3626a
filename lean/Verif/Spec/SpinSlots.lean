import Verif.Model.SpinSlots
/-!
# Runs of all spin locks together, for ever
-/
namespace CE.SpinSlots
open CE.Linear CE.SpinLock

variable {S T A V : Type} {n : Nat} [DecidableEq S] [DecidableEq T] [DecidableEq A]

/-- number of operations on objects of slot `g` that took effect -/
def effectsOn (slot : A → S) (g : S) : List (Ev T (Op A V n) (Res V n)) → Nat
  | [] => 0
  | .lin _ o _ :: tr => (if slot o.obj = g then 1 else 0) + effectsOn slot g tr
  | _ :: tr => effectsOn slot g tr

/-- number of operations on objects of slot `g` called -/
def invokedOn (slot : A → S) (g : S) : List (Ev T (Op A V n) (Res V n)) → Nat
  | [] => 0
  | .inv _ o :: tr => (if slot o.obj = g then 1 else 0) + invokedOn slot g tr
  | _ :: tr => invokedOn slot g tr

/-- an execution without end, in which also nothing may happen -/
def Run (slot : A → S) (d : A → Fin n → V) (σ : Nat → St S T A V n) : Prop :=
  Reach slot d (σ 0) ∧ ∀ i, σ (i + 1) = σ i ∨ Step slot (σ i) (σ (i + 1))

/-- the code of thread `t` gets ahead with a call -/
def Goes (slot : A → S) (t : T) (s s' : St S T A V n) : Prop := Step slot s s' ∧ s.pc t ≠ .idle ∧ s'.pc t ≠ s.pc t

/-- a buffered store of thread `t` reaches memory -/
def Drains (slot : A → S) (t : T) (s s' : St S T A V n) : Prop := Step slot s s' ∧ (s'.buf t).length < (s.buf t).length

/-- Weak fairness: no thread that could get ahead all the time is left out for ever, nor any store that could reach memory. -/
def Fair (slot : A → S) (σ : Nat → St S T A V n) : Prop :=
  ∀ t i, (∃ j, i ≤ j ∧ (Goes slot t (σ j) (σ (j + 1)) ∨ ¬ ∃ s', Goes slot t (σ j) s')) ∧
    ∃ j, i ≤ j ∧ (Drains slot t (σ j) (σ (j + 1)) ∨ ¬ ∃ s', Drains slot t (σ j) s')

/-- the operation a thread is busy with, until it takes effect -/
def busyWith : Pc A V n → Option (Op A V n)
  | .spin o => some o
  | .pause o => some o
  | .copy o _ _ => some o
  | .write o _ _ _ => some o
  | .leave o _ => some o
  | _ => none

end CE.SpinSlots
