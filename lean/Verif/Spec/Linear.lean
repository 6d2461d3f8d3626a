/-!
# Linearizability, with explicit linearization points

A trace lists, in the order of time, the calls (`inv`), the returns (`ret`) and, for each call, the
moment at which it takes effect (`lin`).
-/
namespace CE.Linear

/-- events of thread `t`; `o` an operation, `r` a result -/
inductive Ev (T O R : Type) where
  /-- thread `t` calls `o` -/
  | inv (t : T) (o : O)
  /-- the call takes effect, with result `r` -/
  | lin (t : T) (o : O) (r : R)
  /-- the call returns `r` -/
  | ret (t : T) (r : R)

/-- the thread of an event -/
def Ev.tid {T O R : Type} : Ev T O R → T
  | .inv t _ => t
  | .lin t _ _ => t
  | .ret t _ => t

/-- what a thread is doing -/
inductive Phase (O R : Type) where
  /-- between calls -/
  | idle
  /-- called, not yet in effect -/
  | called (o : O)
  /-- in effect, not yet returned -/
  | done (r : R)

/-- The events of thread `t` are calls, each taking effect exactly once between call and return, and returning the
result of the effect. -/
inductive Proto {T O R : Type} (t : T) : List (Ev T O R) → Phase O R → Prop
  | nil : Proto t [] .idle
  | inv {tr o} : Proto t tr .idle → Proto t (tr ++ [.inv t o]) (.called o)
  | lin {tr o r} : Proto t tr (.called o) → Proto t (tr ++ [.lin t o r]) (.done r)
  | ret {tr r} : Proto t tr (.done r) → Proto t (tr ++ [.ret t r]) .idle
  | other {tr e ph} : e.tid ≠ t → Proto t tr ph → Proto t (tr ++ [e]) ph

/-- The effects, one after the other, are runs of the sequential operation `apply`. -/
inductive Replay {T O R S : Type} (apply : O → S → S × R) (s : S) : List (Ev T O R) → S → Prop
  | nil : Replay apply s [] s
  | inv {tr s' t o} : Replay apply s tr s' → Replay apply s (tr ++ [.inv t o]) s'
  | ret {tr s' t r} : Replay apply s tr s' → Replay apply s (tr ++ [.ret t r]) s'
  | lin {tr s' t o} : Replay apply s tr s' → Replay apply s (tr ++ [.lin t o (apply o s').2]) (apply o s').1

/-- A trace is linearizable to the sequential `apply` from `s`, ending in `s'`. -/
def Linearizable {T O R S : Type} (apply : O → S → S × R) (s : S) (tr : List (Ev T O R)) (s' : S) : Prop :=
  Replay apply s tr s' ∧ ∀ t, ∃ ph, Proto t tr ph

end CE.Linear
