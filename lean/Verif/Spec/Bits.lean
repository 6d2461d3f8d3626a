import Verif.Model.Bits
import Verif.Spec.Atomic
/-!
# What the operations on atomics are to do, in values
-/
namespace CE.Bits
open CE.Linear CE.Atomic

section
variable {T A V : Type} [DecidableEq A]

/-- An effect on the values: `s` before, `s'` after.  A compare-exchange that succeeds found the value expected; one that
fails changes nothing.  Both hand back the value found. -/
def Effect (o : Op A V) (s s' : A → V) (r : Res V) : Prop :=
  match o with
  | .load a => s' = s ∧ r = .val (s a)
  | .store a v => s' = (fun b => if b = a then v else s b) ∧ r = .unit
  | .exchange a v => s' = (fun b => if b = a then v else s b) ∧ r = .val (s a)
  | .cas a e v => (s a = e ∧ s' = (fun b => if b = a then v else s b) ∧ r = .cas true e) ∨ (s' = s ∧ r = .cas false (s a))
  | .fetch a f => s' = (fun b => if b = a then f (s a) else s b) ∧ r = .val (s a)

/-- The effects, one after the other. -/
inductive Replay (s : A → V) : List (Ev T (Op A V) (Res V)) → (A → V) → Prop
  | nil : Replay s [] s
  | inv {tr s' t o} : Replay s tr s' → Replay s (tr ++ [.inv t o]) s'
  | ret {tr s' t r} : Replay s tr s' → Replay s (tr ++ [.ret t r]) s'
  | lin {tr s' t o r s''} : Replay s tr s' → Effect o s' s'' r → Replay s (tr ++ [.lin t o r]) s''

/-- calls, effects and returns -/
def calls : List (Lab T A V) → List (Ev T (Op A V) (Res V))
  | [] => []
  | .op e :: l => e :: calls l
  | _ :: l => calls l

/-- number of rounds of thread `t` in vain for a reason -/
def vain [DecidableEq T] (t : T) : List (Lab T A V) → Nat
  | [] => 0
  | .again u :: l => (if u = t then 1 else 0) + vain t l
  | _ :: l => vain t l

/-- number of effects of threads other than `t` -/
def others [DecidableEq T] (t : T) : List (Lab T A V) → Nat
  | [] => 0
  | .op (.lin u _ _) :: l => (if u = t then 0 else 1) + others t l
  | _ :: l => others t l

/-- number of calls of thread `t` -/
def begun [DecidableEq T] (t : T) : List (Lab T A V) → Nat
  | [] => 0
  | .op (.inv u _) :: l => (if u = t then 1 else 0) + begun t l
  | _ :: l => begun t l
end

/-- `==` of binary32 (IEEE 754): a NaN equals nothing, the two zeros are equal, and otherwise the bits decide. -/
def ieeeEq (a b : BitVec 32) : Bool :=
  let nan (x : BitVec 32) : Bool := (x &&& 0x7fffffff#32).toNat > 0x7f800000
  !nan a && !nan b && (a == b || (a &&& 0x7fffffff#32) == 0#32 && (b &&& 0x7fffffff#32) == 0#32)

/-- a class of a `char` and a `short`, of which eight bits are padding: members -/
def members (r : BitVec 32) : BitVec 8 × BitVec 16 := (r.extractLsb' 0 8, r.extractLsb' 16 16)

end CE.Bits
