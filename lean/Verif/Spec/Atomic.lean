import Verif.Model.Atomic
/-!
# What the atomic operations are to do
-/
namespace CE.Atomic
open CE.Linear

section
variable {T A V L : Type} [DecidableEq A] [DecidableEq V]

/-- The operations one at a time: the new contents of all atomics and the result. -/
def meaning : Op A V → (A → V) → (A → V) × Res V
  | .load a, s => (s, .val (s a))
  | .store a v, s => (fun b => if b = a then v else s b, .unit)
  | .exchange a v, s => (fun b => if b = a then v else s b, .val (s a))
  | .cas a e v, s => if s a = e then (fun b => if b = a then v else s b, .cas true e) else (s, .cas false (s a))
  | .fetch a f, s => (fun b => if b = a then f (s a) else s b, .val (s a))

/-- calls, effects and returns, without plain reads and writes -/
def calls : List (Lab T A V L) → List (Ev T (Op A V) (Res V))
  | [] => []
  | .op e :: l => e :: calls l
  | _ :: l => calls l

/-- number of rounds of thread `t` in vain -/
def vain [DecidableEq T] (t : T) : List (Lab T A V L) → Nat
  | [] => 0
  | .again u :: l => (if u = t then 1 else 0) + vain t l
  | _ :: l => vain t l

/-- number of effects of threads other than `t` -/
def others [DecidableEq T] (t : T) : List (Lab T A V L) → Nat
  | [] => 0
  | .op (.lin u _ _) :: l => (if u = t then 0 else 1) + others t l
  | _ :: l => others t l
end

/-- the operations of a type that are not under the spin lock -/
def Path.free : Path → Bool
  | .plain => true
  | .xchg => true
  | .cmpxchg => true
  | .xadd => true
  | .loop => true
  | _ => false

/-- No operation of the type takes the lock while another does without. -/
def Ty.Coherent (t : Ty) : Prop := ∀ k k', t.path k = .lock → (t.path k').free = false

/-- the number that `w` bits stand for, signed or not -/
def number (signed : Bool) {w : Nat} (b : BitVec w) : Int := if signed then b.toInt else b.toNat

end CE.Atomic
