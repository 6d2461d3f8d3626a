import Verif.Proof.FetchAdd
import Mathlib.Algebra.BigOperators.Group.List.Basic
/-!
# Atomic fetch-add / fetch-sub loops (C59)
-/
namespace CE.FetchAdd
open CE.Linear

variable {T V : Type} [DecidableEq T] [DecidableEq V]

/-- the sequential meaning: `fetch f` gives the old value and applies `f`; `exchange v` gives the old value and stores
`v` -/
def meaning : Op V → V → V × V
  | .fetch f, s => (f s, s)
  | .exchange v, s => (v, s)

/-- Any number of threads under any schedule, with any spurious failures and any values seen by loads and by failed
exchanges: the history is linearizable and the contents are those after the effects. -/
theorem C59_linearizable {v : V} {s : St T V} (h : Reach v s) : Linearizable meaning v s.tr s.mem := by
  have hi := inv_reach h
  have e : (meaning : Op V → V → V × V) = seqApply := by
    funext o s; cases o <;> rfl
  rw [e]
  exact ⟨hi.1, fun t => ⟨_, hi.2 t⟩⟩

/-- The contents when every operation adds: the initial value plus all that has been added, nothing lost and nothing
twice, whatever the order. -/
theorem C59_sum [AddCommMonoid V] {v : V} {s : St T V} (h : Reach v s) (ns : List V)
    (ho : effects s.tr = ns.map (fun n => Op.fetch (· + n))) : s.mem = v + ns.sum := by
  rw [replay_effects (inv_reach h).1, ho]
  clear ho
  induction ns generalizing v with
  | nil => simp
  | cons n ns ih =>
    have : ∀ (w : V), ((ns.map (fun n => Op.fetch (· + n))).foldl (fun s o => (seqApply o s).1) w) = w + ns.sum := by
      intro w
      clear ih
      induction ns generalizing w with
      | nil => simp
      | cons m ns ih => simp only [List.map_cons, List.foldl_cons, List.sum_cons]; rw [← add_assoc]; exact ih _
    simp only [List.map_cons, List.foldl_cons, List.sum_cons]
    rw [← add_assoc]; exact this _

/-- The MSVC path for integers subtracts by adding the negation. -/
theorem C59_sub_as_add {w : Nat} (a n : BitVec w) : a + (0#w - n) = a - n := by
  rw [BitVec.zero_sub, BitVec.sub_eq_add_neg]

/-- A thread that runs alone, its exchanges not failing spuriously, is done after at most two rounds, whatever its first
load returned. -/
theorem C59_solo (f : V → V) (mem e : V) :
    (msvcRound f mem e = (.result mem, f mem) ∨
      (msvcRound f mem e = (.again mem, mem) ∧ msvcRound f mem mem = (.result mem, f mem))) ∧
    (stdRound f mem e false mem = (.result mem, f mem) ∨
      (stdRound f mem e false mem = (.again mem, mem) ∧ stdRound f mem mem false mem = (.result mem, f mem))) := by
  constructor
  · unfold msvcRound interlockedCas
    by_cases h : mem = e
    · left; simp [h]
    · right; simp [h]
  · unfold stdRound casWeak
    by_cases h : mem = e
    · left; simp [h]
    · right; simp [h]

/-- two threads add 3 and 4 to 10, the second failing once: a reachable state -/
example : ∃ s : St Bool Nat, Reach 10 s ∧ s.mem = 17 ∧
    effects s.tr = [3, 4].map (fun n => Op.fetch (· + n)) := by
  have h0 : Reach (10 : Nat) (⟨10, fun _ => .idle, []⟩ : St Bool Nat) := Reach.init
  have h1 := Reach.step h0 (Step.call _ true (.fetch (· + 3)) rfl)
  have h2 := Reach.step h1 (Step.call _ false (.fetch (· + 4)) rfl)
  have h3 := Reach.step h2 (Step.load _ true (· + 3) 10 rfl)
  have h4 := Reach.step h3 (Step.load _ false (· + 4) 10 rfl)
  have h5 := Reach.step h4 (Step.std _ true (· + 3) 10 false 0 rfl)
  have h6 := Reach.step h5 (Step.msvc _ false (· + 4) 10 rfl)
  have h7 := Reach.step h6 (Step.msvc _ false (· + 4) 13 rfl)
  exact ⟨_, h7, rfl, rfl⟩

end CE.FetchAdd
