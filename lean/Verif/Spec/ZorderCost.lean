import Mathlib.Data.Finset.Card
import Mathlib.Data.Finset.Filter
import Mathlib.Order.Interval.Finset.Nat
import Verif.Spec.Zorder
/-!
# Where the codes of a rectangle begin anew
-/
namespace CE.ZorderCost
open CE.Zorder

/-- a cell of the rectangle whose predecessor in the order of codes is outside: a run of consecutive codes begins -/
def Enters (L H c : Nat) : Prop := InBox L H c ∧ (c = 0 ∨ ¬ InBox L H (c - 1))

instance (L H c : Nat) : Decidable (Enters L H c) := by unfold Enters; infer_instance

/-- the beginnings of the runs of consecutive codes the rectangle consists of -/
def entries (L H : Nat) : Finset Nat := (Finset.range (H + 1)).filter (Enters L H)

end CE.ZorderCost
