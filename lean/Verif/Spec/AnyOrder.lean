import Verif.Spec.Sort
import Verif.Spec.Heap
/-! Comparisons that are not an order: what can still be asked of sorting and of queues. -/
namespace CE

/-- `lt` is a strict weak order among the values in `S` -/
structure StrictWeakOn {α : Type} (S : α → Prop) (lt : α → α → Bool) : Prop where
  irrefl : ∀ a, S a → lt a a = false
  trans : ∀ a b c, S a → S b → S c → lt a b = true → lt b c = true → lt a c = true
  negtrans : ∀ a b c, S a → S b → S c → lt a b = true → lt a c = true ∨ lt c b = true

namespace Heap

/-- one call on a bag of capacity `N`: `enqueue` fails exactly when it is full, `dequeue` takes out some
element -/
inductive BagStep {α : Type} (N : Nat) : Multiset α → Op α → Out α → Multiset α → Prop where
  | enqueue (M : Multiset α) (x : α) (h : Multiset.card M < N) :
      BagStep N M (.enqueue x) (.enqueued true) (x ::ₘ M)
  | full (M : Multiset α) (x : α) (h : Multiset.card M = N) :
      BagStep N M (.enqueue x) (.enqueued false) M
  | dequeue (M : Multiset α) (x : α) : BagStep N (x ::ₘ M) .dequeue (.dequeued x) M

/-- a history of calls on a bag -/
inductive BagRun {α : Type} (N : Nat) : Multiset α → List (Op α) → List (Out α) → Multiset α → Prop where
  | nil (M : Multiset α) : BagRun N M [] [] M
  | cons {M M' M'' : Multiset α} {op : Op α} {ops : List (Op α)} {r : Out α} {rs : List (Out α)}
      (h : BagStep N M op r M') (hs : BagRun N M' ops rs M'') : BagRun N M (op :: ops) (r :: rs) M''

/-- the values put into the queue are in `S` -/
def Op.In {α : Type} (S : α → Prop) : Op α → Prop
  | .enqueue x => S x
  | .dequeue => True

end Heap
end CE
