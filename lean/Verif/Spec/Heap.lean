import Verif.Model.Heap
import Mathlib.Data.Multiset.ZeroCons
/-! A bounded priority queue as a multiset. -/
namespace CE.Heap

variable {α : Type} (lt : α → α → Bool)

/-- one call on the abstract queue `M` of capacity `N`: allowed result and new content -/
inductive SpecStep (N : Nat) : Multiset α → Op α → Out α → Multiset α → Prop where
  | enqueue (M : Multiset α) (x : α) (h : Multiset.card M < N) :
      SpecStep N M (.enqueue x) (.enqueued true) (x ::ₘ M)
  | full (M : Multiset α) (x : α) (h : Multiset.card M = N) :
      SpecStep N M (.enqueue x) (.enqueued false) M
  | dequeue (M : Multiset α) (x : α) (hmin : ∀ y ∈ M, lt y x = false) :
      SpecStep N (x ::ₘ M) .dequeue (.dequeued x) M

/-- a history of calls on the abstract queue -/
inductive SpecRun (N : Nat) : Multiset α → List (Op α) → List (Out α) → Multiset α → Prop where
  | nil (M : Multiset α) : SpecRun N M [] [] M
  | cons {M M' M'' : Multiset α} {op : Op α} {ops : List (Op α)} {r : Out α} {rs : List (Out α)}
      (h : SpecStep lt N M op r M') (hs : SpecRun N M' ops rs M'') :
      SpecRun N M (op :: ops) (r :: rs) M''

/-- number of elements after a history starting with `n`; `none` if `dequeue` is called when empty -/
def depth (N : Nat) : Nat → List (Op α) → Option Nat
  | n, [] => some n
  | n, .enqueue _ :: ops => depth N (if n < N then n + 1 else n) ops
  | 0, .dequeue :: _ => none
  | n + 1, .dequeue :: ops => depth N n ops

end CE.Heap
