/-! What sorting means: strict weak orders, sorted lists, stability. -/
namespace CE

/-- the requirement C++ puts on `operator<` for sorting -/
structure StrictWeak {α : Type} (lt : α → α → Bool) : Prop where
  irrefl : ∀ a, lt a a = false
  trans : ∀ a b c, lt a b = true → lt b c = true → lt a c = true
  negtrans : ∀ a b c, lt a b = true → lt a c = true ∨ lt c b = true

/-- content of `[a, b)` as a list -/
def slice {α : Type} (m : Nat → α) (a b : Nat) : List α := (List.range' a (b - a)).map m

/-- no element is less than an earlier one -/
def Sorted {α : Type} (lt : α → α → Bool) (l : List α) : Prop :=
  l.Pairwise fun x y => lt y x = false

/-- `x` and `y` are equivalent -/
def equiv {α : Type} (lt : α → α → Bool) (x y : α) : Bool := !lt x y && !lt y x

/-- outside `[a, b)` nothing changed -/
def SameOutside {α : Type} (a b : Nat) (m m' : Nat → α) : Prop :=
  ∀ i, ¬ (a ≤ i ∧ i < b) → m' i = m i

end CE
