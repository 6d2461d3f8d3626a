/-!
# Specification of z-order codes, cells and rectangles
-/
namespace CE.Zorder

/-- the number formed by the bits of `c` at even positions: the x coordinate -/
def cx (c : Nat) : Nat := if h : c = 0 then 0 else 2 * cx (c / 4) + c % 2
termination_by c
decreasing_by omega

/-- the number formed by the bits of `c` at odd positions: the y coordinate -/
def cy (c : Nat) : Nat := cx (c / 2)

/-- `c` lies in the rectangle with corners `a` and `b` -/
def InBox (a b c : Nat) : Prop := cx a ≤ cx c ∧ cx c ≤ cx b ∧ cy a ≤ cy c ∧ cy c ≤ cy b

instance (a b c : Nat) : Decidable (InBox a b c) := by unfold InBox; infer_instance

/-- the cell of an item: codes carry 16 bits of other data -/
def cell (z : Nat) : Nat := z / 2 ^ 16

end CE.Zorder
