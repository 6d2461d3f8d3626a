import Verif.Model.Bitset
/-! The value last stored for an index by a history of calls. -/
namespace CE.Bitset

/-- the value this call stores for index `i`, if any -/
def Op.stores (i : Nat) : Op → Option Bool
  | .setAll => some true
  | .resetAll => some false
  | .set j => if j = i then some true else none
  | .reset j => if j = i then some false else none
  | .put j b => if j = i then some b else none

/-- the index argument of the call is below `N` -/
def Op.InRange (N : Nat) : Op → Prop
  | .set j | .reset j | .put j _ => j < N
  | _ => True

/-- the value last stored for `i`, `init` if there is none -/
def lastStored (init : Bool) (i : Nat) (ops : List Op) : Bool :=
  ((ops.filterMap (Op.stores i)).getLast?).getD init

end CE.Bitset
