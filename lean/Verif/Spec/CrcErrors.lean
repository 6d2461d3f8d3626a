import Verif.Spec.Crc
import Mathlib.Data.Finset.Range
import Mathlib.Data.Finset.Filter
/-! Transmission errors. -/
namespace CE.Crc

/-- bit `i` of a message, least significant bit of each byte first -/
def bitAt (m : List (BitVec 8)) (i : Nat) : Bool := (m.getD (i / 8) 0).getLsbD (i % 8)

/-- the positions at which two messages of the same length differ -/
def errors (a b : List (BitVec 8)) : Finset Nat := (Finset.range (8 * a.length)).filter fun i => bitAt a i ≠ bitAt b i

end CE.Crc
