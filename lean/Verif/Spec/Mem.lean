import Verif.Model.Mem
namespace CE

/-- Specification of "the text `l` is placed at index `b`, and nothing else changed". -/
def place (m : Mem) (b : Nat) (l : List Char) : Mem :=
  fun j => if b ≤ j ∧ j < b + l.length then l.getD (j - b) ' ' else m j

end CE
