import Verif.Model.Mem
/-! Reading a decimal numeral back: independent inverse of integer to text. -/
namespace CE.ToText

/-- value of a string of decimal digits -/
def readNat (l : List Char) : Nat := l.foldl (fun a c => 10 * a + (c.toNat - 48)) 0

/-- value of an optionally signed decimal numeral -/
def readDec : List Char → Int
  | '-' :: l => -(readNat l : Int)
  | l => readNat l

/-- the `n` characters of the memory starting at `b` -/
def textAt (m : Mem) (b n : Nat) : List Char := (List.range n).map fun k => m (b + k)

end CE.ToText
