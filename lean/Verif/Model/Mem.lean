/-!
# Flat memory of characters

Pointers into one array are modelled by natural number indices.  A store updates one cell.
-/
namespace CE

/-- A character array of unknown extent: index to content.  Bounds are stated in the theorems as
"which cells may differ from the initial content". -/
abbrev Mem := Nat → Char

/-- `b[i] = c` -/
def Mem.write (m : Mem) (i : Nat) (c : Char) : Mem := fun j => if j = i then c else m j

end CE
