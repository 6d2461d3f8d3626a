import Verif.Model.Log
/-!
# The format of a record, and how the error information is packed
-/
namespace CE.Log

/-- a quoted text -/
def quoted (s : List Char) : List Char := '"' :: (s ++ ['"'])

/-- `"k": "v"` -/
def pairText (p : List Char × List Char) : List Char := quoted p.1 ++ [':', ' '] ++ quoted p.2

/-- texts with commas between them -/
def commas : List (List Char) → List Char
  | [] => []
  | [s] => s
  | s :: t => s ++ [',', ' '] ++ commas t

/-- `L: { "k": "v", "k": "v" }` and a newline; `L: { }` without pairs -/
def record (l : Char) (argv : List (List Char × List Char)) : List Char :=
  l :: ([':', ' ', '{'] ++ (if argv = [] then [] else ' ' :: commas (argv.map pairText)) ++ [' ', '}', '\n'])

/-- the packed information of `_CE_ERROR`: `"\0" KIND "\0" WHAT "\0" FILELINE "\0" ARGS` and the terminating 0 -/
def packed (kind what file more : List Nat) : List Nat :=
  [0] ++ kind ++ [0] ++ what ++ [0] ++ file ++ [0] ++ more ++ [0]

end CE.Log
