import Verif.Spec.FloatText
import Verif.Model.AsStringVec
/-!
# Model of `to_text` for floating point numbers (lib/to_text.cpp:28-31, 49-50)

The library hands the work to `std::to_chars`, which is a parameter here (`chars`); the contract it is held to is in
`Spec/FloatText.lean`.
-/
namespace CE.FloatText

open ToText (NUL)

/-- characters stored one after the other -/
def put (m : Mem) (b : Nat) : List Char → Mem
  | [] => m
  | c :: s => put (m.write b c) (b + 1) s

/-- `std::to_chars(first, last, value).ptr`: when the text does not fit, `last`, and what was stored is not specified
(`junk`).  The characters from `first` to `last` must belong to the array, which ends at `size`. -/
def toChars (chars : Fl → List Char) (junk : Mem → Mem) (size : Nat) (m : Mem) (first last : Nat) (x : Fl) :
    Option (Mem × Nat) :=
  if last ≤ size then
    if (chars x).length ≤ last - first then some (put m first (chars x), first + (chars x).length) else some (junk m, last)
  else none

/-- `to_text(char[], float)`, `to_text(char[], double)` lib/to_text.cpp:49-50, with the macro of line 30 -/
def toTextFl (chars : Fl → List Char) (junk : Mem → Mem) (size : Nat) (m : Mem) (b : Nat) (x : Fl) : Option (Mem × Nat) :=
  toChars chars junk size m b (b + 32) x

/-! ## `as_string` -/

/-- arguments of `as_string`: those without floating point, a `double` or `float`, and a `vec` of these.  Which of the two
formats is meant makes no difference to the code; `w` says it is a `double`. -/
inductive FArg where
  /-- neither -/
  | old (a : ToText.VArg)
  /-- a number -/
  | real (w : Bool) (x : Fl)
  /-- a `vec` -/
  | vec (w : Bool) (xs : List Fl)

section
variable (chars : Bool → Fl → List Char) (junk : Mem → Mem)

/-- the loop of `to_text_n` lib/h/ce/ce.h:994-995, `p` the separator -/
def toTextFlLoop (w : Bool) (size : Nat) (m : Mem) (b : Nat) (p : String) : List Fl → Option (Mem × Nat)
  | [] => some (m, b)
  | v :: vs => do
    let (m, b) ← ToText.toTextP m b (ToText.lit p)
    let (m, b) ← toTextFl (chars w) junk size m b v
    toTextFlLoop w size m b ", " vs

/-- `to_text_n` lib/h/ce/ce.h:989-998 -/
def toTextFlN (w : Bool) (size : Nat) (m : Mem) (b : Nat) (vs : List Fl) : Option (Mem × Nat) := do
  let (m, b) ← ToText.toTextChar m b '['
  let (m, b) ← toTextFlLoop chars junk w size m b "" vs
  ToText.toTextChar m b ']'

/-- `to_text_m` lib/h/ce/ce.h:1044-1055 -/
def toTextMF (size : Nat) (m : Mem) (b : Nat) : FArg → Option (Mem × Nat)
  | .old a => ToText.toTextMV m b a
  | .real w x => toTextFl (chars w) junk size m b x
  | .vec w xs => toTextFlN chars junk w size m b xs

/-- `measure<T>::value` lib/h/ce/ce.h:1025-1042: floating point numbers and `vec` have none of their own -/
def FArg.measure : FArg → Nat
  | .old a => a.measure
  | .real _ _ => 1024
  | .vec _ _ => 1024

/-- size of the array `as`, lib/h/ce/ce.h:1059 -/
def asStringFSize (args : List FArg) : Nat := (args.map FArg.measure).sum + 1

/-- the fold in the `as_string` constructor, lib/h/ce/ce.h:1061-1065 -/
def toTextMFs (size : Nat) (m : Mem) (b : Nat) : List FArg → Option (Mem × Nat)
  | [] => some (m, b)
  | a :: as => do
    let (m, b) ← toTextMF chars junk size m b a
    toTextMFs size m b as

/-- `as_string(values...)` lib/h/ce/ce.h:1057-1066 -/
def asStringF (m : Mem) (args : List FArg) : Option Mem := do
  let (m, p) ← toTextMFs chars junk (asStringFSize args) m 0 args
  return m.write p NUL
end

end CE.FloatText
