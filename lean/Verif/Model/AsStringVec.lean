import Verif.Model.AsString
/-!
# Model of `as_string` with `vec` arguments (lib/h/ce/ce.h:989-1066)

A `vec` has at most four components (lines 585-590).  Inside `to_text_n` (lines 989-998) the overloads for arrays
(1000-1006) and `vec` (1008-1011) are not declared yet, and argument-dependent lookup does not find them, because they are
members of `ce` and `vec` is a member of `ce::math`; so a component that is itself a `vec` (a row of a `mat`, line 598)
is shown by the overload for unknown types, as its address.
-/
namespace CE.ToText

/-- arguments of `as_string`, with vectors -/
inductive VArg where
  /-- an argument that is not a vector -/
  | one (a : Arg)
  /-- a `vec` with the components `vs` -/
  | vec (vs : List Arg)

/-- `mat` lib/h/ce/ce.h:598, as a `vec` of rows, or an array of arrays (overload 1000-1006): address of the object, size of a row, rows -/
structure Mat where
  /-- address -/
  addr : Nat
  /-- `sizeof` a row -/
  stride : Nat
  /-- the rows -/
  rows : List (List Arg)

/-- the components `to_text_n` sees: unknown types -/
def Mat.comps (a : Mat) : List Arg := (List.range a.rows.length).map (fun i => .ref (a.addr + a.stride * i))

/-- `to_text_m` lib/h/ce/ce.h:1044-1055; for a `vec` it calls the overload at 1008-1011 -/
def toTextMV (m : Mem) (b : Nat) : VArg → Option (Mem × Nat)
  | .one a => toTextM m b a
  | .vec vs => toTextN m b vs

/-- `measure<T>::value` lib/h/ce/ce.h:1025-1042 -/
def VArg.measure : VArg → Nat
  | .one a => argMeasure a
  | .vec _ => 1024

/-- the fold in the `as_string` constructor, lib/h/ce/ce.h:1061-1065 -/
def toTextMVs (m : Mem) (b : Nat) : List VArg → Option (Mem × Nat)
  | [] => some (m, b)
  | a :: as => do
    let (m, b) ← toTextMV m b a
    toTextMVs m b as

/-- `as_string(values...)` lib/h/ce/ce.h:1057-1066 -/
def asStringV (m : Mem) (args : List VArg) : Option Mem := do
  let (m, p) ← toTextMVs m 0 args
  return m.write p NUL

/-- size of the array `as`, lib/h/ce/ce.h:1059 -/
def asStringVSize (args : List VArg) : Nat := (args.map VArg.measure).sum + 1

end CE.ToText
