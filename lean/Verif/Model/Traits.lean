/-!
# Model of the type transformations (lib/h/ce/ce.h:330-365)

Types are terms.  A template with partial specializations is a function that tries the patterns, more specialized ones
first; `const T` matches a type that has `const`, deducing the type without it; `T* const` matches a pointer type whose
own qualifiers are exactly `const`.  Qualifiers of an array are those of its elements; references and functions have none.
-/
namespace CE.Traits

/-- C++ types -/
inductive Ty where
  /-- scalar or class type number `n`, with `const` and `volatile` -/
  | obj (c v : Bool) (n : Nat)
  /-- pointer -/
  | ptr (c v : Bool) (to : Ty)
  /-- `T&` -/
  | lref (to : Ty)
  /-- `T&&` -/
  | rref (to : Ty)
  /-- `T[n]` -/
  | arr (elem : Ty) (n : Nat)
  /-- function type number `n` -/
  | fn (n : Nat)
deriving DecidableEq

/-- the match of `T` in `const T` -/
def Ty.matchConst : Ty → Option Ty
  | .obj true v n => some (.obj false v n)
  | .ptr true v t => some (.ptr false v t)
  | .arr e n => e.matchConst.map (.arr · n)
  | _ => none

/-- the match of `T` in `volatile T` -/
def Ty.matchVolatile : Ty → Option Ty
  | .obj c true n => some (.obj c false n)
  | .ptr c true t => some (.ptr c false t)
  | .arr e n => e.matchVolatile.map (.arr · n)
  | _ => none

/-- the match of `T` in `const volatile T` -/
def Ty.matchBoth : Ty → Option Ty
  | .obj true true n => some (.obj false false n)
  | .ptr true true t => some (.ptr false false t)
  | .arr e n => e.matchBoth.map (.arr · n)
  | _ => none

/-- `remove_reference_t` lib/h/ce/ce.h:331-334 -/
def removeReference : Ty → Ty
  | .lref t => t
  | .rref t => t
  | t => t

/-- `remove_const_t` lib/h/ce/ce.h:336-338 -/
def removeConst (t : Ty) : Ty := t.matchConst.getD t

/-- `remove_volatile_t` lib/h/ce/ce.h:340-342 -/
def removeVolatile (t : Ty) : Ty := t.matchVolatile.getD t

/-- `remove_cv_t` lib/h/ce/ce.h:344-348 -/
def removeCv (t : Ty) : Ty :=
  match t.matchBoth with
  | some u => u
  | none =>
    match t.matchConst with
    | some u => u
    | none =>
      match t.matchVolatile with
      | some u => u
      | none => t

/-- `remove_cvref_t` lib/h/ce/ce.h:350-351 -/
def removeCvref (t : Ty) : Ty := removeCv (removeReference t)

/-- `remove_pointer_t` lib/h/ce/ce.h:353-358 -/
def removePointer : Ty → Ty
  | .ptr false false t => t
  | .ptr true false t => t
  | .ptr false true t => t
  | .ptr true true t => t
  | t => t

/-- `is_unqualified_ptr` lib/h/ce/ce.h:362-363 -/
def isUnqualifiedPtr : Ty → Bool
  | .ptr false false _ => true
  | _ => false

/-- `is_ptr` lib/h/ce/ce.h:365 -/
def isPtr (t : Ty) : Bool := isUnqualifiedPtr (removeCvref t)

end CE.Traits
