import Verif.Model.Traits
/-!
# Qualified types ([basic.type.qualifier])
-/
namespace CE.Traits

/-- is the type const-qualified -/
def Ty.isConst : Ty → Prop
  | .obj c _ _ => c = true
  | .ptr c _ _ => c = true
  | .arr e _ => e.isConst
  | _ => False

/-- is the type volatile-qualified -/
def Ty.isVolatile : Ty → Prop
  | .obj _ v _ => v = true
  | .ptr _ v _ => v = true
  | .arr e _ => e.isVolatile
  | _ => False

/-- is the type a reference -/
def Ty.isRef : Ty → Prop
  | .lref _ => True
  | .rref _ => True
  | _ => False

/-- write `const` (if `c`) and `volatile` (if `v`) before a type; references and functions ignore it -/
def Ty.qualify (c v : Bool) : Ty → Ty
  | .obj c' v' n => .obj (c || c') (v || v') n
  | .ptr c' v' t => .ptr (c || c') (v || v') t
  | .arr e n => .arr (e.qualify c v) n
  | t => t

/-- types that exist: no reference to a reference, no pointer to one, no array of references or functions -/
def Ty.Ok : Ty → Prop
  | .obj _ _ _ => True
  | .ptr _ _ t => t.Ok ∧ ¬ t.isRef
  | .lref t => t.Ok ∧ ¬ t.isRef
  | .rref t => t.Ok ∧ ¬ t.isRef
  | .arr e _ => e.Ok ∧ ¬ e.isRef ∧ ∀ n, e ≠ .fn n
  | .fn _ => True

end CE.Traits
