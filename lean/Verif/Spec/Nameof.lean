import Verif.Model.Nameof
/-!
# What enumerations look like to nameof
-/
namespace CE.Nameof

/-- an identifier: some characters, none of them 0, `(` or `:` -/
def Ident (s : List Nat) : Prop := s ≠ [] ∧ ∀ c ∈ s, c ≠ 0 ∧ c ≠ 40 ∧ c ≠ 58

/-- `a::b::c` -/
def qualified : List (List Nat) → List Nat
  | [] => []
  | [s] => s
  | s :: t => s ++ [58, 58] ++ qualified t

/-- The compiler writes a named enumerator qualified by `path` (empty for an unscoped enumeration in the global
namespace), and any other value as a cast, which begins with `(`.  `id v` is the name of value `v`. -/
structure Writes (c : Compiler) (path : List (List Nat)) (id : Nat → Option (List Nat)) : Prop where
  /-- the surrounding text has no 0 -/
  pre_nz : ∀ x ∈ c.pre, x ≠ 0
  /-- the surrounding text has no 0 -/
  suf_nz : ∀ x ∈ c.suf, x ≠ 0
  /-- after the argument comes something, such as `}`, that is not a digit 0 -/
  suf_head : ∃ x r, c.suf = x :: r ∧ x ≠ 48
  /-- qualifiers -/
  path_ok : ∀ s ∈ path, Ident s
  /-- names -/
  id_ok : ∀ v s, id v = some s → Ident s
  /-- enumerators -/
  named : ∀ v s, id v = some s → c.item v = qualified (path ++ [s])
  /-- other values -/
  unnamed : ∀ v, id v = none → ∃ r, c.item v = 40 :: r ∧ ∀ x ∈ r, x ≠ 0
  /-- one name per value -/
  inj : ∀ v w s, id v = some s → id w = some s → v = w

/-- the text shown: the name qualified by all but the outermost qualifier -/
def shown (path : List (List Nat)) (s : List Nat) : List Nat := qualified (path.tail ++ [s])

end CE.Nameof
