import Verif.Model.AsString
/-! Expected texts, independent of the writing code. -/
namespace CE.ToText

/-- the characters of a C string (before its NUL) -/
def cText (s : List Char) : List Char := s.takeWhile (· ≠ NUL)

/-- the text a user expects `to_text` to give for an argument -/
def argText : Arg → List Char
  | .int _ i => (toString i).toList
  | .chr c => [c]
  | .bool true => "#<T>".toList
  | .bool false => "#<F>".toList
  | .cstr none => "#<nil>".toList
  | .cstr (some s) => cText s
  | .carr s => cText s
  | .nil => "#<nil>".toList
  | .ptr 0 => "#<nil>".toList
  | .ptr a => ("#<ptr " ++ toString a ++ ">").toList
  | .enum _ i => ("#<enum " ++ toString i ++ ">").toList
  | .ref a => ("#<ref " ++ toString a ++ ">").toList

/-- the text `as_string` shows for an argument: C strings and `char` arrays are cut at 1024 characters -/
def argTextM : Arg → List Char
  | .cstr (some s) => (cText s).take 1024
  | .carr s => (cText s).take 1024
  | a => argText a

/-- an integer type of the C++ implementation -/
def IntTy.Ok (T : IntTy) : Prop := T.size = 1 ∨ T.size = 2 ∨ T.size = 4 ∨ T.size = 8

/-- what a caller of `to_text` has to guarantee for an argument: integers are in the range of
their type, C strings are NUL terminated -/
def Arg.Ok : Arg → Prop
  | .int T i => T.Ok ∧ T.InRange i
  | .enum T i => T.Ok ∧ T.InRange i
  | .cstr (some s) => NUL ∈ s
  | .ptr a => a < 2 ^ 64
  | .ref a => a < 2 ^ 64
  | _ => True

/-- what a caller of `as_string` has to guarantee: additionally no null `char const*`, and a
NUL inside `char` arrays; a string may be unterminated if 1024 characters are readable -/
def Arg.OkM : Arg → Prop
  | .cstr none => False
  | .cstr (some s) => NUL ∈ s ∨ 1024 ≤ s.length
  | .carr s => NUL ∈ s ∨ 1024 ≤ s.length
  | a => a.Ok

/-- arguments whose text is as long as any of their type: a longest integer, a `char`, a C string of 1024 characters or
more -/
def Arg.Longest : Arg → Prop
  | .int T i => T.Ok ∧ T.InRange i ∧ ∀ j, T.InRange j → (toString j).length ≤ (toString i).length
  | .chr _ => True
  | .cstr (some s) => 1024 ≤ (cText s).length
  | _ => False

end CE.ToText
