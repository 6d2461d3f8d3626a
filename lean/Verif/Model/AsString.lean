import Verif.Model.ToText
/-!
# Model of the `to_text` overloads and `as_string` of `lib/h/ce/ce.h`

Text is written to a flat memory; a C string argument is the list of the characters that may be
read through the pointer (up to the end of the underlying array); reading further is undefined.
Floating point `to_text` (lib/to_text.cpp:49-50, `std::to_chars`) is in `Model/FloatText.lean`.
-/
namespace CE.ToText

/-- the terminating character `'\0'` -/
abbrev NUL : Char := Char.ofNat 0

/-- Arguments of `to_text` / `as_string`. -/
inductive Arg where
  /-- built-in integer -/
  | int (T : IntTy) (i : Int)
  /-- `char` -/
  | chr (c : Char)
  /-- `bool` -/
  | bool (b : Bool)
  /-- `char const*` : `none` is the null pointer, `some s` the readable characters -/
  | cstr (s : Option (List Char))
  /-- `char const (&)[N]`, `s` is the whole array -/
  | carr (s : List Char)
  /-- `nullptr` -/
  | nil
  /-- other pointer type, with its address (0 is the null pointer) -/
  | ptr (a : Nat)
  /-- enumeration without its own overload: underlying type and value -/
  | enum (T : IntTy) (i : Int)
  /-- any other type: address of the object -/
  | ref (a : Nat)

/-- `size_t`, 64 bit unsigned -/
def sizeT : IntTy := ⟨8, false⟩

/-- `to_text(char[], char)` lib/h/ce/ce.h:934 -/
def toTextChar (m : Mem) (b : Nat) (c : Char) : Option (Mem × Nat) := some (m.write b c, b + 1)

/-- `to_text(char[], bool)` lib/h/ce/ce.h:935-942 -/
def toTextBool (m : Mem) (b : Nat) (v : Bool) : Option (Mem × Nat) :=
  some ((((m.write b '#').write (b + 1) '<').write (b + 2) (if v then 'T' else 'F')).write (b + 3) '>',
    b + 4)

/-- the loop of `to_text_p(char[], char const[])` lib/h/ce/ce.h:944-950.  `s` is what is left to
read; reading past it is undefined. -/
def toTextP (m : Mem) (p : Nat) : List Char → Option (Mem × Nat)
  | [] => none
  | c :: s => if c ≠ NUL then toTextP (m.write p c) (p + 1) s else some (m, p)

/-- a string literal: its characters followed by NUL -/
def lit (s : String) : List Char := s.toList ++ [NUL]

/-- the loop of `to_text_s` lib/h/ce/ce.h:957-963: `n` is the remaining limit -/
def toTextS (m : Mem) (p : Nat) : Nat → List Char → Option (Mem × Nat)
  | 0, _ => some (m, p)
  | _ + 1, [] => none
  | n + 1, c :: s => if c ≠ NUL then toTextS (m.write p c) (p + 1) n s else some (m, p)

/-- `to_text(to_text(to_text_p(text, "..."), i), '>')`: shared by lines 954, 970, 985 of
lib/h/ce/ce.h -/
def toTextTagged (m : Mem) (b : Nat) (tag : String) (T : IntTy) (i : Int) :
    Option (Mem × Nat) := do
  let (m, p) ← toTextP m b (lit tag)
  let (m, p) ← toTextFromInteger T m p i
  toTextChar m p '>'

/-- overload resolution of `to_text(char[], value)` lib/h/ce/ce.h:919-1006 -/
def toText (m : Mem) (b : Nat) : Arg → Option (Mem × Nat)
  | .int T i => toTextFromInteger T m b i
  | .chr c => toTextChar m b c
  | .bool v => toTextBool m b v
  | .cstr none => toTextP m b (lit "#<nil>")
  | .cstr (some s) => toTextP m b s
  | .carr s => toTextS m b s.length s
  | .nil => toTextP m b (lit "#<nil>")
  | .ptr a => if a = 0 then toTextP m b (lit "#<nil>") else toTextTagged m b "#<ptr " sizeT a
  | .enum T i => toTextTagged m b "#<enum " T i
  | .ref a => toTextTagged m b "#<ref " sizeT a

/-- `to_text_m` lib/h/ce/ce.h:1044-1055.  Its by-value parameter makes `char` arrays decay to
`char const*`, whose `measure` is 1024 (line 1030); a null pointer is dereferenced. -/
def toTextM (m : Mem) (b : Nat) : Arg → Option (Mem × Nat)
  | .cstr none => none
  | .cstr (some s) => toTextS m b 1024 s
  | .carr s => toTextS m b 1024 s
  | a => toText m b a

/-- `measure<T>::value` lib/h/ce/ce.h:1025-1042 -/
def argMeasure : Arg → Nat
  | .int T _ => measure T
  | .chr _ => 1
  | .carr s => s.length
  | _ => 1024

/-- the fold over `to_text_m` in the `as_string` constructor, lib/h/ce/ce.h:1061-1065 -/
def toTextMs (m : Mem) (b : Nat) : List Arg → Option (Mem × Nat)
  | [] => some (m, b)
  | a :: as => do
    let (m, b) ← toTextM m b a
    toTextMs m b as

/-- `as_string(values...)` lib/h/ce/ce.h:1057-1066; the member `as` has `measure<Ts...>+1`
characters, starting at index 0 of the memory -/
def asString (m : Mem) (args : List Arg) : Option Mem := do
  let (m, p) ← toTextMs m 0 args
  return m.write p NUL

/-- size of the array `as`, lib/h/ce/ce.h:1059 -/
def asStringSize (args : List Arg) : Nat := (args.map argMeasure).sum + 1

/-- the loop of `to_text_n` lib/h/ce/ce.h:994-995, `p` the separator literal -/
def toTextNLoop (m : Mem) (b : Nat) (p : String) : List Arg → Option (Mem × Nat)
  | [] => some (m, b)
  | v :: vs => do
    let (m, b) ← toTextP m b (lit p)
    let (m, b) ← toText m b v
    toTextNLoop m b ", " vs

/-- `to_text_n` lib/h/ce/ce.h:989-998, also reached by the array (1000-1006) and `vec`
(1008-1011) overloads -/
def toTextN (m : Mem) (b : Nat) (vs : List Arg) : Option (Mem × Nat) := do
  let (m, b) ← toTextChar m b '['
  let (m, b) ← toTextNLoop m b "" vs
  toTextChar m b ']'

end CE.ToText
