import Verif.Model.Utf16
/-!
# UTF-8 and UTF-16 (The Unicode Standard, section 3.9, tables 3-5 and 3-6)
-/
namespace CE.Utf16

/-- Unicode scalar values -/
def Scalar (c : Nat) : Prop := c < 0xd800 ∨ (0xe000 ≤ c ∧ c < 0x110000)

/-- UTF-8 of one scalar value -/
def utf8 (c : Nat) : List Nat :=
  if c < 0x80 then [c]
  else if c < 0x800 then [0xc0 + c / 64, 0x80 + c % 64]
  else if c < 0x10000 then [0xe0 + c / 4096, 0x80 + c / 64 % 64, 0x80 + c % 64]
  else [0xf0 + c / 262144, 0x80 + c / 4096 % 64, 0x80 + c / 64 % 64, 0x80 + c % 64]

/-- UTF-16 of one scalar value -/
def utf16 (c : Nat) : List Nat :=
  if c < 0x10000 then [c] else [0xd800 + (c - 0x10000) / 1024, 0xdc00 + (c - 0x10000) % 1024]

/-- the number of bytes of a character, by its first byte -/
def width (b : Nat) : Nat := if b < 0x80 then 1 else if b < 0xe0 then 2 else if b < 0xf0 then 3 else 4

/-- bytes that are complete characters as far as their first bytes tell -/
inductive Complete : List Nat → Prop
  | nil : Complete []
  | char {b t s} (h : t.length + 1 = width b) (r : Complete s) : Complete (b :: t ++ s)

end CE.Utf16
