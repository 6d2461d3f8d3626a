import Mathlib.Data.Rat.Defs
import Mathlib.Algebra.Order.Ring.Rat
/-!
# Floating point numbers, their decimal texts, and the contract of `std::to_chars`

The contract is that of C++17, [charconv.to.chars], for an argument without format and precision: the text is in the style
of `printf` with `%f` or `%e`, it reads back as the same number, and no text that does is shorter; among several of that
length it is one that is nearest to the number.  Reading is correctly rounded, ties to even.

A binary format is given by its precision and the range of exponents of the last place.
-/
namespace CE.FloatText

/-- a binary floating point format -/
structure Fmt where
  /-- bits of the significand -/
  p : Nat
  /-- least exponent of the last place -/
  emin : Int
  /-- greatest exponent of the last place -/
  emax : Int

/-- IEEE 754 `double` -/
def binary64 : Fmt := ⟨53, -1074, 971⟩
/-- IEEE 754 `float` -/
def binary32 : Fmt := ⟨24, -149, 104⟩

/-- a floating point number -/
inductive Fl where
  /-- `m * 2^e`, negated when `neg` -/
  | fin (neg : Bool) (m : Nat) (e : Int)
  /-- infinity -/
  | inf (neg : Bool)
  /-- not a number -/
  | nan (neg : Bool)
deriving DecidableEq

/-- the numbers of a format, each given in one way: a full significand or the least exponent -/
def Fl.Valid (F : Fmt) : Fl → Prop
  | .fin _ m e => m < 2 ^ F.p ∧ F.emin ≤ e ∧ e ≤ F.emax ∧ (2 ^ (F.p - 1) ≤ m ∨ e = F.emin)
  | _ => True

/-- magnitude of a finite number -/
def mag (m : Nat) (e : Int) : ℚ := m * (2 : ℚ) ^ e

/-! ## decimal texts -/

/-- value of decimal digits, most significant first -/
def digitsVal (l : List (Fin 10)) : Nat := l.foldl (fun a d => 10 * a + d.val) 0

/-- the character of a digit -/
def digitChar (d : Fin 10) : Char := Char.ofNat (48 + d.val)

/-- a decimal text: sign, digits before and behind the point, exponent with its sign -/
structure Dec where
  /-- begins with `-` -/
  neg : Bool
  /-- digits before the point -/
  ip : List (Fin 10)
  /-- digits behind the point; no point when there are none -/
  fp : List (Fin 10)
  /-- exponent: negative, digits -/
  ex : Option (Bool × List (Fin 10))

/-- the characters -/
def Dec.render (t : Dec) : List Char :=
  (if t.neg then ['-'] else []) ++ t.ip.map digitChar ++ (if t.fp = [] then [] else '.' :: t.fp.map digitChar) ++
    match t.ex with
    | none => []
    | some (s, ds) => 'e' :: (if s then '-' else '+') :: ds.map digitChar

/-- the exponent -/
def Dec.exp (t : Dec) : Int :=
  match t.ex with
  | none => 0
  | some (s, ds) => if s then -(digitsVal ds : Int) else digitsVal ds

/-- the magnitude -/
def Dec.mag (t : Dec) : ℚ := (digitsVal (t.ip ++ t.fp) : ℚ) * (10 : ℚ) ^ (t.exp - t.fp.length)

/-- `%f`: no superfluous leading zero -/
def Dec.FStyle (t : Dec) : Prop := t.ip ≠ [] ∧ (1 < t.ip.length → t.ip.head? ≠ some 0) ∧ t.ex = none

/-- `%e`: one digit before the point, not zero unless the number is, exponent of two digits or as many as it takes -/
def Dec.EStyle (t : Dec) : Prop :=
  t.ip.length = 1 ∧ (t.ip = [0] → t.mag = 0) ∧
    ∃ s ds, t.ex = some (s, ds) ∧ 2 ≤ ds.length ∧ (2 < ds.length → ds.head? ≠ some 0)

/-- either -/
def Dec.Style (t : Dec) : Prop := t.FStyle ∨ t.EStyle

/-- correctly rounded: no number with the precision of the format (and any exponent that is not too small, so that
overflow counts too) is nearer to `q`; if one is as near, the last bit is zero -/
def RoundsTo (F : Fmt) (q : ℚ) (m : Nat) (e : Int) : Prop :=
  ∀ (m' : Nat) (e' : Int), m' < 2 ^ F.p → F.emin ≤ e' → mag m' e' ≠ mag m e →
    |q - mag m e| < |q - mag m' e'| ∨ |q - mag m e| = |q - mag m' e'| ∧ m % 2 = 0

/-- the text `t` is read as the number -/
def Dec.Reads (F : Fmt) (t : Dec) (neg : Bool) (m : Nat) (e : Int) : Prop := t.neg = neg ∧ RoundsTo F t.mag m e

/-- the contract of `std::to_chars(first, last, value)`: what it may give for a number -/
def Contract (F : Fmt) : Fl → List Char → Prop
  | .fin neg m e, s => ∃ t : Dec, t.Style ∧ t.Reads F neg m e ∧ s = t.render ∧
      ∀ t' : Dec, t'.Style → t'.Reads F neg m e →
        s.length < t'.render.length ∨ s.length = t'.render.length ∧ |t.mag - mag m e| ≤ |t'.mag - mag m e|
  | .inf neg, s => s = (if neg then ['-'] else []) ++ "inf".toList
  | .nan neg, s => s = (if neg then ['-'] else []) ++ "nan".toList ∨
      ∃ c : List Char, c.length ≤ 4 ∧ s = (if neg then ['-'] else []) ++ "nan(".toList ++ c ++ [')']

end CE.FloatText
