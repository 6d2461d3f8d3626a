/-! Standard base64 encoding (RFC 4648), without padding; padding is treated as text behind it. -/
namespace CE.Base64

/-- the letter for a 6-bit value -/
def letter (x : Nat) : Nat :=
  if x < 26 then 65 + x else if x < 52 then 97 + (x - 26) else if x < 62 then 48 + (x - 52)
  else if x = 62 then 43 else 47

/-- the base64 letters of a byte string -/
def encode : List Nat → List Nat
  | [] => []
  | [a] => [letter (a / 4), letter (a % 4 * 16)]
  | [a, b] => [letter (a / 4), letter (a % 4 * 16 + b / 16), letter (b % 16 * 4)]
  | a :: b :: c :: r =>
    letter (a / 4) :: letter (a % 4 * 16 + b / 16) :: letter (b % 16 * 4 + c / 64)
      :: letter (c % 64) :: encode r

/-- a character of the base64 alphabet -/
def IsLetter (c : Nat) : Prop := ∃ x, x < 64 ∧ c = letter x

end CE.Base64
