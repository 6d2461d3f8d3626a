/-!
# Model of `ce::base64` (lib/h/ce/ce.h:856-901)

Characters are byte values (`Nat` below 256).  The source pointer is the list of characters that
may be read; reading past it is undefined (`none`).
-/
namespace CE.Base64

/-- value of a byte seen as (signed) `char` -/
def asChar (c : Nat) : Int := if c < 128 then c else (c : Int) - 256

/-- `ascii::is_base64` lib/h/ce/ce.h:860 -/
def isBase64 (c : Nat) : Bool :=
  let a := asChar c
  (a ≥ 48 && a ≤ 57) || (a ≥ 65 && a ≤ 90) || (a ≥ 97 && a ≤ 122) || (a == 43) || (a == 47)

/-- `base64::size(size_t)` lib/h/ce/ce.h:870, in 64-bit arithmetic -/
def size (n : Nat) : Nat := ((n / 4 * 3 % 2 ^ 64) + (n % 4 * 3 % 2 ^ 64) / 4) % 2 ^ 64

/-- `base64::size(char const src[])` lib/h/ce/ce.h:872-877; `n` counts the characters seen -/
def sizeText (n : Nat) : List Nat → Option Nat
  | [] => none
  | c :: s => if !isBase64 c then some (size n) else sizeText (n + 1) s

/-- the string literal of lib/h/ce/ce.h:883 as bytes -/
def alphabet : List Nat :=
  "ABCDEFGHIJKLMNOPQRSTUVWXYZabcdefghijklmnopqrstuvwxyz0123456789+/".toList.map Char.toNat

/-- the table `dec` of lib/h/ce/ce.h:881-883: zero, then one store per letter -/
def dec : Nat → Nat :=
  (List.range 64).foldl (fun t i c => if c = alphabet.getD i 0 then i else t c) (fun _ => 0)

/-- byte `i` of the output, lib/h/ce/ce.h:887-890; `size_t` arithmetic is modulo 2^64 and the
stored value is truncated to 8 bits -/
def decodeByte (src : List Nat) (i : Nat) : Option Nat := do
  let a ← src[i * 4 % 2 ^ 64 / 3 + 0]?
  let b ← src[i * 4 % 2 ^ 64 / 3 + 1]?
  let n := i % 3 * 2 + 2
  return ((dec a <<< n) + (dec b >>> (6 - n))) % 256

/-- `base64::decode` lib/h/ce/ce.h:879-892: the bytes written to `dst_data[0 .. dst_size)` -/
def decode (dstSize : Nat) (src : List Nat) : Option (List Nat) :=
  (List.range dstSize).mapM (decodeByte src)

end CE.Base64
