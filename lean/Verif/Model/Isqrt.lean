import Mathlib.Data.Nat.Sqrt
/-!
# Model of `isqrt` and `hypot` (lib/h/ce/math.h:214-259)

IEEE-754 binary64 with round to nearest, ties to even, on the values that occur here: nonnegative
integers below 2^64 and their square roots.  No infinities or subnormals arise.
-/
namespace CE.Isqrt

/-- `q` or `q + 1`: round `q + r / d` (`r < d`) to nearest, ties to even -/
def rne (q r d : Nat) : Nat := if d < 2 * r ∨ 2 * r = d ∧ q % 2 = 1 then q + 1 else q

/-- an integer rounded to 53 significant bits (`_mm_cvtsi64_sd`, `double(x)`, and the result of an
addition or multiplication whose exact value is the integer `n`) -/
def toDouble (n : Nat) : Nat :=
  if n < 2 ^ 53 then n
  else rne (n / 2 ^ (n.log2 - 52)) (n % 2 ^ (n.log2 - 52)) (2 ^ (n.log2 - 52)) * 2 ^ (n.log2 - 52)

/-- scale `k` with `2^104 ≤ n * 4^k < 2^106` -/
def scale (n : Nat) : Nat := (105 - n.log2) / 2

/-- correctly rounded square root (`_mm_sqrt_sd`, `sqrt`) of a nonzero integer `n`: the significand `m`
of 53 bits, the value is `m / 2^(scale n)`.  The root is never halfway between two such numbers. -/
def sqrtSig (n : Nat) : Nat :=
  let s := n * 4 ^ scale n
  let r := s.sqrt
  if r < s - r * r then r + 1 else r

/-- the 32-bit result, or the "indefinite integer" if out of range -/
def fit32 (n : Nat) : Int := if n < 2 ^ 31 then n else -2 ^ 31

/-- `_mm_cvtsd_si32` of `m / 2^k`: to nearest, ties to even -/
def cvtNearest (m k : Nat) : Int := fit32 (rne (m / 2 ^ k) (m % 2 ^ k) (2 ^ k))

/-- `isqrt` lib/h/ce/math.h:216-221 (x86).  A negative argument gives NaN and the indefinite integer. -/
def isqrt (v : Int) : Int :=
  if v < 0 then -2 ^ 31
  else
    let d := toDouble v.toNat
    if d = 0 then 0 else cvtNearest (sqrtSig d) (scale d)

/-- `hypot` lib/h/ce/math.h:223-228 (x86); the sum of squares overflows only for two times `INT_MIN` -/
def hypot (x y : Int) : Option Int :=
  if x * x + y * y < 2 ^ 63 then some (isqrt (x * x + y * y)) else none

/-- `hypot` lib/h/ce/math.h:245-248 (other processors): products and sum are rounded, the conversion
to `int` truncates; out of range is undefined -/
def hypotGeneric (x y : Int) : Option Int :=
  let d := toDouble (toDouble (x * x).toNat + toDouble (y * y).toNat)
  if d = 0 then some 0
  else
    let n := sqrtSig d / 2 ^ scale d
    if n < 2 ^ 31 then some n else none

end CE.Isqrt
