import Mathlib.Data.Int.Log
import Mathlib.Data.Rat.Floor
/-!
# Model of `normal` (lib/h/ce/math.h:230-236, 250-256)

A `float` or `double` is its value, infinite, or not a number; the sign of a zero is not kept (nothing below depends on it: the
sum of squares is never `-0`).  Every operation is rounded to its type, to nearest, ties to even.  A compiler that
contracts `a * b + c` to a fused operation (`-ffp-contract=fast`) rounds less often; `fused` is the form it gives then.

The instruction `rsqrtss` is a parameter; what the processor manuals promise about it is `Approx` below.
-/
namespace CE.Normal

/-- a floating point value -/
inductive Fp where
  /-- a number -/
  | num (q : ℚ)
  /-- infinity -/
  | inf (neg : Bool)
  /-- not a number -/
  | nan
deriving DecidableEq

/-- nearest integer, ties to even -/
def rne (x : ℚ) : ℤ :=
  if 1 / 2 < x - ⌊x⌋ ∨ x - ⌊x⌋ = 1 / 2 ∧ ⌊x⌋ % 2 = 1 then ⌊x⌋ + 1 else ⌊x⌋

/-- precision, exponent of the last place of the least numbers, exponent of the first number that is too large -/
structure Fmt where
  p : Nat
  emin : Int
  top : Int

/-- `float` -/
def single : Fmt := ⟨24, -149, 128⟩
/-- `double` -/
def double : Fmt := ⟨53, -1074, 1024⟩

/-- exponent of the last place of a result of that size -/
def lastPlace (F : Fmt) (l : Int) : Int := max F.emin (l - (F.p - 1))

/-- a result rounded to its type -/
def rnd (F : Fmt) (q : ℚ) : Fp :=
  let e := lastPlace F (Int.log 2 |q|)
  let y := rne (q / 2 ^ e) * (2 : ℚ) ^ e
  if |y| < 2 ^ F.top then .num y else .inf (decide (q < 0))

/-- `a + b` -/
def Fp.add (F : Fmt) : Fp → Fp → Fp
  | .num a, .num b => rnd F (a + b)
  | .nan, _ => .nan
  | _, .nan => .nan
  | .inf a, .inf b => if a = b then .inf a else .nan
  | .inf a, .num _ => .inf a
  | .num _, .inf b => .inf b

/-- `a * b` -/
def Fp.mul (F : Fmt) : Fp → Fp → Fp
  | .num a, .num b => rnd F (a * b)
  | .nan, _ => .nan
  | _, .nan => .nan
  | .inf a, .inf b => .inf (a != b)
  | .inf a, .num q => if q = 0 then .nan else .inf (a != decide (q < 0))
  | .num q, .inf b => if q = 0 then .nan else .inf (decide (q < 0) != b)

/-- `a * b + c`, rounded once -/
def Fp.fma (F : Fmt) : Fp → Fp → Fp → Fp
  | .num a, .num b, .num c => rnd F (a * b + c)
  | .num _, .num _, c => c
  | a, b, c => (a.mul F b).add F c

/-- root of a nonnegative number to the nearest integer, ties to even -/
def rootNe (x : ℚ) : ℤ :=
  let n : ℤ := Nat.sqrt ⌊x⌋₊
  if (n + 1 / 2 : ℚ) ^ 2 < x ∨ (n + 1 / 2 : ℚ) ^ 2 = x ∧ n % 2 = 1 then n + 1 else n

/-- `sqrt`, `sqrtf`; no root is too large or subnormal -/
def Fp.sqrt (F : Fmt) : Fp → Fp
  | .num q =>
    if q < 0 then .nan else if q = 0 then .num 0 else
      let e := Int.log 2 q / 2 - (F.p - 1)
      .num (rootNe (q / 2 ^ (2 * e)) * (2 : ℚ) ^ e)
  | .inf neg => if neg then .nan else .inf false
  | .nan => .nan

/-- `1.0f / a`, where `a` is not negative, in the format of the quotient -/
def Fp.recip (F : Fmt) : Fp → Fp
  | .num q => if q = 0 then .inf false else rnd F (1 / q)
  | .inf _ => .num 0
  | .nan => .nan

/-- conversion to `float` -/
def Fp.toSingle : Fp → Fp
  | .num q => rnd single q
  | a => a

/-- `vec3<float>` lib/h/ce/ce.h:589 -/
structure V3 where
  x : Fp
  y : Fp
  z : Fp
deriving DecidableEq

/-- `v.x * v.x + v.y * v.y + v.z * v.z` lib/h/ce/math.h:233, 253 -/
def plain (v : V3) : Fp :=
  ((v.x.mul single v.x).add single (v.y.mul single v.y)).add single (v.z.mul single v.z)

/-- the same, contracted -/
def fused (v : V3) : Fp := v.z.fma single v.z (v.y.fma single v.y (v.x.mul single v.x))

/-- `{ v.x * r, v.y * r, v.z * r }` lib/h/ce/math.h:235, 255 -/
def scale (v : V3) (r : Fp) : V3 := ⟨v.x.mul single r, v.y.mul single r, v.z.mul single r⟩

/-- `1.0f / sqrt(m)` lib/h/ce/math.h:254.  The name `sqrt` is found only where a header declares it outside `ce` (the one the
file declares is in `detail`); it takes and gives a `double` (`wide`) or, with the C++ overloads, a `float`. -/
def recipSqrt (wide : Bool) (m : Fp) : Fp :=
  let F := if wide then double else single
  ((m.sqrt F).recip F).toSingle

/-- `normal` lib/h/ce/math.h:230-236 (x86), with the instruction `rsqrt` -/
def normalX86 (rsqrt : Fp → Fp) (contract : Bool) (v : V3) : V3 :=
  scale v (rsqrt (if contract then fused v else plain v))

/-- `normal` lib/h/ce/math.h:250-256 (other processors) -/
def normalGeneric (wide contract : Bool) (v : V3) : V3 :=
  scale v (recipSqrt wide (if contract then fused v else plain v))

end CE.Normal
