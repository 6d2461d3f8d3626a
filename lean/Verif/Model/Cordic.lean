/-!
# Model of `cordic_n` (lib/h/ce/math.h:297-415)

The constant tables are computed by the compiler in `double`; the arithmetic of those constant
expressions is modelled here (IEEE-754 binary64, round to nearest even; no overflow or subnormals
occur).  The run-time part is 64-bit integer arithmetic; `none` is signed overflow.
-/
namespace CE.Cordic

/-! ## doubles at compile time -/

/-- a finite double `m * 2^e` -/
structure F where
  /-- signed significand -/
  m : Int
  /-- exponent -/
  e : Int
deriving DecidableEq, Repr

/-- round `num / den * 2^e` (both positive) to 53 significant bits, ties to even -/
def roundFrac (num den : Nat) (e : Int) : F :=
  let s := 56 + den.log2 - num.log2
  let n := num * 2 ^ s
  let t := (n / den).log2 - 52
  let d := den * 2 ^ t
  let q := n / d
  let r := n % d
  ⟨((if d < 2 * r ∨ 2 * r = d ∧ q % 2 = 1 then q + 1 else q : Nat) : Int), e - s + t⟩

/-- round the exact value `num / den * 2^e`, with a sign -/
def roundTo (num : Int) (den : Nat) (e : Int) : F :=
  if num = 0 then ⟨0, 0⟩
  else
    let r := roundFrac num.natAbs den e
    if num < 0 then ⟨-r.m, r.e⟩ else r

/-- double multiplication -/
def F.mul (a b : F) : F := roundTo (a.m * b.m) 1 (a.e + b.e)

/-- double division (nonzero divisor) -/
def F.div (a b : F) : F :=
  roundTo (if b.m < 0 then -a.m else a.m) b.m.natAbs (a.e - b.e)

/-- significand of `a` at exponent `e ≤ a.e` -/
def F.at (a : F) (e : Int) : Int := a.m * 2 ^ (a.e - e).toNat

/-- double addition -/
def F.add (a b : F) : F :=
  let e := if a.e ≤ b.e then a.e else b.e
  roundTo (a.at e + b.at e) 1 e

/-- negation -/
def F.neg (a : F) : F := ⟨-a.m, a.e⟩

/-- equality of values: `f_eq` lib/h/ce/math.h:297 -/
def F.eqv (a b : F) : Bool :=
  let e := if a.e ≤ b.e then a.e else b.e
  a.at e == b.at e

/-- conversion from an integer below 2^53 or a power of two -/
def F.ofInt (n : Int) : F := roundTo n 1 0

/-- `c_arctan(a, xx, n, d)` lib/h/ce/math.h:299-302.  `fuel` bounds the recursion; `ks_table` (Proof/Cordic.lean)
shows it is never exhausted for the arguments used. -/
def arctanSeries : Nat → F → F → F → F → Option F
  | 0, _, _, _, _ => none
  | fuel + 1, a, xx, n, d =>
    let b := a.add (n.div d)
    if a.eqv b then some b else arctanSeries fuel b xx (n.mul xx) (d.add (F.ofInt 2))

/-- `c_arctan(x)` for `x != 1` lib/h/ce/math.h:304-307 -/
def arctanSmall (x : F) : Option F := do
  let x2 := x.mul x
  let x3 := x2.mul x
  let head := x.add ((x3.div (F.ofInt 3)).neg)
  let tail ← arctanSeries 64 (F.ofInt 0) ((x.neg).mul x) ((x3.mul x).mul x) (F.ofInt 5)
  some (head.add tail)

/-- `c_arctan(x)` lib/h/ce/math.h:304-307 -/
def arctan (x : F) : Option F :=
  if x.eqv (F.ofInt 1) then do
    -- `.2` is the double nearest 1/5
    let a ← arctanSmall (roundTo 1 5 0)
    let b ← arctanSmall ((F.ofInt 1).div (F.ofInt 239))
    some (((F.ofInt 4).mul a).add b.neg)
  else arctanSmall x

/-- `c_pi` lib/h/ce/math.h:309 -/
def cpi : Option F := do some ((← arctan (F.ofInt 1)).mul (F.ofInt 4))

/-- truncation toward zero to an integer -/
def F.trunc (a : F) : Int :=
  if 0 ≤ a.e then a.m * 2 ^ a.e.toNat else a.m.tdiv (2 ^ (-a.e).toNat)

/-- `dki(n)` lib/h/ce/math.h:311 -/
def dki (n : Nat) : Option Int := do
  let a ← arctan ((F.ofInt 1).div (F.ofInt (2 ^ n)))
  let p ← cpi
  some ((((a.mul (F.ofInt (2 ^ 62))).div p).add (roundTo 1 2 0)).trunc)

/-- `k` lib/h/ce/math.h:316 -/
def kExpr : Int := ((roundTo 6072529350088812561694 (10 ^ 22) 0).mul (F.ofInt (2 ^ 32))).trunc

/-! ## run time -/

/-- a 64-bit signed result, or overflow -/
def i64 (v : Int) : Option Int := if -2 ^ 63 ≤ v ∧ v < 2 ^ 63 then some v else none

/-- a 32-bit signed result, or overflow -/
def i32 (v : Int) : Option Int := if -2 ^ 31 ≤ v ∧ v < 2 ^ 31 then some v else none

/-- `(v ^ d) - d` with `d = z < 0 ? -1 : 0` lib/h/ce/math.h:327-331: `v` or `-v` -/
def sgn (neg : Bool) (v : Int) : Option Int := if neg then i64 (-v) else some v

/-- the loop variables -/
structure St where
  /-- x -/
  x : Int
  /-- y -/
  y : Int
  /-- remaining (or collected) angle -/
  z : Int
deriving DecidableEq, Repr

/-- one iteration of `rotate` lib/h/ce/math.h:325-336; `>>` of a negative number is arithmetic -/
def rotStep (ks : Nat → Int) (i : Nat) (s : St) : Option St := do
  let d := decide (s.z < 0)
  let dx ← sgn d s.y
  let dy ← sgn d s.x
  let dz ← sgn d (ks i)
  let x ← i64 (s.x - dx / 2 ^ i)
  let y ← i64 (s.y + dy / 2 ^ i)
  let z ← i64 (s.z - dz)
  some ⟨x, y, z⟩

/-- `n` iterations -/
def rotLoop (ks : Nat → Int) : Nat → St → Option St
  | 0, s => some s
  | n + 1, s => do rotStep ks n (← rotLoop ks n s)

/-- `int((x + 0x80000000ll) >> 32)` lib/h/ce/math.h:338-339 -/
def roundOut (x : Int) : Option Int := do i32 ((← i64 (x + 2 ^ 31)) / 2 ^ 32)

/-- `cordic_n::rotate` lib/h/ce/math.h:319-356.  The masks of a two's complement `z0` are remainders:
`z0 & 0x1fffffff = z0 % 2^29`, and `z0 & 0x60000000` is decided by `z0 / 2^29 % 4`. -/
def rotateWith (ks : Nat → Int) (k : Int) (x0 y0 z0 : Int) : Option (Int × Int) := do
  let x ← i64 (x0 * k)
  let y ← i64 (y0 * k)
  let z ← i64 (z0 % 2 ^ 29 * 2 ^ 32)
  let s ← rotLoop ks 32 ⟨x, y, z⟩
  let a ← roundOut s.x
  let b ← roundOut s.y
  match (z0 / 2 ^ 29 % 4).toNat with
  | 0 => some (a, b)
  | 1 => do some (← i32 (-b), a)
  | 2 => do some (← i32 (-a), ← i32 (-b))
  | _ => do some (b, ← i32 (-a))

/-- one iteration of `vector` lib/h/ce/math.h:377-388 -/
def vecStep (ks : Nat → Int) (i : Nat) (s : St) : Option St := do
  let d := decide (s.y < 0)
  let dx ← sgn d s.y
  let dy ← sgn d s.x
  let dz ← sgn d (ks i)
  let x ← i64 (s.x + dx / 2 ^ i)
  let y ← i64 (s.y - dy / 2 ^ i)
  let z ← i64 (s.z + dz)
  some ⟨x, y, z⟩

/-- `n` iterations -/
def vecLoop (ks : Nat → Int) : Nat → St → Option St
  | 0, s => some s
  | n + 1, s => do vecStep ks n (← vecLoop ks n s)

/-- `cordic_n::vector` lib/h/ce/math.h:358-395: magnitude and angle -/
def vectorWith (ks : Nat → Int) (k : Int) (x0 y0 z0 : Int) : Option (Int × Int) := do
  let x ← i64 (x0 * k)
  let y ← i64 (y0 * k)
  let z ← i64 (z0 * 2 ^ 32)
  let s ← if x < 0 then do
      let x' ← i64 (-x)
      let y' ← i64 (-y)
      let z' ← if y' < 0 then i64 (z + 2 ^ 62) else i64 (z - 2 ^ 62)
      some (⟨x', y', z'⟩ : St)
    else some ⟨x, y, z⟩
  let s ← vecLoop ks 32 s
  some (← roundOut s.x, ← roundOut s.z)

/-- the table as the compiler computes it, lib/h/ce/math.h:317 -/
def ks (i : Nat) : Int := (dki i).getD 0

/-- `cordic::rotate` -/
def rotate (x0 y0 z0 : Int) : Option (Int × Int) := rotateWith ks kExpr x0 y0 z0

/-- `cordic::vector` -/
def vector (x0 y0 z0 : Int) : Option (Int × Int) := vectorWith ks kExpr x0 y0 z0

/-- `to_cartesian(r, t)` lib/h/ce/math.h:401 -/
def toCartesian (r t : Int) : Option (Int × Int) := rotate r 0 t

/-- `cos_2pi(r, t)` lib/h/ce/math.h:404 -/
def cos2pi (r t : Int) : Option Int := do some (← rotate r 0 t).1

/-- `sin_2pi(r, t)` lib/h/ce/math.h:407 -/
def sin2pi (r t : Int) : Option Int := do some (← rotate r 0 t).2

/-- `to_polar(x, y)` lib/h/ce/math.h:409 -/
def toPolar (x y : Int) : Option (Int × Int) := vector x y 0

/-- `polar_mag(x, y)` lib/h/ce/math.h:411 -/
def polarMag (x y : Int) : Option Int := do some (← vector x y 0).1

/-- `polar_ang(x, y)` lib/h/ce/math.h:412 -/
def polarAng (x y : Int) : Option Int := do some (← vector x y 0).2

/-- `atan2_2pi(y, x)` lib/h/ce/math.h:415 -/
def atan2 (y x : Int) : Option Int := do some (← vector x y 0).2

end CE.Cordic
