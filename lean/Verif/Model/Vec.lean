/-!
# Model of the vector arithmetic and plane geometry

lib/h/ce/ce.h:583-699 (`vec`, `sqrx`, `dotx`, `crossx`, operators, `in_polygon`) and
lib/h/ce/math.h:36-277 (`ab_less_cd`, `muldiv`, `inside`, `in_range_rr*`, `intersect`).

An `int32_t` or `int64_t` is an `Int`; every arithmetic operation checks that its result fits the
type it is computed in and is `none` (signed overflow, undefined behaviour) otherwise.
-/
namespace CE.Vec

/-- value of a C++ expression of type `int64_t` -/
def i64 (n : Int) : Option Int := if -2 ^ 63 ≤ n ∧ n < 2 ^ 63 then some n else none

/-- value of a C++ expression of type `int32_t` -/
def i32 (n : Int) : Option Int := if -2 ^ 31 ≤ n ∧ n < 2 ^ 31 then some n else none

/-- value of a C++ expression of type `__int128` -/
def i128 (n : Int) : Option Int := if -2 ^ 127 ≤ n ∧ n < 2 ^ 127 then some n else none

/-- the representable values of `int32_t` -/
def Is32 (n : Int) : Prop := -2 ^ 31 ≤ n ∧ n < 2 ^ 31

/-- the representable values of `int64_t` -/
def Is64 (n : Int) : Prop := -2 ^ 63 ≤ n ∧ n < 2 ^ 63

/-- conversion to `int32_t` (modulo 2^32) -/
def to32 (n : Int) : Int := (n + 2 ^ 31) % 2 ^ 32 - 2 ^ 31

/-- conversion to `int64_t` (modulo 2^64) -/
def to64 (n : Int) : Int := (n + 2 ^ 63) % 2 ^ 64 - 2 ^ 63

/-- `vec2<T>` lib/h/ce/ce.h:588 -/
@[ext] structure V2 where
  x : Int
  y : Int
deriving DecidableEq, Repr

/-- `vec3<T>` lib/h/ce/ce.h:589 -/
@[ext] structure V3 where
  x : Int
  y : Int
  z : Int
deriving DecidableEq, Repr

/-! ## expanded products, `int32_t` arguments, `int64_t` results -/

/-- `sqrx(int32_t)` lib/h/ce/ce.h:600 -/
def sqrx1 (a : Int) : Option Int := i64 (a * a)

/-- `dotx(int32_t, int32_t)` lib/h/ce/ce.h:601 -/
def dotx1 (a b : Int) : Option Int := i64 (a * b)

/-- `sqrx(vec2)` lib/h/ce/ce.h:609-613 -/
def sqrx2 (a : V2) : Option Int := do
  let p ← i64 (a.x * a.x)
  let q ← i64 (a.y * a.y)
  i64 (p + q)

/-- `dotx(vec2, vec2)` lib/h/ce/ce.h:615-619 -/
def dotx2 (a b : V2) : Option Int := do
  let p ← i64 (a.x * b.x)
  let q ← i64 (a.y * b.y)
  i64 (p + q)

/-- `dotx(vec3, vec3)` lib/h/ce/ce.h:621-625 -/
def dotx3 (a b : V3) : Option Int := do
  let p ← i64 (a.x * b.x)
  let q ← i64 (a.y * b.y)
  let pq ← i64 (p + q)
  let r ← i64 (a.z * b.z)
  i64 (pq + r)

/-- `crossx(vec2, vec2)` lib/h/ce/ce.h:627-631 -/
def crossx2 (a b : V2) : Option Int := do
  let p ← i64 (a.x * b.y)
  let q ← i64 (a.y * b.x)
  i64 (p - q)

/-- `crossx(vec3, vec3)` lib/h/ce/ce.h:633-637 -/
def crossx3 (a b : V3) : Option V3 := do
  let x1 ← i64 (a.y * b.z)
  let x2 ← i64 (a.z * b.y)
  let x ← i64 (x1 - x2)
  let y1 ← i64 (a.z * b.x)
  let y2 ← i64 (a.x * b.z)
  let y ← i64 (y1 - y2)
  let z1 ← i64 (a.x * b.y)
  let z2 ← i64 (a.y * b.x)
  let z ← i64 (z1 - z2)
  return ⟨x, y, z⟩

/-! ## operators on `vec2<int32_t>`, `vec3<int32_t>` -/

/-- the scalar operators -/
inductive Arith where
  | add | sub | mul | div

/-- `a op b` for `int32_t` operands; division truncates, division by zero is undefined -/
def Arith.eval : Arith → Int → Int → Option Int
  | .add, a, b => i32 (a + b)
  | .sub, a, b => i32 (a - b)
  | .mul, a, b => i32 (a * b)
  | .div, a, b => if b = 0 then none else i32 (a.tdiv b)

/-- `operator+ operator-` on `vec2` lib/h/ce/ce.h:643-644 (`op` is add or sub) -/
def bin2 (op : Arith) (a b : V2) : Option V2 := do
  let x ← op.eval a.x b.x
  let y ← op.eval a.y b.y
  return ⟨x, y⟩

/-- `operator* operator/` on `vec2` and a scalar lib/h/ce/ce.h:645-646 (`op` is mul or div) -/
def scale2 (op : Arith) (a : V2) (b : Int) : Option V2 := do
  let x ← op.eval a.x b
  let y ← op.eval a.y b
  return ⟨x, y⟩

/-- `operator+ operator-` on `vec3` lib/h/ce/ce.h:656-657 -/
def bin3 (op : Arith) (a b : V3) : Option V3 := do
  let x ← op.eval a.x b.x
  let y ← op.eval a.y b.y
  let z ← op.eval a.z b.z
  return ⟨x, y, z⟩

/-- `operator* operator/` on `vec3` and a scalar lib/h/ce/ce.h:658-659 -/
def scale3 (op : Arith) (a : V3) (b : Int) : Option V3 := do
  let x ← op.eval a.x b
  let y ← op.eval a.y b
  let z ← op.eval a.z b
  return ⟨x, y, z⟩

/-- a `const&` operand of a compound assignment to `a`: either an object of its own, or a part of `a` -/
inductive Ref2 where
  | other (v : V2)
  | self

/-- what the reference currently denotes -/
def Ref2.get : Ref2 → V2 → V2
  | .other v, _ => v
  | .self, a => a

/-- a `const&` scalar operand: an object of its own, or one of the components of `a` -/
inductive RefS where
  | other (v : Int)
  | x
  | y
  | z

/-- what the reference currently denotes, in `vec2` -/
def RefS.get2 : RefS → V2 → Int
  | .other v, _ => v
  | .x, a => a.x
  | _, a => a.y

/-- what the reference currently denotes, in `vec3` -/
def RefS.get3 : RefS → V3 → Int
  | .other v, _ => v
  | .x, a => a.x
  | .y, a => a.y
  | .z, a => a.z

/-- `operator+= operator-=` on `vec2` lib/h/ce/ce.h:647-648: two assignments in order, the operand is
read through the reference each time -/
def assign2 (op : Arith) (a : V2) (b : Ref2) : Option V2 := do
  let x ← op.eval a.x (b.get a).x
  let a : V2 := ⟨x, a.y⟩
  let y ← op.eval a.y (b.get a).y
  return ⟨a.x, y⟩

/-- `operator*= operator/=` on `vec2` lib/h/ce/ce.h:649-650 -/
def assignScale2 (op : Arith) (a : V2) (b : RefS) : Option V2 := do
  let x ← op.eval a.x (b.get2 a)
  let a : V2 := ⟨x, a.y⟩
  let y ← op.eval a.y (b.get2 a)
  return ⟨a.x, y⟩

/-- `operator+= operator-=` on `vec3` lib/h/ce/ce.h:660-661; operand not part of `a` or `a` itself -/
def assign3 (op : Arith) (a : V3) (b : Option V3) : Option V3 := do
  let x ← op.eval a.x (b.getD a).x
  let a : V3 := ⟨x, a.y, a.z⟩
  let y ← op.eval a.y (b.getD a).y
  let a : V3 := ⟨a.x, y, a.z⟩
  let z ← op.eval a.z (b.getD a).z
  return ⟨a.x, a.y, z⟩

/-- `operator*= operator/=` on `vec3` lib/h/ce/ce.h:662-663 -/
def assignScale3 (op : Arith) (a : V3) (b : RefS) : Option V3 := do
  let x ← op.eval a.x (b.get3 a)
  let a : V3 := ⟨x, a.y, a.z⟩
  let y ← op.eval a.y (b.get3 a)
  let a : V3 := ⟨a.x, y, a.z⟩
  let z ← op.eval a.z (b.get3 a)
  return ⟨a.x, a.y, z⟩

/-- `operator==` lib/h/ce/ce.h:639 -/
def eq2 (a b : V2) : Bool := a.x == b.x && a.y == b.y

/-- `operator!=` lib/h/ce/ce.h:641 -/
def ne2 (a b : V2) : Bool := a.x != b.x || a.y != b.y

/-- `operator==` with a scalar lib/h/ce/ce.h:640 -/
def eqS2 (a : V2) (b : Int) : Bool := a.x == b && a.y == b

/-- `operator!=` with a scalar lib/h/ce/ce.h:642 -/
def neS2 (a : V2) (b : Int) : Bool := a.x != b || a.y != b

/-- `operator==` lib/h/ce/ce.h:652 -/
def eq3 (a b : V3) : Bool := a.x == b.x && a.y == b.y && a.z == b.z

/-- `operator!=` lib/h/ce/ce.h:654 -/
def ne3 (a b : V3) : Bool := a.x != b.x || a.y != b.y || a.z != b.z

/-- `operator==` with a scalar lib/h/ce/ce.h:653 -/
def eqS3 (a : V3) (b : Int) : Bool := a.x == b && a.y == b && a.z == b

/-- `operator!=` with a scalar lib/h/ce/ce.h:655 -/
def neS3 (a : V3) (b : Int) : Bool := a.x != b || a.y != b || a.z != b

/-! ## comparisons of products -/

/-- `ab_less_cd` (gcc, clang) lib/h/ce/math.h:53-56 -/
def abLessCd (a b c d : Int) : Option Bool := do
  let ab ← i128 (a * b)
  let cd ← i128 (c * d)
  return decide (ab < cd)

/-- `_mul128`: low half (unsigned) and high half (signed) of the 128-bit product -/
def mul128 (a b : Int) : Int × Int := (a * b % 2 ^ 64, a * b / 2 ^ 64)

/-- `ab_less_cd` (MSVC) lib/h/ce/math.h:40-50 -/
def abLessCdMsvc (a b c d : Int) : Option Bool := do
  let ab := mul128 a b
  let cd := mul128 c d
  let s ← i64 (cd.2 + if ab.1 < cd.1 then 1 else 0)
  return decide (ab.2 < s)

/-! ## plane geometry -/

/-- `inside(vec2<int32_t>, vec2<int32_t>)` lib/h/ce/math.h:113-129 (`E` is `int64_t`) -/
def inside (a b : V2) : Option Bool := do
  let axby ← i64 (a.x * b.y)
  let aybx ← i64 (a.y * b.x)
  if axby ≠ aybx then return decide (axby < aybx)
  else if a.y ≠ b.y then return decide (b.y < a.y)
  else return decide (a.x < b.x)

/-- the point-in-triangle test stated at lib/h/ce/math.h:107-109 and used at lib/h/ce/cdt.h:968:
`inside(a - p, b - p) && inside(b - p, c - p) && inside(c - p, a - p)`.  `&&` evaluates left to
right; evaluating all three gives the same value, as `inside` is defined for all 32-bit vectors. -/
def inTriangle (p a b c : V2) : Option Bool := do
  let ax ← i32 (a.x - p.x)
  let ay ← i32 (a.y - p.y)
  let bx ← i32 (b.x - p.x)
  let by' ← i32 (b.y - p.y)
  let cx ← i32 (c.x - p.x)
  let cy ← i32 (c.y - p.y)
  let r ← inside ⟨ax, ay⟩ ⟨bx, by'⟩
  let s ← inside ⟨bx, by'⟩ ⟨cx, cy⟩
  let t ← inside ⟨cx, cy⟩ ⟨ax, ay⟩
  return r && s && t

/-- `in_range_rr` lib/h/ce/math.h:131 -/
def inRange (x y rr : Int) : Option Bool := do
  let pp ← sqrx2 ⟨x, y⟩
  return decide (pp < rr)

/-- `in_range_rr_line` lib/h/ce/math.h:135-145 -/
def inRangeLine (px py rr dx dy : Int) : Option Bool := do
  let pp ← sqrx2 ⟨px, py⟩
  if pp < rr then return true
  else
    let dp ← dotx2 ⟨px, py⟩ ⟨dx, dy⟩
    let dd ← sqrx2 ⟨dx, dy⟩
    let e ← i64 (pp - rr)
    abLessCd dd e dp dp

/-- `in_range_rr_edge` lib/h/ce/math.h:148-163 -/
def inRangeEdge (px py rr dx dy : Int) : Option Bool := do
  let dp ← dotx2 ⟨px, py⟩ ⟨dx, dy⟩
  if dp < 0 then return false
  else
    let pp ← sqrx2 ⟨px, py⟩
    if pp < rr then return true
    else
      let dd ← sqrx2 ⟨dx, dy⟩
      if dp > dd then return false
      else
        let e ← i64 (pp - rr)
        abLessCd dd e dp dp

/-- `in_range_rr_ray` lib/h/ce/math.h:166-179 -/
def inRangeRay (px py rr dx dy : Int) : Option Bool := do
  let pp ← sqrx2 ⟨px, py⟩
  if pp < rr then return true
  else
    let dp ← dotx2 ⟨px, py⟩ ⟨dx, dy⟩
    if dp < 0 then return false
    else
      let dd ← sqrx2 ⟨dx, dy⟩
      let e ← i64 (pp - rr)
      abLessCd dd e dp dp

/-- `in_range_rr_segment` lib/h/ce/math.h:182-202 -/
def inRangeSegment (px py rr dx dy : Int) : Option Bool := do
  let pp ← sqrx2 ⟨px, py⟩
  if pp < rr then return true
  else
    let dp ← dotx2 ⟨px, py⟩ ⟨dx, dy⟩
    if dp < 0 then return false
    else
      let ux ← i64 (px - dx)
      let uy ← i64 (py - dy)
      let uu ← i64 (ux * ux)
      let vv ← i64 (uy * uy)
      let uv ← i64 (uu + vv)
      if uv < rr then return true
      else
        let dd ← sqrx2 ⟨dx, dy⟩
        if dp > dd then return false
        else
          let e ← i64 (pp - rr)
          abLessCd dd e dp dp

/-- `ball_hits_edge` lib/h/ce/math.h:204-207 -/
def ballHitsEdge (p : V2) (rr : Int) (a b : V2) : Option Bool := do
  let px ← i32 (p.x - a.x)
  let py ← i32 (p.y - a.y)
  let dx ← i32 (b.x - a.x)
  let dy ← i32 (b.y - a.y)
  inRangeEdge px py rr dx dy

/-- `ball_hits_ray` lib/h/ce/math.h:209-212 -/
def ballHitsRay (p : V2) (rr : Int) (a b : V2) : Option Bool := do
  let px ← i32 (p.x - a.x)
  let py ← i32 (p.y - a.y)
  let dx ← i32 (b.x - a.x)
  let dy ← i32 (b.y - a.y)
  inRangeRay px py rr dx dy

/-- `n << 16` on `int64_t`.  Before C++20 undefined for negative `n` and on overflow (`strict`);
since C++20, and with the usual compilers before that, modulo 2^64. -/
def shl16 (strict : Bool) (n : Int) : Option Int :=
  if strict then (if n < 0 then none else i64 (n * 2 ^ 16)) else some (to64 (n * 2 ^ 16))

/-- `muldiv(vec2<int32_t>, int64_t, int64_t)` lib/h/ce/math.h:82-93; `>>` of a negative value rounds
down; `d16 = -1` with the quotient `2^63` overflows -/
def muldiv64 (strict : Bool) (b : V2) (n d : Int) : Option V2 := do
  let d16 := d / 2 ^ 16
  if d16 = 0 then return b
  else
    let n16 ← shl16 strict n
    let t ← i64 (n16.tdiv d16)
    let px ← i64 (b.x * t)
    let py ← i64 (b.y * t)
    return ⟨to32 (px / 2 ^ 32), to32 (py / 2 ^ 32)⟩

/-- `muldiv(vec2<int32_t>, int32_t, int32_t)` lib/h/ce/math.h:95-98 -/
def muldiv32 (b : V2) (n d : Int) : Option V2 := do
  let px ← i64 (b.x * n)
  let py ← i64 (b.y * n)
  if d = 0 then none
  else
    let qx ← i64 (px.tdiv d)
    let qy ← i64 (py.tdiv d)
    return ⟨to32 qx, to32 qy⟩

/-- `intersect` lib/h/ce/math.h:261-277 for `vec2<int32_t>`: the returned bool and `result` -/
def intersect (strict : Bool) (p0 p1 q0 q1 : V2) : Option (Bool × V2) := do
  let p ← bin2 .sub p1 p0
  let q ← bin2 .sub q1 q0
  let d ← crossx2 p q
  if d = 0 then return (false, p0)
  else
    let u ← bin2 .sub q0 p0
    let t ← crossx2 u q
    let m ← muldiv64 strict p t d
    let r ← bin2 .add p0 m
    return (true, r)

/-! ## in_polygon -/

/-- sign bit of `a ^ b` for two's complement integers -/
def xorNeg (a b : Int) : Bool := decide (a < 0) != decide (b < 0)

/-- one round of the loop of `in_polygon_xy` lib/h/ce/ce.h:676-691; the winding count is `size_t`,
arithmetic modulo 2^64 -/
def polyRound (x y : Int) (a : V2) (w : Nat) (v : V2) : Option (V2 × Nat) := do
  let bx ← i64 (x - v.x)
  let by' ← i64 (y - v.y)
  if xorNeg a.y by' then
    let l ← i64 (a.x * by')
    let r ← i64 (a.y * bx)
    let ab ← i64 (l - r)
    let s : Int := if xorNeg by' ab then (if ab > 0 then 1 else 0) - (if ab < 0 then 1 else 0) else 0
    return (⟨bx, by'⟩, (((w : Int) + s) % 2 ^ 64).toNat)
  else return (⟨bx, by'⟩, w)

/-- the loop of `in_polygon_xy` lib/h/ce/ce.h:674-692 -/
def polyLoop (x y : Int) (a : V2) (w : Nat) : List V2 → Option Nat
  | [] => some w
  | v :: vs => do
    let r ← polyRound x y a w v
    polyLoop x y r.1 r.2 vs

/-- `in_polygon(p, n, ps)` lib/h/ce/ce.h:665-699 for `int32_t` coordinates (`T` is `int64_t`);
`ps` is the list of the `n` points -/
def inPolygon (p : V2) (ps : List V2) : Option Nat :=
  match ps.getLast? with
  | none => some 0
  | some v => do
    let bx ← i64 (p.x - v.x)
    let by' ← i64 (p.y - v.y)
    polyLoop p.x p.y ⟨bx, by'⟩ 0 ps

/-! ## angles -/

/-- `angle::_45` lib/h/ce/math.h:285 -/
def angle45 : Int := 0x10000000

/-- `degrees_to_angle` lib/h/ce/math.h:418 -/
def degreesToAngle (d : Int) : Option Int := do
  let p ← i64 (d * angle45)
  return to32 (p.tdiv 45)

end CE.Vec
