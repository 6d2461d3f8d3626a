import Verif.Model.Vec
/-!
# Model of the 128-bit helpers for MSVC

lib/h/ce/math.h:58-80.  The instructions behind `_mul128` and `_div128` are taken as the processor manual describes them.
-/
namespace CE.Vec

/-- `msvc::int128_t` lib/h/ce/math.h:61-65 -/
structure Wide where
  lo : Int
  hi : Int
deriving DecidableEq

/-- `xmul` lib/h/ce/math.h:67-72 -/
def xmul (a b : Int) : Wide :=
  let p := mul128 a b
  ⟨p.1, p.2⟩

/-- `_div128(high, low, divisor, &remainder)`: the dividend is `high` followed by the bits of `low`; the quotient is cut off
towards zero.  A divisor of zero or a quotient that does not fit 64 bits is an exception of the processor (`none`). -/
def div128 (hi lo d : Int) : Option (Int × Int) :=
  let n := hi * 2 ^ 64 + lo % 2 ^ 64
  if d = 0 then none
  else do
    let q ← i64 (n.tdiv d)
    return (q, n.tmod d)

/-- `xdiv` lib/h/ce/math.h:74-78 -/
def xdiv (n : Wide) (d : Int) : Option Int := do
  let r ← div128 n.hi (to64 n.lo) d
  return r.1

end CE.Vec
