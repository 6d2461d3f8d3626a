import Verif.Model.Cdt
/-!
# Model of the functions of the triangulation that nothing in the header calls (lib/h/ce/cdt.h:452-483)

`none` is an overflow of signed 64-bit arithmetic.
-/
namespace CE.Cdt

open CE.Vec (i64)

/-- one comparison of `refine`, `ax * by < ay * bx` lib/h/ce/cdt.h:458 -/
def less64 (ax ay bx by' : Int) : Option Bool := do
  return decide ((← i64 (ax * by')) < (← i64 (ay * bx)))

/-- `refine(x, y, n)` lib/h/ce/cdt.h:452-468 -/
def Mesh.refine (m : Mesh) (x y : Int) (n : Nat) : Option Nat := do
  let ax ← i64 (m.x (m.p (n + 0)) - x)
  let ay ← i64 (m.y (m.p (n + 0)) - y)
  let bx ← i64 (m.x (m.p (n + 1)) - x)
  let by' ← i64 (m.y (m.p (n + 1)) - y)
  let cx ← i64 (m.x (m.p (n + 2)) - x)
  let cy ← i64 (m.y (m.p (n + 2)) - y)
  let e := (if ← less64 bx by' cx cy then 1 else 0) + (if ← less64 cx cy ax ay then 2 else 0) +
    (if ← less64 ax ay bx by' then 4 else 0)
  return match e with
    | 3 => n + 2
    | 5 => n + 1
    | 6 => n + 0
    | 7 => n + 3
    | _ => 0

/-- `on` lib/h/ce/cdt.h:475-478 -/
def on64 (ax ay bx by' : Int) : Option Bool := do
  return decide ((← i64 (ax * by')) = (← i64 (ay * bx)))

/-- `collinear` lib/h/ce/cdt.h:480-483 -/
def collinear64 (ax ay bx by' cx cy : Int) : Option Bool := do
  on64 (← i64 (bx - ax)) (← i64 (by' - ay)) (← i64 (cx - ax)) (← i64 (cy - ay))

end CE.Cdt
