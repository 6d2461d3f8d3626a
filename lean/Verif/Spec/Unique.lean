import Verif.Spec.Delaunay
/-! What it means that two triangulations have the same faces, and that no four points are on an empty circle. -/
namespace CE.Cdt

/-- the position of a vertex -/
def Mesh.pos (m : Mesh) (v : Nat) : Int × Int := (m.x v, m.y v)

/-- `d` relative to the circle through the clockwise triangle `a b c`: negative inside, zero on it -/
def inCircle (a b c d : Int × Int) : Int := circleDet a.1 a.2 b.1 b.2 c.1 c.2 d.1 d.2

/-- `a b c` is clockwise -/
def Turns (a b c : Int × Int) : Prop := (b.1 - a.1) * (c.2 - a.2) - (b.2 - a.2) * (c.1 - a.1) < 0

/-- no circle with none of the points inside goes through four of them -/
def NoFour (S : Int × Int → Prop) : Prop :=
  ∀ a b c d, S a → S b → S c → S d → Turns a b c → inCircle a b c d = 0 → d = a ∨ d = b ∨ d = c ∨ ∃ e, S e ∧ inCircle a b c e < 0

/-- every face of `m` is one of `m'`: its corners are at the same places, in the same cyclic order -/
def FacesOf (m m' : Mesh) : Prop :=
  ∀ f, Used m f → ∃ g s, Used m' g ∧ s < 3 ∧ ∀ j, j < 3 → m'.pos (m'.corner g (j + s)) = m.pos (m.corner f j)

/-- the corners of the square -/
def squareCorners : List (Int × Int) := [(-32768, -32768), (32767, -32768), (-32768, 32767), (32767, 32767)]

/-- an empty mesh into which the points were inserted, one after the other (the last one first in the list), each time with
success -/
inductive Filled (limit : Nat) : List (Int × Int) → Mesh → Prop
  | reset (m : Mesh) : Filled limit [] (CE.Cdt.reset m)
  | point {l m m' k px py hint r} (h : Filled limit l m) (run : insertPoint limit k m px py hint = some (m', r)) (ok : r ≠ 0) :
      Filled limit ((px, py) :: l) m'

end CE.Cdt
