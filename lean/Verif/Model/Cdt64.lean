import Verif.Model.Cdt
/-!
# Model of insertion into the triangulation with checked 64-bit arithmetic (lib/h/ce/cdt.h:398-957)

`Verif/Model/Cdt.lean` computes with unbounded integers where the code computes with `int64_t`.  Here every difference, product and sum
of coordinates is checked: `none` also stands for a signed overflow.  The determinant of `incircle` is not checked, it does
overflow (C74).  The assertion of line 622 is included.
-/
namespace CE.Cdt

open CE.Vec (V2 i64)

/-- a vertex seen from the point, `{ vs[v].x - px, vs[v].y - py }`, e.g. lib/h/ce/cdt.h:533 -/
def Mesh.at64 (m : Mesh) (px py : Int) (v : Nat) : Option V2 := do
  let x ← i64 (m.x v - px)
  let y ← i64 (m.y v - py)
  return ⟨x, y⟩

/-- `in(a, b)` lib/h/ce/cdt.h:470-473 -/
def in64 (a b : V2) : Option Bool := do
  let l ← i64 (a.x * b.y)
  let r ← i64 (a.y * b.x)
  return decide (l ≤ r)

/-- `a.x * b.y < a.y * b.x` as in lib/h/ce/cdt.h:421 and 603 -/
def lt64 (a b : V2) : Option Bool := do
  let l ← i64 (a.x * b.y)
  let r ← i64 (a.y * b.x)
  return decide (l < r)

/-- `crossx(a, b)` of `vec2<int64_t>` lib/h/ce/ce.h:627-631 -/
def cross64 (a b : V2) : Option Int := do
  let l ← i64 (a.x * b.y)
  let r ← i64 (a.y * b.x)
  i64 (l - r)

/-- `can_flip(e)` lib/h/ce/cdt.h:398-422 -/
def Mesh.canFlip64 (m : Mesh) (n : Nat) : Option Bool :=
  if m.c n ≠ 0 then some false
  else do
    let x := m.x (m.p n)
    let y := m.y (m.p n)
    let a ← m.at64 x y (m.p (nx n))
    let t := m.e n
    let b ← m.at64 x y (m.p t)
    let c ← m.at64 x y (m.p (nx t))
    let l ← lt64 a b
    if l then lt64 b c else some false

/-- `try_flip(e)` lib/h/ce/cdt.h:424-432 -/
def Mesh.tryFlip64 (m : Mesh) (n : Nat) : Option (Mesh × Bool) := do
  let c ← m.canFlip64 n
  if c then (m.doFlip n).map (·, true) else some (m, false)

/-- `locate_insertion_node(px, py, hint)` lib/h/ce/cdt.h:513-586 -/
def locateIns64 (k : Nat) (m : Mesh) (px py : Int) (hint : Nat) : Option Nat :=
  let hint := if hint < 24 ∨ hint ≥ m.size * 8 then m.size * 8 - 4 else hint
  walkFrom m (m.at64 px py) in64 true k (hint / 4 * 4)

/-- the computations with coordinates and the assertions of `insert_point_at_node` for the face of node `un`,
lib/h/ce/cdt.h:597-622; `false` is a failed assertion -/
def Mesh.face64 (m : Mesh) (px py : Int) (un : Nat) : Option Bool := do
  let a ← m.at64 px py (m.p un)
  let b ← m.at64 px py (m.p (un + 1))
  let c ← m.at64 px py (m.p (un + 2))
  let i1 ← in64 a b
  let i2 ← in64 b c
  let i3 ← in64 c a
  let e1 ← lt64 b c
  let e2 ← lt64 c a
  let e4 ← lt64 a b
  let e := (if e1 then 1 else 0) + (if e2 then 2 else 0) + (if e4 then 4 else 0)
  return i1 && i2 && i3 && e != 0 && (e == 1 || e == 2 || e == 4 || (a != ⟨0, 0⟩ && b != ⟨0, 0⟩ && c != ⟨0, 0⟩))

/-- `insert_point_at_node(px, py, n)` lib/h/ce/cdt.h:588-781; after line 623 it does not compute with coordinates, except in `incircle` -/
def insertAt64 (limit k : Nat) (m : Mesh) (px py : Int) (n : Nat) : Option (Mesh × Nat) :=
  if n = 0 then some (m, 0)
  else do
    let ok ← m.face64 px py (n / 4 * 4)
    if ok then insertAt limit k m px py n else none

/-- `insert_point(px, py, hint)` lib/h/ce/cdt.h:783-786 -/
def insertPoint64 (limit k : Nat) (m : Mesh) (px py : Int) (hint : Nat) : Option (Mesh × Nat) := do
  let n ← locateIns64 k m px py hint
  insertAt64 limit k m px py n

/-- `intersect_edges(q, a, b)` lib/h/ce/cdt.h:812-825 -/
def intersectEdges64 (q a b : V2) : Option V2 := do
  let ux ← i64 (b.x - a.x)
  let uy ← i64 (b.y - a.y)
  let d ← cross64 ⟨ux, uy⟩ q
  if 0 < d then do
    let t ← cross64 q a
    if 0 ≤ t ∧ t ≤ d then do
      let fx ← i64 (ux * t)
      let x ← i64 (a.x + fx.tdiv d)
      let fy ← i64 (uy * t)
      let y ← i64 (a.y + fy.tdiv d)
      some ⟨x, y⟩
    else none
  else none

mutual
/-- `insert_edge(px, py, qx, qy, hint)` lib/h/ce/cdt.h:847-861, up to the loop -/
def insertEdge64 (limit : Nat) : Nat → Mesh → Int → Int → Int → Int → Nat → Option (Mesh × Bool)
  | 0, _, _, _, _, _, _ => none
  | k + 1, m, px, py, qx, qy, hint => do
    let n ← locateIns64 k m px py hint
    let (m, pn) ← insertAt64 limit k m px py n
    if pn = 0 then some (m, false)
    else if px = qx ∧ py = qy then some (m, true)
    else do
      let n ← locateIns64 k m qx qy pn
      let (m, qn) ← insertAt64 limit k m qx qy n
      if qn = 0 then some (m, false)
      else do
        let pn ← locateIns64 k m px py pn
        edgeLoop64 limit k m px py qx qy pn

/-- the loop of `insert_edge` lib/h/ce/cdt.h:862-942 -/
def edgeLoop64 (limit : Nat) : Nat → Mesh → Int → Int → Int → Int → Nat → Option (Mesh × Bool)
  | 0, _, _, _, _, _, _ => none
  | k + 1, m, px, py, qx, qy, pn => do
    let n := pn / 4 * 4
    let p0 ← m.at64 px py (m.p n)
    let p1 ← m.at64 px py (m.p (n + 1))
    let p2 ← m.at64 px py (m.p (n + 2))
    let x ← i64 (qx - px)
    let y ← i64 (qy - py)
    let q : V2 := ⟨x, y⟩
    if q = ⟨0, 0⟩ then some (m, true)
    else if p0 = p1 ∨ p1 = p2 ∨ p2 = p0 then none
    else if p0 = ⟨0, 0⟩ then corner64 limit k m px py q n pn p1 p2
    else if p1 = ⟨0, 0⟩ then corner64 limit k m px py q (n + 1) pn p2 p0
    else if p2 = ⟨0, 0⟩ then corner64 limit k m px py q (n + 2) pn p0 p1
    else none

/-- lib/h/ce/cdt.h:877-895 where the point is the corner opposite edge `i` and `p1`, `p2` are the next ones; likewise lines 896-917
and 918-941 -/
def corner64 (limit : Nat) : Nat → Mesh → Int → Int → V2 → Nat → Nat → V2 → V2 → Option (Mesh × Bool)
  | 0, _, _, _, _, _, _, _, _ => none
  | k + 1, m, px, py, q, i, pn, p1, p2 => do
    let a ← cross64 p1 q
    let b ← cross64 p2 q
    if a < 0 ∧ b ≥ 0 then
      if b = 0 then do
        let m ← constrainEdge k m (nx i)
        let x ← i64 (px + p2.x)
        let y ← i64 (py + p2.y)
        let pn ← locateIns64 k m x y (m.e (nx i))
        edgeLoop64 limit k m x y (px + q.x) (py + q.y) pn
      else do
        let (m, done) ← m.tryFlip64 i
        if done then do
          let pn ← locateIns64 k m px py pn
          edgeLoop64 limit k m px py (px + q.x) (py + q.y) pn
        else splitConstraint64 limit k m px py q p1 p2 pn
    else edgeLoop64 limit k m px py (px + q.x) (py + q.y) (m.e (pv i))

/-- `split_constraint` lib/h/ce/cdt.h:827-845 -/
def splitConstraint64 (limit : Nat) : Nat → Mesh → Int → Int → V2 → V2 → V2 → Nat → Option (Mesh × Bool)
  | 0, _, _, _, _, _, _, _ => none
  | k + 1, m, px, py, q, a, b, hint => do
    let r ← intersectEdges64 q a b
    if r = ⟨0, 0⟩ ∨ r = q then some (m, false)
    else do
      let rx ← i64 (px + r.x)
      let ry ← i64 (py + r.y)
      let (m, pr) ← insertEdge64 limit k m px py rx ry hint
      let sx ← i64 (px + q.x)
      let sy ← i64 (py + q.y)
      let (m, rq) ← insertEdge64 limit k m rx ry sx sy hint
      some (m, pr && rq)
end

/-- `insert_point(p, hint)` with user coordinates lib/h/ce/cdt.h:945-950 -/
def insertPointUser64 (limit k Q : Nat) (m : Mesh) (p : V2) (hint : Nat) : Option (Mesh × Bool) := do
  let (m, r) ← insertPoint64 limit k m (userCoord Q p.x) (userCoord Q p.y) hint
  return (m, r != 0)

/-- `insert_edge(p, q, hint)` with user coordinates lib/h/ce/cdt.h:952-957 -/
def insertEdgeUser64 (limit k Q : Nat) (m : Mesh) (p q : V2) (hint : Nat) : Option (Mesh × Bool) :=
  insertEdge64 limit k m (userCoord Q p.x) (userCoord Q p.y) (userCoord Q q.x) (userCoord Q q.y) hint

end CE.Cdt
