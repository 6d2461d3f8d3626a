import Verif.Model.Buf
import Verif.Model.Vec
/-!
# Model of the triangulation (lib/h/ce/cdt.h)

The union of lib/h/ce/cdt.h:121-127 is modelled by one map per field: `c`, `p`, `e` are the fields of `es[n]`, that is
of the edges `a_c0 … b_e2` of a `vert_data` and `c0 … e2` of a `face_data`; `fi n` is `fs[n].fi`; `x n`, `y n` are
`vs[n].x`, `vs[n].y`.  Node `4 f + 3` is not an edge (its storage is `fi` and a coordinate).

`none` is a failed `CE_ASSERT` or an edge outside the nodes in use; the assertions of `validate_face` are treated
separately.  Functions with unbounded loops or recursion take the number of rounds they may make, and are `none` when
it does not suffice.
-/
namespace CE.Cdt

/-- lib/h/ce/cdt.h:120-127 -/
structure Mesh where
  /-- number of vertices -/
  size : Nat
  /-- constrained -/
  c : Nat → Nat
  /-- opposite vertex -/
  p : Nat → Nat
  /-- twin -/
  e : Nat → Nat
  /-- coordinate of a vertex -/
  x : Nat → Int
  /-- coordinate of a vertex -/
  y : Nat → Int
  /-- user information of a face -/
  fi : Nat → Nat

/-- the next edge of the face, `n % 4 < 2 ? n + 1 : n - 2`, e.g. lib/h/ce/cdt.h:355 -/
def nx (n : Nat) : Nat := if n % 4 < 2 then n + 1 else n - 2

/-- the previous edge of the face, `n % 4 > 0 ? n - 1 : n + 2`, e.g. lib/h/ce/cdt.h:356 -/
def pv (n : Nat) : Nat := if n % 4 > 0 then n - 1 else n + 2

/-- an edge of a face in use -/
def Mesh.edge (m : Mesh) (n : Nat) : Bool := 24 ≤ n && n < 8 * m.size && n % 4 != 3

/-- writing `es[n].c` -/
def Mesh.setC (m : Mesh) (n v : Nat) : Mesh := { m with c := upd m.c n v }
/-- writing `es[n].p` -/
def Mesh.setP (m : Mesh) (n v : Nat) : Mesh := { m with p := upd m.p n v }
/-- writing `es[n].e` -/
def Mesh.setE (m : Mesh) (n v : Nat) : Mesh := { m with e := upd m.e n v }
/-- `if (n != 0) es[n].e = v` -/
def Mesh.setE' (m : Mesh) (n v : Nat) : Mesh := if n ≠ 0 then m.setE n v else m
/-- writing `fs[n].fi` -/
def Mesh.setFi (m : Mesh) (n v : Nat) : Mesh := { m with fi := upd m.fi n v }
/-- writing `vs[n].x` -/
def Mesh.setX (m : Mesh) (n : Nat) (v : Int) : Mesh := { m with x := upd m.x n v }
/-- writing `vs[n].y` -/
def Mesh.setY (m : Mesh) (n : Nat) (v : Int) : Mesh := { m with y := upd m.y n v }

/-- `reset` lib/h/ce/cdt.h:245-282.  The rest of the arrays keeps what it had. -/
def reset (m : Mesh) : Mesh where
  size := 4
  c n := if n < 24 then (if n % 4 = 3 then m.c n else 1)
    else if n = 24 then 0 else if n = 25 then 1 else if n = 26 then 1
    else if n = 28 then 0 else if n = 29 then 1 else if n = 30 then 1 else m.c n
  p n := if n < 24 then (if n % 4 = 3 then m.p n else 0)
    else if n = 24 then 0 else if n = 25 then 2 else if n = 26 then 1
    else if n = 28 then 3 else if n = 29 then 1 else if n = 30 then 2 else m.p n
  e n := if n < 24 then (if n % 4 = 3 then m.e n else 0)
    else if n = 24 then 28 else if n = 25 then 0 else if n = 26 then 0
    else if n = 28 then 24 else if n = 29 then 0 else if n = 30 then 0 else m.e n
  x n := if n = 0 then -32768 else if n = 1 then 32767 else if n = 2 then -32768 else if n = 3 then 32767 else m.x n
  y n := if n = 0 then -32768 else if n = 1 then -32768 else if n = 2 then 32767 else if n = 3 then 32767 else m.y n
  fi n := if n < 8 then 0 else m.fi n

/-- cross product of (b - a) and (c - a) for vertices `a`, `b`, `c`, as `crossx(b - a, c - a)` lib/h/ce/cdt.h:308;
differences of 16-bit coordinates, so nothing overflows -/
def Mesh.cr (m : Mesh) (a b c : Nat) : Int :=
  (m.x b - m.x a) * (m.y c - m.y a) - (m.y b - m.y a) * (m.x c - m.x a)

/-- `validate_face` lib/h/ce/cdt.h:284-312 without the assertions of lines 292-294, on the face of edge `n` -/
def Mesh.validFace (m : Mesh) (n : Nat) : Bool :=
  let f := n / 4 * 4
  m.p f != m.p (f + 1) && m.p (f + 1) != m.p (f + 2) && m.p (f + 2) != m.p f &&
  m.e (m.e (m.e f)) == m.e f && m.e (m.e (m.e (f + 1))) == m.e (f + 1) && m.e (m.e (m.e (f + 2))) == m.e (f + 2) &&
  m.c (m.e f) == m.c f && m.c (m.e (f + 1)) == m.c (f + 1) && m.c (m.e (f + 2)) == m.c (f + 2) &&
  decide (m.cr (m.p f) (m.p (f + 1)) (m.p (f + 2)) < 0) && decide (m.cr (m.p (f + 1)) (m.p (f + 2)) (m.p f) < 0) &&
  decide (m.cr (m.p (f + 2)) (m.p f) (m.p (f + 1)) < 0)

/-- the assertions `f.e0 != f.e1` etc. of lib/h/ce/cdt.h:292-294 -/
def Mesh.distinctTwins (m : Mesh) (n : Nat) : Bool :=
  let f := n / 4 * 4
  m.e f != m.e (f + 1) && m.e (f + 1) != m.e (f + 2) && m.e (f + 2) != m.e f

/-- two's complement reduction to `int64_t` -/
def w64 (v : Int) : Int := (v + 2 ^ 63) % 2 ^ 64 - 2 ^ 63

/-- the determinant computed by `incircle` lib/h/ce/cdt.h:322-340 from the six differences, in two's complement
arithmetic; differences and the expressions of lines 329-334 fit, see C74 -/
def incircleSum (ax ay bx by' cx cy : Int) : Int :=
  let aa := ax * ax + ay * ay
  let bb := bx * bx + by' * by'
  let cc := cx * cx + cy * cy
  let bc := bx * cy - by' * cx
  let ca := cx * ay - cy * ax
  let ab := ax * by' - ay * bx
  let aabc := w64 (aa * bc)
  let bbca := w64 (bb * ca)
  let ccab := w64 (cc * ab)
  w64 (w64 (aabc + bbca) + ccab)

/-- `incircle(f, v)` lib/h/ce/cdt.h:314-341 -/
def Mesh.incircle (m : Mesh) (f v : Nat) : Bool :=
  let x := m.x v
  let y := m.y v
  decide (incircleSum (m.x (m.p (4 * f)) - x) (m.y (m.p (4 * f)) - y) (m.x (m.p (4 * f + 1)) - x) (m.y (m.p (4 * f + 1)) - y)
    (m.x (m.p (4 * f + 2)) - x) (m.y (m.p (4 * f + 2)) - y) < 0)

/-- the determinant of `incircle` lib/h/ce/cdt.h:322-340 with every intermediate value checked: `none` when a signed
64-bit operation overflows, which C++ leaves undefined -/
def incircle64 (ax ay bx by' cx cy : Int) : Option Int := do
  let aa ← CE.Vec.i64 ((← CE.Vec.i64 (ax * ax)) + (← CE.Vec.i64 (ay * ay)))
  let bb ← CE.Vec.i64 ((← CE.Vec.i64 (bx * bx)) + (← CE.Vec.i64 (by' * by')))
  let cc ← CE.Vec.i64 ((← CE.Vec.i64 (cx * cx)) + (← CE.Vec.i64 (cy * cy)))
  let bc ← CE.Vec.i64 ((← CE.Vec.i64 (bx * cy)) - (← CE.Vec.i64 (by' * cx)))
  let ca ← CE.Vec.i64 ((← CE.Vec.i64 (cx * ay)) - (← CE.Vec.i64 (cy * ax)))
  let ab ← CE.Vec.i64 ((← CE.Vec.i64 (ax * by')) - (← CE.Vec.i64 (ay * bx)))
  let aabc ← CE.Vec.i64 (aa * bc)
  let bbca ← CE.Vec.i64 (bb * ca)
  let ccab ← CE.Vec.i64 (cc * ab)
  CE.Vec.i64 ((← CE.Vec.i64 (aabc + bbca)) + ccab)

/-- the checked determinant of `incircle(f, v)` lib/h/ce/cdt.h:314-341 -/
def Mesh.incircle64 (m : Mesh) (f v : Nat) : Option Int :=
  let x := m.x v
  let y := m.y v
  CE.Cdt.incircle64 (m.x (m.p (4 * f)) - x) (m.y (m.p (4 * f)) - y) (m.x (m.p (4 * f + 1)) - x) (m.y (m.p (4 * f + 1)) - y)
    (m.x (m.p (4 * f + 2)) - x) (m.y (m.p (4 * f + 2)) - y)

/-- `do_flip(n)` up to the recursive flips lib/h/ce/cdt.h:343-388 -/
def Mesh.doFlip (m : Mesh) (ae : Nat) : Option Mesh :=
  let be := m.e ae
  if m.edge ae && m.edge be && m.c ae == 0 && m.e be == ae && m.c be == 0 then
    let a1 := nx ae
    let a2 := pv ae
    let b1 := nx be
    let b2 := pv be
    let m := m.setP a1 (m.p be)
    let m := m.setP b1 (m.p ae)
    let u2 := m.e a2
    let v2 := m.e b2
    let m := m.setE ae v2
    let m := m.setE' v2 ae
    let m := m.setE be u2
    let m := m.setE' u2 be
    let m := m.setC ae (m.c b2)
    let m := m.setC b2 0
    let m := m.setC be (m.c a2)
    let m := m.setC a2 0
    let m := m.setE a2 b2
    let m := m.setE b2 a2
    some m
  else none

/-- `can_flip(e)` lib/h/ce/cdt.h:398-422; only read for unconstrained edges -/
def Mesh.canFlip (m : Mesh) (n : Nat) : Bool :=
  if m.c n ≠ 0 then false
  else
    let x := m.x (m.p n)
    let y := m.y (m.p n)
    let p1 := m.p (nx n)
    let ax := m.x p1 - x
    let ay := m.y p1 - y
    let t := m.e n
    let q0 := m.p t
    let q1 := m.p (nx t)
    let bx := m.x q0 - x
    let by' := m.y q0 - y
    let cx := m.x q1 - x
    let cy := m.y q1 - y
    decide (ax * by' < ay * bx) && decide (bx * cy < by' * cx)

/-- `try_flip(e)` lib/h/ce/cdt.h:424-432 -/
def Mesh.tryFlip (m : Mesh) (n : Nat) : Option (Mesh × Bool) :=
  if m.canFlip n then (m.doFlip n).map (·, true) else some (m, false)

/-- `flip(ae)` lib/h/ce/cdt.h:434-450 with the recursion of `do_flip<true>` lines 389-395; `k` bounds the depth -/
def flip : Nat → Mesh → Nat → Option Mesh
  | 0, _, _ => none
  | k + 1, m, ae =>
    if ae % 4 = 3 then none
    else if m.c ae ≠ 0 then some m
    else
      let be := m.e ae
      if m.edge ae && m.edge be && m.e be == ae then
        if m.incircle (ae / 4) (m.p be) then do
          let m ← m.doFlip ae
          let m ← flip k m ae
          let m ← flip k m (nx ae)
          let m ← flip k m be
          flip k m (nx be)
        else some m
      else none

/-- `in(a, b)` lib/h/ce/cdt.h:470-473 -/
def inn (ax ay bx by' : Int) : Bool := decide (ax * by' ≤ ay * bx)

/-- `int16_t(v)` -/
def i16 (v : Int) : Int := (v + 32768) % 65536 - 32768

/-- the code of lib/h/ce/cdt.h:603 for a point and a face: which edges the point is strictly inside of -/
def Mesh.code (m : Mesh) (px py : Int) (un : Nat) : Nat :=
  let ax := m.x (m.p un) - px
  let ay := m.y (m.p un) - py
  let bx := m.x (m.p (un + 1)) - px
  let by' := m.y (m.p (un + 1)) - py
  let cx := m.x (m.p (un + 2)) - px
  let cy := m.y (m.p (un + 2)) - py
  (if bx * cy < by' * cx then 1 else 0) + (if cx * ay < cy * ax then 2 else 0) + (if ax * by' < ay * bx then 4 else 0)

/-- the assertion `in(a, b) && in(b, c) && in(c, a)` lib/h/ce/cdt.h:601 -/
def Mesh.inFace (m : Mesh) (px py : Int) (un : Nat) : Bool :=
  let ax := m.x (m.p un) - px
  let ay := m.y (m.p un) - py
  let bx := m.x (m.p (un + 1)) - px
  let by' := m.y (m.p (un + 1)) - py
  let cx := m.x (m.p (un + 2)) - px
  let cy := m.y (m.p (un + 2)) - py
  inn ax ay bx by' && inn bx by' cx cy && inn cx cy ax ay

/-- writing the first new face and `x` of the new vertex `pn`, when the point goes into the face of node `u0`:
lib/h/ce/cdt.h:649-665 -/
def Mesh.faceV (m : Mesh) (px : Int) (pn u0 : Nat) : Mesh :=
  let v0 := 8 * pn
  let w0 := v0 + 4
  let m := m.setC v0 0
  let m := m.setP v0 (m.p u0)
  let m := m.setE v0 (u0 + 1)
  let m := m.setC (v0 + 1) (m.c (u0 + 1))
  let m := m.setP (v0 + 1) pn
  let m := m.setE (v0 + 1) (m.e (u0 + 1))
  let m := m.setE' (m.e (u0 + 1)) (v0 + 1)
  let m := m.setC (v0 + 2) 0
  let m := m.setP (v0 + 2) (m.p (u0 + 2))
  let m := m.setE (v0 + 2) (w0 + 1)
  let m := m.setFi (2 * pn) (m.fi (u0 / 4))
  m.setX pn (i16 px)

/-- writing the second new face and `y`: lib/h/ce/cdt.h:667-683 -/
def Mesh.faceW (m : Mesh) (py : Int) (pn u0 : Nat) : Mesh :=
  let v0 := 8 * pn
  let w0 := v0 + 4
  let m := m.setC w0 0
  let m := m.setP w0 (m.p u0)
  let m := m.setE w0 (u0 + 2)
  let m := m.setC (w0 + 1) 0
  let m := m.setP (w0 + 1) (m.p (u0 + 1))
  let m := m.setE (w0 + 1) (v0 + 2)
  let m := m.setC (w0 + 2) (m.c (u0 + 2))
  let m := m.setP (w0 + 2) pn
  let m := m.setE (w0 + 2) (m.e (u0 + 2))
  let m := m.setE' (m.e (u0 + 2)) (w0 + 2)
  let m := m.setFi (2 * pn + 1) (m.fi (u0 / 4))
  m.setY pn (i16 py)

/-- changing the face itself: lib/h/ce/cdt.h:685-691 -/
def Mesh.faceU (m : Mesh) (pn u0 : Nat) : Mesh :=
  let v0 := 8 * pn
  let w0 := v0 + 4
  let m := m.setP u0 pn
  let m := m.setC (u0 + 1) 0
  let m := m.setE (u0 + 1) v0
  let m := m.setC (u0 + 2) 0
  m.setE (u0 + 2) w0

/-- the point goes into the face of node `u0`: lib/h/ce/cdt.h:641-691, before the flips -/
def Mesh.splitFace (m : Mesh) (px py : Int) (u0 : Nat) : Mesh :=
  let pn := m.size
  let m := { m with size := pn + 1 }
  ((m.faceV px pn u0).faceW py pn u0).faceU pn u0

/-- the half of an edge insertion on the side of `ue`: lib/h/ce/cdt.h:725-745 -/
def Mesh.edgeX (m : Mesh) (px : Int) (pn ue : Nat) : Mesh :=
  let u1 := nx ue
  let u2 := pv ue
  let xn := 8 * pn
  let yn := 8 * pn + 4
  let m := m.setC xn (m.c ue)
  let m := m.setP xn (m.p ue)
  let m := m.setE xn yn
  let m := m.setC (xn + 1) (m.c u1)
  let m := m.setP (xn + 1) pn
  let m := m.setE (xn + 1) (m.e u1)
  let m := m.setE' (m.e u1) (xn + 1)
  let m := m.setC (xn + 2) 0
  let m := m.setP (xn + 2) (m.p u2)
  let m := m.setE (xn + 2) u1
  let m := m.setFi (2 * pn) (m.fi (ue / 4))
  let m := m.setX pn (i16 px)
  let m := m.setE u1 (xn + 2)
  let m := m.setC u1 0
  m.setP u2 pn

/-- the half of an edge insertion on the side of `ve`: lib/h/ce/cdt.h:747-767 -/
def Mesh.edgeY (m : Mesh) (py : Int) (pn ve : Nat) : Mesh :=
  let v1 := nx ve
  let v2 := pv ve
  let xn := 8 * pn
  let yn := 8 * pn + 4
  let m := m.setC yn (m.c ve)
  let m := m.setP yn (m.p ve)
  let m := m.setE yn xn
  let m := m.setC (yn + 1) 0
  let m := m.setP (yn + 1) (m.p v1)
  let m := m.setE (yn + 1) v2
  let m := m.setC (yn + 2) (m.c v2)
  let m := m.setP (yn + 2) pn
  let m := m.setE (yn + 2) (m.e v2)
  let m := m.setE' (m.e v2) (yn + 2)
  let m := m.setFi (2 * pn + 1) (m.fi (ve / 4))
  let m := m.setY pn (i16 py)
  let m := m.setE v2 (yn + 1)
  let m := m.setC v2 0
  m.setP v1 pn

/-- the point goes on the edge `ue` with twin `ve`, `ue < ve`: lib/h/ce/cdt.h:714-767, before the flips -/
def Mesh.splitEdge (m : Mesh) (px py : Int) (ue ve : Nat) : Mesh :=
  let pn := m.size
  let m := { m with size := pn + 1 }
  (m.edgeX px pn ue).edgeY py pn ve

/-- `insert_point_at_node(px, py, n)` lib/h/ce/cdt.h:588-781; `limit` is `c_limit`, `k` bounds the flips -/
def insertAt (limit k : Nat) (m : Mesh) (px py : Int) (n : Nat) : Option (Mesh × Nat) :=
  if n = 0 then some (m, 0)
  else
    let un := n / 4 * 4
    if ¬ (m.edge un && m.inFace px py un) then none
    else
      let e := m.code px py un
      if e = 0 then none
      else if e = 1 ∨ e = 2 ∨ e = 4 then some (m, un)
      else
        let un' := un + (if e = 3 then 2 else if e = 5 then 1 else if e = 6 then 0 else 3)
        if m.size ≥ limit then some (m, 0)
        else if e = 7 then do
          let v0 := m.size * 8
          let m := m.splitFace px py un
          let m ← flip k m un
          let m ← flip k m (v0 + 1)
          let m ← flip k m (v0 + 6)
          some (m, un')
        else
          let ue := un'
          let ve := m.e ue
          if ve = 0 then some (m, 0)
          else if m.edge ve && m.e ve == ue then do
            let lo := if ve < ue then ve else ue
            let hi := if ve < ue then ue else ve
            let xn := m.size * 8
            let m := m.splitEdge px py lo hi
            let m ← flip k m (pv lo)
            let m ← flip k m (xn + 1)
            let m ← flip k m (nx hi)
            let m ← flip k m (xn + 6)
            some (m, un')
          else none

/-- `constrain_edge(en)` lib/h/ce/cdt.h:788-809 -/
def constrainEdge (k : Nat) (m : Mesh) (en : Nat) : Option Mesh :=
  if m.edge en then do
    let m := (m.setC (m.e en) 1).setC en 1
    let e1 := nx en
    let e2 := nx e1
    let m ← flip k m (nx e1)
    let m ← flip k m (nx e2)
    let e1 := nx (m.e en)
    let e2 := nx e1
    let m ← flip k m (nx e1)
    flip k m (nx e2)
  else none

/-! ## walking to a point -/

open CE.Vec (V2 i32 inside)

/-- the walk of `locate_insertion_node` lib/h/ce/cdt.h:540-583 and `locate` lib/h/ce/cdt.h:985-1028, which differ in the
edge test `ins`, in how a vertex is seen from the point (`at'`) and in the assertion (`asrt`).  `spin` tells whether
the code is in the inner loop (lines 561-575, 1006-1018); `k` bounds the number of steps. -/
def walk (m : Mesh) (at' : Nat → Option V2) (ins : V2 → V2 → Option Bool) (asrt : Bool) :
    Nat → Bool → Nat → V2 → V2 → Option Nat
  | 0, _, _, _, _ => none
  | k + 1, false, e, p1, p2 =>
    if e = 0 then some 0
    else do
      let p0 ← at' (m.p e)
      let in1 ← ins p2 p0
      let in2 ← ins p0 p1
      if in1 && in2 then some e
      else if in1 then walk m at' ins asrt k false (m.e (pv e)) p1 p0
      else if in2 then walk m at' ins asrt k false (m.e (nx e)) p0 p2
      else walk m at' ins asrt k true (m.e (nx e)) p0 p2
  | k + 1, true, e, p1, p2 => do
    let ok ← if asrt then ins p1 p2 else some true
    if ¬ ok then none
    else if e = 0 then some 0
    else do
      let p0 ← at' (m.p e)
      let in2 ← ins p0 p1
      if in2 then do
        let in1 ← ins p2 p0
        if in1 then some e
        else walk m at' ins asrt k false (m.e (nx e)) p0 p2
      else walk m at' ins asrt k true (m.e (pv e)) p1 p0

/-- the beginning of both functions, lib/h/ce/cdt.h:530-538 and 976-983 -/
def walkFrom (m : Mesh) (at' : Nat → Option V2) (ins : V2 → V2 → Option Bool) (asrt : Bool) (k e : Nat) :
    Option Nat := do
  let p1 ← at' (m.p (e + 1))
  let p2 ← at' (m.p (e + 2))
  let i ← ins p1 p2
  if i then walk m at' ins asrt k false e p1 p2 else walk m at' ins asrt k false (m.e e) p2 p1

/-- `locate_insertion_node(px, py, hint)` lib/h/ce/cdt.h:513-586 -/
def locateIns (k : Nat) (m : Mesh) (px py : Int) (hint : Nat) : Option Nat :=
  let hint := if hint < 24 ∨ hint ≥ m.size * 8 then m.size * 8 - 4 else hint
  walkFrom m (fun v => some ⟨m.x v - px, m.y v - py⟩) (fun a b => some (inn a.x a.y b.x b.y)) true k (hint / 4 * 4)

/-- a vertex seen from the point: `vs[v].x * m2w32 - px` in `int32_t` lib/h/ce/cdt.h:977 -/
def Mesh.at32 (m : Mesh) (w px py : Int) (v : Nat) : Option V2 := do
  let sx ← i32 (m.x v * w)
  let x ← i32 (sx - px)
  let sy ← i32 (m.y v * w)
  let y ← i32 (sy - py)
  return ⟨x, y⟩

/-- `locate(px, py, hint)` lib/h/ce/cdt.h:959-1030; `w` is `m2w32` -/
def locate (k : Nat) (m : Mesh) (w px py : Int) (hint : Nat) : Option Nat := do
  let e := hint / 4 * 4
  let e := if e < 24 ∨ e > m.size * 8 - 4 then m.size * 8 - 4 else e
  let r ← walkFrom m (m.at32 w px py) inside false k e
  return if r = 0 then 0 else r ||| 3

/-- `insert_point(px, py, hint)` lib/h/ce/cdt.h:783-786 -/
def insertPoint (limit k : Nat) (m : Mesh) (px py : Int) (hint : Nat) : Option (Mesh × Nat) := do
  let n ← locateIns k m px py hint
  insertAt limit k m px py n

/-- `(p >> Q) & ~1` of lib/h/ce/cdt.h:949 -/
def userCoord (Q : Nat) (p : Int) : Int := p / 2 ^ Q / 2 * 2

/-- `intersect_edges(q, a, b)` lib/h/ce/cdt.h:812-825 -/
def intersectEdges (q a b : V2) : Option V2 :=
  let ux := b.x - a.x
  let uy := b.y - a.y
  let d := ux * q.y - uy * q.x
  if 0 < d then
    let t := q.x * a.y - q.y * a.x
    if 0 ≤ t ∧ t ≤ d then some ⟨a.x + (ux * t).tdiv d, a.y + (uy * t).tdiv d⟩ else none
  else none

mutual
/-- `insert_edge(px, py, qx, qy, hint)` lib/h/ce/cdt.h:847-861, up to the loop -/
def insertEdge (limit : Nat) : Nat → Mesh → Int → Int → Int → Int → Nat → Option (Mesh × Bool)
  | 0, _, _, _, _, _, _ => none
  | k + 1, m, px, py, qx, qy, hint => do
    let n ← locateIns k m px py hint
    let (m, pn) ← insertAt limit k m px py n
    if pn = 0 then some (m, false)
    else if px = qx ∧ py = qy then some (m, true)
    else do
      let n ← locateIns k m qx qy pn
      let (m, qn) ← insertAt limit k m qx qy n
      if qn = 0 then some (m, false)
      else do
        let pn ← locateIns k m px py pn
        edgeLoop limit k m px py qx qy pn

/-- the loop of `insert_edge` lib/h/ce/cdt.h:862-942; its three branches differ only in which corner of the face is the
point -/
def edgeLoop (limit : Nat) : Nat → Mesh → Int → Int → Int → Int → Nat → Option (Mesh × Bool)
  | 0, _, _, _, _, _, _ => none
  | k + 1, m, px, py, qx, qy, pn =>
    let n := pn / 4 * 4
    let at' (i : Nat) : V2 := ⟨m.x (m.p i) - px, m.y (m.p i) - py⟩
    let q : V2 := ⟨qx - px, qy - py⟩
    if q = ⟨0, 0⟩ then some (m, true)
    else if at' n = at' (n + 1) ∨ at' (n + 1) = at' (n + 2) ∨ at' (n + 2) = at' n then none
    else if at' n = ⟨0, 0⟩ then corner limit k m px py q n pn
    else if at' (n + 1) = ⟨0, 0⟩ then corner limit k m px py q (n + 1) pn
    else if at' (n + 2) = ⟨0, 0⟩ then corner limit k m px py q (n + 2) pn
    else none

/-- lib/h/ce/cdt.h:877-895 where the point is the corner opposite edge `i`; likewise lines 896-917 and 918-941 -/
def corner (limit : Nat) : Nat → Mesh → Int → Int → V2 → Nat → Nat → Option (Mesh × Bool)
  | 0, _, _, _, _, _, _ => none
  | k + 1, m, px, py, q, i, pn =>
    let p1 : V2 := ⟨m.x (m.p (nx i)) - px, m.y (m.p (nx i)) - py⟩
    let p2 : V2 := ⟨m.x (m.p (pv i)) - px, m.y (m.p (pv i)) - py⟩
    let a := p1.x * q.y - p1.y * q.x
    let b := p2.x * q.y - p2.y * q.x
    if a < 0 ∧ b ≥ 0 then
      if b = 0 then do
        let m ← constrainEdge k m (nx i)
        let pn ← locateIns k m (px + p2.x) (py + p2.y) (m.e (nx i))
        edgeLoop limit k m (px + p2.x) (py + p2.y) (px + q.x) (py + q.y) pn
      else do
        let (m, done) ← m.tryFlip i
        if done then do
          let pn ← locateIns k m px py pn
          edgeLoop limit k m px py (px + q.x) (py + q.y) pn
        else splitConstraint limit k m px py q p1 p2 pn
    else edgeLoop limit k m px py (px + q.x) (py + q.y) (m.e (pv i))

/-- `split_constraint` lib/h/ce/cdt.h:827-845 -/
def splitConstraint (limit : Nat) : Nat → Mesh → Int → Int → V2 → V2 → V2 → Nat → Option (Mesh × Bool)
  | 0, _, _, _, _, _, _, _ => none
  | k + 1, m, px, py, q, a, b, hint => do
    let r ← intersectEdges q a b
    if r = ⟨0, 0⟩ ∨ r = q then some (m, false)
    else do
      let (m, pr) ← insertEdge limit k m px py (px + r.x) (py + r.y) hint
      let (m, rq) ← insertEdge limit k m (px + r.x) (py + r.y) (px + q.x) (py + q.y) hint
      some (m, pr && rq)
end

/-! ## painting -/

/-- one of the three pushes of `fill_ex` lib/h/ce/cdt.h:1042-1047: edge `n`, stack `st` with the top first -/
def push1 (info n : Nat) (s : Mesh × List Nat) : Mesh × List Nat :=
  if s.1.c n = 0 ∧ s.1.fi (s.1.e n / 4) ≠ info then (s.1.setFi (s.1.e n / 4) info, s.1.e n / 4 :: s.2) else s

/-- the three pushes of `fill_ex` lib/h/ce/cdt.h:1042-1047 -/
def pushes (info f : Nat) (s : Mesh × List Nat) : Mesh × List Nat :=
  push1 info (4 * f + 2) (push1 info (4 * f + 1) (push1 info (4 * f) s))

mutual
/-- the loop of `fill_ex(f, info)` lib/h/ce/cdt.h:1040-1054 with stack `st`; more than 256 entries overrun `q`;
`k` bounds the number of rounds -/
def fillEx (info : Nat) : Nat → Mesh → Nat → List Nat → Option Mesh
  | 0, _, _, _ => none
  | k + 1, m, f, st =>
    let (m, st) := pushes info f (m, st)
    if 256 < st.length then none
    else if st = [] then some m
    else do
      let (m, st) ← drain info k m st
      match st with
      | g :: st => fillEx info k m g st
      | [] => none

/-- `while (i > 253) fill_ex(q[--i], info)` lib/h/ce/cdt.h:1052-1053 -/
def drain (info : Nat) : Nat → Mesh → List Nat → Option (Mesh × List Nat)
  | 0, _, _ => none
  | k + 1, m, st =>
    if 253 < st.length then
      match st with
      | g :: st => do
        let m ← fillEx info k m g []
        drain info k m st
      | [] => none
    else some (m, st)
end

/-- `fill(n, info)` lib/h/ce/cdt.h:1057-1070 -/
def fill (k : Nat) (m : Mesh) (n info : Nat) : Option Mesh :=
  let f := n / 4
  if f = 0 then some m
  else if m.fi f = info then some m
  else fillEx info k (m.setFi f info) f []

end CE.Cdt
