import Verif.Model.Cdt
/-!
# Model of the rest of lib/h/ce/cdt.h: enumeration, packed storage, the functions that take user coordinates
-/
namespace CE.Cdt

open CE.Vec (V2 i32)

/-! ## enumeration -/

/-- `struct edge` lib/h/ce/cdt.h:153-159 -/
structure EdgeView where
  /-- the one end -/
  u : V2
  /-- the other end -/
  v : V2
  /-- the twin has a smaller number -/
  primary : Bool
  /-- the edge is constrained -/
  constrained : Bool
  deriving DecidableEq

/-- a vertex in user coordinates, `vs[v].x * m2w32` in `int32_t`, lib/h/ce/cdt.h:143, 171-172, 197; `w` is `m2w32` -/
def Mesh.world (m : Mesh) (w : Int) (v : Nat) : Option V2 := do
  let x ← i32 (m.x v * w)
  let y ← i32 (m.y v * w)
  return ⟨x, y⟩

/-- `operator[](edge_id_t)` lib/h/ce/cdt.h:161-176 and `*it` of `edges()` lib/h/ce/cdt.h:187-202 -/
def Mesh.edgeAt (m : Mesh) (w : Int) (en : Nat) : Option EdgeView := do
  let u ← m.world w (m.p (nx en))
  let v ← m.world w (m.p (pv en))
  return ⟨u, v, decide (m.e en < en), decide (m.c en ≠ 0)⟩

/-- `edge_vert_a(e)` lib/h/ce/cdt.h:486-490 -/
def Mesh.vertA (m : Mesh) (w : Int) (e : Nat) : Option V2 := m.world w (m.p (nx e))
/-- `edge_vert_b(e)` lib/h/ce/cdt.h:493-497 -/
def Mesh.vertB (m : Mesh) (w : Int) (e : Nat) : Option V2 := m.world w (m.p (pv e))
/-- `edge_vert_o(e)` lib/h/ce/cdt.h:500-504 -/
def Mesh.vertO (m : Mesh) (w : Int) (e : Nat) : Option V2 := m.world w (m.p e)

/-- `struct face` lib/h/ce/cdt.h:129-135 -/
structure FaceView where
  /-- corners -/
  ps : V2 × V2 × V2
  /-- twins of the edges -/
  es : Nat × Nat × Nat
  /-- constrained -/
  cs : Bool × Bool × Bool
  /-- user information -/
  data : Nat
  deriving DecidableEq

/-- `operator[](face_id_t)` lib/h/ce/cdt.h:137-151, which is also `*it` of `faces()` -/
def Mesh.faceAt (m : Mesh) (w : Int) (fn : Nat) : Option FaceView := do
  let n := fn / 4
  let a ← m.world w (m.p (4 * n))
  let b ← m.world w (m.p (4 * n + 1))
  let c ← m.world w (m.p (4 * n + 2))
  return ⟨(a, b, c), (m.e (4 * n), m.e (4 * n + 1), m.e (4 * n + 2)),
    (decide (m.c (4 * n) ≠ 0), decide (m.c (4 * n + 1) ≠ 0), decide (m.c (4 * n + 2) ≠ 0)), m.fi n⟩

/-- `operator++` of `edges()` lib/h/ce/cdt.h:204-208 -/
def edgeNext (en : Nat) : Nat := if en % 4 < 2 then en + 1 else en + 2

/-- `operator++` of `faces()` lib/h/ce/cdt.h:230-234 -/
def faceNext (fn : Nat) : Nat := fn + 4

/-- `begin()` lib/h/ce/cdt.h:213, 239 -/
def viewBegin : Nat := 24

/-- `end()` lib/h/ce/cdt.h:214, 240 -/
def Mesh.viewEnd (m : Mesh) : Nat := if m.size < 4 then 24 else 4 * 2 * m.size

/-- a loop `for (auto x : view)`: the positions at which it stops until `!=` fails, lib/h/ce/cdt.h:210, 236 -/
def visit (next : Nat → Nat) (last : Nat) : Nat → Nat → Option (List Nat)
  | 0, _ => none
  | k + 1, n => if n ≠ last then do
      let l ← visit next last k (next n)
      return n :: l
    else some []

/-- the positions of `for (auto e : mesh.edges())` -/
def Mesh.edgeList (k : Nat) (m : Mesh) : Option (List Nat) := visit edgeNext m.viewEnd k viewBegin

/-- the positions of `for (auto f : mesh.faces())` -/
def Mesh.faceList (k : Nat) (m : Mesh) : Option (List Nat) := visit faceNext m.viewEnd k viewBegin

/-! ## packed storage -/

/-- the union of lib/h/ce/cdt.h:121-127 as an array of 16-bit words -/
abbrev Store : Type := Nat → Nat

/-- `es[n].c`: the low three bits of the first word of `edge_data`, lib/h/ce/cdt.h:57-62.  The order of bit-fields is up to the
compiler; this is that of the platforms the library supports. -/
def Store.c (s : Store) (n : Nat) : Nat := s (2 * n) % 8
/-- `es[n].p`: the other thirteen bits -/
def Store.p (s : Store) (n : Nat) : Nat := s (2 * n) / 8 % 8192
/-- `es[n].e`: the second word -/
def Store.e (s : Store) (n : Nat) : Nat := s (2 * n + 1) % 65536
/-- `fs[f].fi`: word 6 of `face_data` lib/h/ce/cdt.h:97-114 -/
def Store.fi (s : Store) (f : Nat) : Nat := s (8 * f + 6) % 65536
/-- `vs[v].x`: word 7 of `vert_data` lib/h/ce/cdt.h:65-94 -/
def Store.x (s : Store) (v : Nat) : Int := i16 (s (16 * v + 7))
/-- `vs[v].y`: word 15 of `vert_data` lib/h/ce/cdt.h:65-94 -/
def Store.y (s : Store) (v : Nat) : Int := i16 (s (16 * v + 15))

/-- `es[n].c = v` -/
def Store.setC (s : Store) (n v : Nat) : Store := upd s (2 * n) (s (2 * n) / 8 * 8 + v % 8)
/-- `es[n].p = v` -/
def Store.setP (s : Store) (n v : Nat) : Store := upd s (2 * n) (s (2 * n) % 8 + v % 8192 * 8)
/-- `es[n].e = v` -/
def Store.setE (s : Store) (n v : Nat) : Store := upd s (2 * n + 1) (v % 65536)
/-- `fs[f].fi = v` -/
def Store.setFi (s : Store) (f v : Nat) : Store := upd s (8 * f + 6) (v % 65536)
/-- `vs[n].x = v`, a conversion to `int16_t` -/
def Store.setX (s : Store) (n : Nat) (v : Int) : Store := upd s (16 * n + 7) (v % 65536).toNat
/-- `vs[n].y = v`, a conversion to `int16_t` -/
def Store.setY (s : Store) (n : Nat) (v : Int) : Store := upd s (16 * n + 15) (v % 65536).toNat

/-! ## user coordinates -/

/-- `insert_point(vec2<int32_t> const& p, size_t hint)` lib/h/ce/cdt.h:945-950 -/
def insertPointUser (limit k Q : Nat) (m : Mesh) (p : V2) (hint : Nat) : Option (Mesh × Bool) := do
  let r ← insertPoint limit k m (userCoord Q p.x) (userCoord Q p.y) hint
  return (r.1, decide (r.2 ≠ 0))

/-- `insert_edge(vec2<int32_t> const& p, vec2<int32_t> const& q, size_t hint)` lib/h/ce/cdt.h:952-957 -/
def insertEdgeUser (limit k Q : Nat) (m : Mesh) (p q : V2) (hint : Nat) : Option (Mesh × Bool) :=
  insertEdge limit k m (userCoord Q p.x) (userCoord Q p.y) (userCoord Q q.x) (userCoord Q q.y) hint

/-- `c_limit` lib/h/ce/cdt.h:43 -/
def cLimit (N : Nat) : Nat := if N < 8 * 1024 then N else 8 * 1024

end CE.Cdt
