import Verif.Model.Cdt
/-! What a triangulation should be, in terms of its faces and corners.  Face `f` has corners `4 f`, `4 f + 1`, `4 f + 2`;
edge `4 f + j` is opposite corner `j` and goes from corner `j + 1` to corner `j + 2` (modulo 3). -/
namespace CE.Cdt

/-- the faces in use; the first six are placeholders -/
def Used (m : Mesh) (f : Nat) : Prop := 6 ≤ f ∧ f < 2 * m.size

/-- corner `j` of face `f` -/
def Mesh.corner (m : Mesh) (f j : Nat) : Nat := m.p (4 * f + j % 3)

/-- every edge is either on the outline and constrained, or has a twin in a face in use, which has it as twin, has the
same constraint flag and goes between the same vertices the other way -/
structure Linked (m : Mesh) : Prop where
  vertex : ∀ f j, Used m f → m.corner f j < m.size
  twin : ∀ f j, Used m f → j < 3 →
    (m.e (4 * f + j) = 0 ∧ m.c (4 * f + j) = 1) ∨
    ∃ g l, Used m g ∧ l < 3 ∧ m.e (4 * f + j) = 4 * g + l ∧ m.e (4 * g + l) = 4 * f + j ∧ m.c (4 * g + l) = m.c (4 * f + j) ∧
      m.corner g (l + 1) = m.corner f (j + 2) ∧ m.corner g (l + 2) = m.corner f (j + 1)

/-- the edges without a twin are the sides of the square between vertices 0, 1, 2, 3, each once -/
structure Outline (m : Mesh) : Prop where
  corners : (m.x 0, m.y 0) = (-32768, -32768) ∧ (m.x 1, m.y 1) = (32767, -32768) ∧ (m.x 2, m.y 2) = (-32768, 32767) ∧
    (m.x 3, m.y 3) = (32767, 32767)
  only : ∀ f j, Used m f → j < 3 → m.e (4 * f + j) = 0 →
    (m.corner f (j + 1), m.corner f (j + 2)) ∈ [(1, 0), (0, 2), (2, 3), (3, 1)]
  once : ∀ s ∈ [(1, 0), (0, 2), (2, 3), (3, 1)], ∃ i : Nat × Nat, (Used m i.1 ∧ i.2 < 3 ∧ m.e (4 * i.1 + i.2) = 0 ∧
      (m.corner i.1 (i.2 + 1), m.corner i.1 (i.2 + 2)) = s) ∧
    ∀ i' : Nat × Nat, Used m i'.1 → i'.2 < 3 → m.e (4 * i'.1 + i'.2) = 0 →
      (m.corner i'.1 (i'.2 + 1), m.corner i'.1 (i'.2 + 2)) = s → i' = i

/-- twice the signed area of three vertices -/
def Mesh.area (m : Mesh) (a b c : Nat) : Int := (m.x b - m.x a) * (m.y c - m.y a) - (m.y b - m.y a) * (m.x c - m.x a)

/-- every face is strictly clockwise -/
def Clockwise (m : Mesh) : Prop := ∀ f, Used m f → m.area (m.corner f 0) (m.corner f 1) (m.corner f 2) < 0

/-- the coordinates are 16-bit -/
def Coords (m : Mesh) : Prop := ∀ v, v < m.size → (-32768 ≤ m.x v ∧ m.x v ≤ 32767) ∧ (-32768 ≤ m.y v ∧ m.y v ≤ 32767)

/-- the point is in the closed triangle -/
def Mesh.Holds (m : Mesh) (px py : Int) (f : Nat) : Prop :=
  ∀ j, j < 3 → (m.x (m.corner f j) - px) * (m.y (m.corner f (j + 1)) - py) -
    (m.y (m.corner f j) - py) * (m.x (m.corner f (j + 1)) - px) ≤ 0

/-- the meshes a program can have: those made by `reset` and then any sequence of operations that came to an end -/
inductive Reach (limit : Nat) : Mesh → Prop
  | reset (m : Mesh) : Reach limit (CE.Cdt.reset m)
  | point {m m' k px py hint r} (h : Reach limit m) (run : insertPoint limit k m px py hint = some (m', r)) : Reach limit m'
  | edge {m m' k px py qx qy hint d} (h : Reach limit m) (run : insertEdge limit k m px py qx qy hint = some (m', d)) : Reach limit m'
  | constrain {m m' k f j} (h : Reach limit m) (u : Used m f) (hj : j < 3) (run : constrainEdge k m (4 * f + j) = some m') : Reach limit m'
  | flip {m m' k f j} (h : Reach limit m) (u : Used m f) (hj : j < 3) (run : flip k m (4 * f + j) = some m') : Reach limit m'
  | tryFlip {m m' f j d} (h : Reach limit m) (u : Used m f) (hj : j < 3) (run : m.tryFlip (4 * f + j) = some (m', d)) : Reach limit m'
  | fill {m m' k f info} (h : Reach limit m) (u : Used m f) (run : fill k m (4 * f) info = some m') : Reach limit m'

/-- the faces that can be reached from `f` through unconstrained edges without entering a face that carries `info` -/
inductive Region (m : Mesh) (info f : Nat) : Nat → Prop
  | here : Region m info f f
  | next {g j} (h : Region m info f g) (hj : j < 3) (free : m.c (4 * g + j) = 0) (clear : m.fi (m.e (4 * g + j) / 4) ≠ info) :
      Region m info f (m.e (4 * g + j) / 4)

/-- the in-circle determinant of four points: negative when `d` is inside the circle through `a`, `b`, `c` (clockwise) -/
def circleDet (ax ay bx b_y cx cy dx dy : Int) : Int :=
  ((ax - dx) ^ 2 + (ay - dy) ^ 2) * ((bx - dx) * (cy - dy) - (b_y - dy) * (cx - dx)) +
  ((bx - dx) ^ 2 + (b_y - dy) ^ 2) * ((cx - dx) * (ay - dy) - (cy - dy) * (ax - dx)) +
  ((cx - dx) ^ 2 + (cy - dy) ^ 2) * ((ax - dx) * (b_y - dy) - (ay - dy) * (bx - dx))

end CE.Cdt
