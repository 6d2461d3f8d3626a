import Verif.Spec.Delaunay
import Mathlib.Logic.Relation
/-! Constrained edges as walls: what it means that a segment stays in a triangulation. -/
namespace CE.Cdt

/-- a constrained edge between two vertices -/
def Mesh.Wall (m : Mesh) (u v : Nat) : Prop := ∃ f j, Used m f ∧ j < 3 ∧ m.c (4 * f + j) ≠ 0 ∧
  ((m.corner f (j + 1) = u ∧ m.corner f (j + 2) = v) ∨ (m.corner f (j + 1) = v ∧ m.corner f (j + 2) = u))

/-- `w` is within distance `d` (in each coordinate) of a point of the segment from `u` to `v` -/
def Mesh.Along (m : Mesh) (d : ℚ) (u v w : Nat) : Prop := ∃ t : ℚ, 0 ≤ t ∧ t ≤ 1 ∧
  |m.x w - (m.x u + t * (m.x v - m.x u))| ≤ d ∧ |m.y w - (m.y u + t * (m.y v - m.y u))| ≤ d

/-- the segment from `u` to `v` consists of constrained edges -/
def Mesh.Fence (m : Mesh) (u v : Nat) : Prop :=
  Relation.ReflTransGen (fun a b => m.Wall a b ∧ m.Along 0 u v a ∧ m.Along 0 u v b) u v

/-- `w` is less than one unit (in each coordinate) from a point of the segment from `u` to `v` -/
def Mesh.Near (m : Mesh) (u v w : Nat) : Prop := ∃ t : ℚ, 0 ≤ t ∧ t ≤ 1 ∧
  |m.x w - (m.x u + t * (m.x v - m.x u))| < 1 ∧ |m.y w - (m.y u + t * (m.y v - m.y u))| < 1

/-- a way from `u` to `v` along constrained edges with `n` bends, each less than one unit away from the segment it divides -/
inductive Mesh.Route (m : Mesh) : Nat → Nat → Nat → Prop
  | straight {u v} (h : m.Fence u v) : Route m 0 u v
  | pass {n k u v w} (h : m.Along 0 u v w) (a : Route m n u w) (b : Route m k w v) : Route m (n + k) u v
  | bend {n k u v w} (h : m.Near u v w) (a : Route m n u w) (b : Route m k w v) : Route m (n + k + 1) u v

/-- one operation other than `reset` -/
inductive Op (limit : Nat) (m : Mesh) : Mesh → Prop
  | point {m' k px py hint r} (run : insertPoint limit k m px py hint = some (m', r)) : Op limit m m'
  | edge {m' k px py qx qy hint d} (run : insertEdge limit k m px py qx qy hint = some (m', d)) : Op limit m m'
  | constrain {m' k f j} (u : Used m f) (hj : j < 3) (run : constrainEdge k m (4 * f + j) = some m') : Op limit m m'
  | flip {m' k f j} (u : Used m f) (hj : j < 3) (run : flip k m (4 * f + j) = some m') : Op limit m m'
  | tryFlip {m' f j d} (u : Used m f) (hj : j < 3) (run : m.tryFlip (4 * f + j) = some (m', d)) : Op limit m m'
  | fill {m' k f info} (u : Used m f) (run : fill k m (4 * f) info = some m') : Op limit m m'

/-- any number of operations other than `reset` -/
def Later (limit : Nat) : Mesh → Mesh → Prop := Relation.ReflTransGen (Op limit)

end CE.Cdt
