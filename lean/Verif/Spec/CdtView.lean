import Verif.Model.CdtView
import Verif.Spec.Fence
/-! What a user of the views, of the packed storage and of the functions that take user coordinates sees. -/
namespace CE.Cdt

open CE.Vec (V2)

/-- the node of edge `j` of face `f` -/
def EdgeNode (m : Mesh) (n : Nat) : Prop := ∃ f j, Used m f ∧ j < 3 ∧ n = 4 * f + j

/-- the unordered ends of edge `j` of face `f` are `a` and `b` -/
def Mesh.Between (m : Mesh) (n a b : Nat) : Prop := ∃ f j, Used m f ∧ j < 3 ∧ n = 4 * f + j ∧
  ((m.corner f (j + 1) = a ∧ m.corner f (j + 2) = b) ∨ (m.corner f (j + 1) = b ∧ m.corner f (j + 2) = a))

/-- a vertex scaled by `w` -/
def Mesh.scaled (m : Mesh) (w : Int) (v : Nat) : V2 := ⟨m.x v * w, m.y v * w⟩

/-- the words of the storage hold the mesh -/
structure Store.Holds (s : Store) (m : Mesh) : Prop where
  c : ∀ n, n % 4 ≠ 3 → s.c n = m.c n
  p : ∀ n, n % 4 ≠ 3 → s.p n = m.p n
  e : ∀ n, n % 4 ≠ 3 → s.e n = m.e n
  fi : ∀ f, s.fi f = m.fi f
  x : ∀ v, s.x v = m.x v
  y : ∀ v, s.y v = m.y v

/-- the words of the storage hold the part of the mesh that is in use -/
structure Store.Carries (s : Store) (m : Mesh) : Prop where
  word : ∀ i, s i < 65536
  c : ∀ f j, Used m f → j < 3 → s.c (4 * f + j) = m.c (4 * f + j)
  p : ∀ f j, Used m f → j < 3 → s.p (4 * f + j) = m.p (4 * f + j)
  e : ∀ f j, Used m f → j < 3 → s.e (4 * f + j) = m.e (4 * f + j)
  fi : ∀ f, Used m f → s.fi f = m.fi f
  x : ∀ v, v < m.size → s.x v = m.x v
  y : ∀ v, v < m.size → s.y v = m.y v

/-- the grid coordinate of a user coordinate: the even number whose cell of side `2 · 2^Q` holds it -/
def Cell (Q : Nat) (p g : Int) : Prop := g % 2 = 0 ∧ g * 2 ^ Q ≤ p ∧ p < (g + 2) * 2 ^ Q

end CE.Cdt
