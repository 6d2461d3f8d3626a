import Verif.Spec.Near
/-! Drawing lines along edges of a triangulation. -/
namespace CE.Cdt

/-- edge `j` of face `f` is the one between the two vertices -/
def Mesh.Edge (m : Mesh) (f j u v : Nat) : Prop :=
  (m.corner f (j + 1) = u ∧ m.corner f (j + 2) = v) ∨ (m.corner f (j + 1) = v ∧ m.corner f (j + 2) = u)

/-- `m'` is `m` with the edges between the pairs of vertices constrained, and with no other difference -/
structure Drawn (m m' : Mesh) (es : List (Nat × Nat)) : Prop where
  rest : m' = { m with c := m'.c }
  on : ∀ f j, Used m f → j < 3 → (m'.c (4 * f + j) ≠ 0 ↔ m.c (4 * f + j) ≠ 0 ∨ ∃ e ∈ es, m.Edge f j e.1 e.2)

/-- one call of `insert_edge` after the other, between vertices, with any hints -/
inductive Drawing (limit : Nat) : Mesh → List (Nat × Nat) → Mesh → Prop
  | none (m : Mesh) : Drawing limit m [] m
  | next {m m' m'' k u v hint ok es} (run : insertEdge limit k m (m.x u) (m.y u) (m.x v) (m.y v) hint = some (m', ok))
      (h : Drawing limit m' es m'') : Drawing limit m ((u, v) :: es) m''

/-- the sides of the closed polygon with vertices `v 0`, ..., `v (n - 1)` -/
def sidesOf (n : Nat) (v : Nat → Nat) : List (Nat × Nat) := (List.range n).map fun k => (v k, v (k + 1))

end CE.Cdt
