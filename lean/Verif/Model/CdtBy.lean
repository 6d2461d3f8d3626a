import Verif.Model.Cdt
/-! `insert_edge` again, with the search for the face of a point left open: it is done by `find`, which may also not answer.
With the walk of the code as `find` this is the function of `Verif/Model/Cdt.lean` (proved as C112_same and C112_lost); the exhaustive
search that the code contains under `#if 0` is another choice. -/
namespace CE.Cdt

open CE.Vec (V2)

/-- how a search for the face of a point is called: mesh, point and hint; `none` when it does not answer -/
abbrev Finder := Mesh → Int → Int → Nat → Option Nat

/-- how a run ends: with a search that does not answer, or with a mesh and the value returned -/
inductive Run
  | lost
  | done (m : Mesh) (ok : Bool)

mutual
/-- `insert_edge(px, py, qx, qy, hint)` lib/h/ce/cdt.h:847-861, up to the loop -/
def insertEdgeBy (find : Finder) (limit : Nat) : Nat → Mesh → Int → Int → Int → Int → Nat → Option Run
  | 0, _, _, _, _, _, _ => none
  | k + 1, m, px, py, qx, qy, hint =>
    match find m px py hint with
    | none => some .lost
    | some n =>
      match insertAt limit k m px py n with
      | none => none
      | some (m, pn) =>
        if pn = 0 then some (.done m false)
        else if px = qx ∧ py = qy then some (.done m true)
        else
          match find m qx qy pn with
          | none => some .lost
          | some n =>
            match insertAt limit k m qx qy n with
            | none => none
            | some (m, qn) =>
              if qn = 0 then some (.done m false)
              else
                match find m px py pn with
                | none => some .lost
                | some pn => edgeLoopBy find limit k m px py qx qy pn

/-- the loop of `insert_edge` lib/h/ce/cdt.h:862-942 -/
def edgeLoopBy (find : Finder) (limit : Nat) : Nat → Mesh → Int → Int → Int → Int → Nat → Option Run
  | 0, _, _, _, _, _, _ => none
  | k + 1, m, px, py, qx, qy, pn =>
    let n := pn / 4 * 4
    let at' (i : Nat) : V2 := ⟨m.x (m.p i) - px, m.y (m.p i) - py⟩
    let q : V2 := ⟨qx - px, qy - py⟩
    if q = ⟨0, 0⟩ then some (.done m true)
    else if at' n = at' (n + 1) ∨ at' (n + 1) = at' (n + 2) ∨ at' (n + 2) = at' n then none
    else if at' n = ⟨0, 0⟩ then cornerBy find limit k m px py q n pn
    else if at' (n + 1) = ⟨0, 0⟩ then cornerBy find limit k m px py q (n + 1) pn
    else if at' (n + 2) = ⟨0, 0⟩ then cornerBy find limit k m px py q (n + 2) pn
    else none

/-- lib/h/ce/cdt.h:877-895 where the point is the corner opposite edge `i`; likewise lines 896-917 and 918-941 -/
def cornerBy (find : Finder) (limit : Nat) : Nat → Mesh → Int → Int → V2 → Nat → Nat → Option Run
  | 0, _, _, _, _, _, _ => none
  | k + 1, m, px, py, q, i, pn =>
    let p1 : V2 := ⟨m.x (m.p (nx i)) - px, m.y (m.p (nx i)) - py⟩
    let p2 : V2 := ⟨m.x (m.p (pv i)) - px, m.y (m.p (pv i)) - py⟩
    let a := p1.x * q.y - p1.y * q.x
    let b := p2.x * q.y - p2.y * q.x
    if a < 0 ∧ b ≥ 0 then
      if b = 0 then
        match constrainEdge k m (nx i) with
        | none => none
        | some m =>
          match find m (px + p2.x) (py + p2.y) (m.e (nx i)) with
          | none => some .lost
          | some pn => edgeLoopBy find limit k m (px + p2.x) (py + p2.y) (px + q.x) (py + q.y) pn
      else
        match m.tryFlip i with
        | none => none
        | some (m, true) =>
          match find m px py pn with
          | none => some .lost
          | some pn => edgeLoopBy find limit k m px py (px + q.x) (py + q.y) pn
        | some (m, false) => splitConstraintBy find limit k m px py q p1 p2 pn
    else edgeLoopBy find limit k m px py (px + q.x) (py + q.y) (m.e (pv i))

/-- `split_constraint` lib/h/ce/cdt.h:827-845 -/
def splitConstraintBy (find : Finder) (limit : Nat) : Nat → Mesh → Int → Int → V2 → V2 → V2 → Nat → Option Run
  | 0, _, _, _, _, _, _, _ => none
  | k + 1, m, px, py, q, a, b, hint =>
    match intersectEdges q a b with
    | none => none
    | some r =>
      if r = ⟨0, 0⟩ ∨ r = q then some (.done m false)
      else
        match insertEdgeBy find limit k m px py (px + r.x) (py + r.y) hint with
        | none => none
        | some .lost => some .lost
        | some (.done m pr) =>
          match insertEdgeBy find limit k m (px + r.x) (py + r.y) (px + q.x) (py + q.y) hint with
          | none => none
          | some .lost => some .lost
          | some (.done m rq) => some (.done m (pr && rq))
end

/-- the exhaustive search of `locate_insertion_node` lib/h/ce/cdt.h:515-525, which is switched off: the last face that contains the
point -/
def search : Finder := fun m px py _ =>
  match (List.range' 6 (2 * m.size - 6)).reverse.find? fun f => m.inFace px py (4 * f) with
  | some f => some (f * 4)
  | none => some 0

open Classical in
/-- the walk of the code lib/h/ce/cdt.h:513-586, without an answer when it never ends -/
noncomputable def walking : Finder := fun m px py hint =>
  if h : ∃ n k, locateIns k m px py hint = some n then some h.choose else none

end CE.Cdt
