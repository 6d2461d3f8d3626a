import Verif.Model.Cdt
/-!
# Counting the flips of the triangulation (lib/h/ce/cdt.h)

The functions of `Model/Cdt.lean` again, returning also how often `do_flip` was run.
-/
namespace CE.Cdt

/-- `flip(ae)` lib/h/ce/cdt.h:434-450 with the recursion of `do_flip<true>` lines 343-396, counting the runs of `do_flip`;
`k` bounds the depth of the recursion -/
def flipC : Nat → Mesh → Nat → Option (Mesh × Nat)
  | 0, _, _ => none
  | k + 1, m, ae =>
    if ae % 4 = 3 then none
    else if m.c ae ≠ 0 then some (m, 0)
    else
      let be := m.e ae
      if m.edge ae && m.edge be && m.e be == ae then
        if m.incircle (ae / 4) (m.p be) then do
          let m ← m.doFlip ae
          let (m, c0) ← flipC k m ae
          let (m, c1) ← flipC k m (nx ae)
          let (m, c2) ← flipC k m be
          let (m, c3) ← flipC k m (nx be)
          some (m, c0 + c1 + c2 + c3 + 1)
        else some (m, 0)
      else none

/-- the flips at the end of `insert_point_at_node` lib/h/ce/cdt.h:693-695, 769-772, one after the other -/
def flipsC (k : Nat) : Mesh → List Nat → Option (Mesh × Nat)
  | m, [] => some (m, 0)
  | m, a :: as => do
    let (m, c) ← flipC k m a
    let (m, d) ← flipsC k m as
    some (m, c + d)

/-- `insert_point_at_node(px, py, n)` lib/h/ce/cdt.h:588-781 up to the flips: the mesh, the edges that will be given to `flip`, and
what is returned -/
def placeAt (limit : Nat) (m : Mesh) (px py : Int) (n : Nat) : Option (Mesh × List Nat × Nat) :=
  if n = 0 then some (m, [], 0)
  else
    let un := n / 4 * 4
    if ¬ (m.edge un && m.inFace px py un) then none
    else
      let e := m.code px py un
      if e = 0 then none
      else if e = 1 ∨ e = 2 ∨ e = 4 then some (m, [], un)
      else
        let un' := un + (if e = 3 then 2 else if e = 5 then 1 else if e = 6 then 0 else 3)
        if m.size ≥ limit then some (m, [], 0)
        else if e = 7 then
          some (m.splitFace px py un, [un, m.size * 8 + 1, m.size * 8 + 6], un')
        else
          let ue := un'
          let ve := m.e ue
          if ve = 0 then some (m, [], 0)
          else if m.edge ve && m.e ve == ue then
            let lo := if ve < ue then ve else ue
            let hi := if ve < ue then ue else ve
            some (m.splitEdge px py lo hi, [pv lo, m.size * 8 + 1, nx hi, m.size * 8 + 6], un')
          else none

/-- `insert_point_at_node(px, py, n)` lib/h/ce/cdt.h:588-781: mesh, result, number of flips -/
def insertAtC (limit k : Nat) (m : Mesh) (px py : Int) (n : Nat) : Option (Mesh × Nat × Nat) := do
  let (m, as, r) ← placeAt limit m px py n
  let (m, c) ← flipsC k m as
  some (m, r, c)

/-- `insert_point(px, py, hint)` lib/h/ce/cdt.h:783-786: mesh, result, number of flips; `k` bounds the steps of the walk and `d` the
depth of the recursion of `flip` -/
def insertPointC (limit k d : Nat) (m : Mesh) (px py : Int) (hint : Nat) : Option (Mesh × Nat × Nat) := do
  let n ← locateIns k m px py hint
  insertAtC limit d m px py n

end CE.Cdt
