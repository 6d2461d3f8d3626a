import Verif.Model.Zorder
/-!
# How many stored codes `z_query` looks at (lib/h/ce/zorder.h:76-170)

The functions of Model/Zorder once more, with a second result: how often an element of the array was read.
-/
namespace CE.ZorderCost
open CE.Zorder

/-- the loop of `z_lower_bound` lib/h/ce/zorder.h:78-88: the index, and the number of reads `*i` -/
def lowerLoop (data : Nat → Nat) (z : Nat) (a n : Nat) : Nat × Nat :=
  if h : n > 0 then
    let step := n / 2
    let r := if data (a + step) < z then lowerLoop data z (a + step + 1) (n - (step + 1)) else lowerLoop data z a step
    (r.1, r.2 + 1)
  else (a, 0)
termination_by n
decreasing_by all_goals omega

/-- `z_lower_bound` lib/h/ce/zorder.h:76-90 -/
def lowerBound (data : Nat → Nat) (a b z : Nat) : Nat × Nat := lowerLoop data z a (b - a)

/-- the main loop lib/h/ce/zorder.h:122-167: the output, and the number of reads `*data++` and of those of `z_lower_bound`;
`none` is a write past the end of `spans` -/
def queryLoop (data : Nat → Nat) (last : Nat) (i : Nat) (b : Boxes) : Option (List Nat × Nat) :=
  if h : i < last then
    let zn := data i
    match popTo zn b.lo b.hi b.stack with
    | none => some ([], 1)
    | some b =>
      match look zn 64 b with
      | .overflow => none
      | .jump b =>
        let r := lowerBound data (i + 1) last b.lo
        -- `z_lower_bound` never moves backwards; the maximum makes that evident
        (queryLoop data last (max (i + 1) r.1) b).map fun q => (q.1, q.2 + r.2 + 1)
      | .emit b => (queryLoop data last (i + 1) b).map fun q => (zn :: q.1, q.2 + 1)
  else some ([], 0)
termination_by last - i
decreasing_by all_goals omega

/-- `z_query` lib/h/ce/zorder.h:111-170 -/
def query (lo hi : Nat) (size : Nat) (data : Nat → Nat) : Option (List Nat × Nat) :=
  let r := lowerBound data 0 size (add64 hi 0xffff)
  (queryLoop data r.1 0 ⟨lo, hi, []⟩).map fun q => (q.1, q.2 + r.2)

end CE.ZorderCost
