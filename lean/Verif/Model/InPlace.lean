import Verif.Model.Vec
import Verif.Model.Zorder
import Verif.Model.Base64
/-!
# Output that overlaps the input

Three functions write through a pointer or reference while they still read through others: `intersect`
(lib/h/ce/math.h:261-277), `z_query` (lib/h/ce/zorder.h:111-170) and `base64::decode` (lib/h/ce/ce.h:879-892).
Here all of them work on one memory, and the arguments are addresses in it, so that any overlap can be expressed.
-/
namespace CE.InPlace

/-- a store to address `r` -/
def upd {X : Type} (m : Nat → X) (r : Nat) (v : X) : Nat → X := fun k => if k = r then v else m k

section
open CE.Vec

/-- `intersect` lib/h/ce/math.h:261-277 for `vec2<int32_t>` objects at five addresses: what is returned, and the memory
afterwards -/
def intersect (strict : Bool) (m : Nat → V2) (p0 p1 q0 q1 r : Nat) : Option (Bool × (Nat → V2)) := do
  let m := upd m r (m p0)
  let p ← bin2 .sub (m p1) (m p0)
  let q ← bin2 .sub (m q1) (m q0)
  let d ← crossx2 p q
  if d = 0 then return (false, m)
  else
    let u ← bin2 .sub (m q0) (m p0)
    let t ← crossx2 u q
    let k ← muldiv64 strict p t d
    let s ← bin2 .add (m p0) k
    return (true, upd m r s)

end

section
open CE.Zorder

/-- the main loop of `z_query` lib/h/ce/zorder.h:122-167 on a memory of `uint64_t`: `data` and `last` are addresses, `out` is
the address of the output and `size` the number of elements written; `none` is a write past the end of `spans` -/
def queryLoop (out last data : Nat) (b : Boxes) (m : Nat → Nat) (size : Nat) : Option (Nat × (Nat → Nat)) :=
  if h : data < last then
    let zn := m data
    match popTo zn b.lo b.hi b.stack with
    | none => some (size, m)
    | some b =>
      match look zn 64 b with
      | .overflow => none
      | .jump b => queryLoop out last (max (data + 1) (lowerBound m (data + 1) last b.lo)) b m size
      | .emit b => queryLoop out last (data + 1) b (upd m (out + size) zn) (size + 1)
  else some (size, m)
termination_by last - data
decreasing_by all_goals omega

/-- `z_query(out, lo, hi, size, data)` lib/h/ce/zorder.h:111-170: the number of elements written, and the memory -/
def query (out lo hi size data : Nat) (m : Nat → Nat) : Option (Nat × (Nat → Nat)) :=
  queryLoop out (lowerBound m data (data + size) (add64 hi 0xffff)) data ⟨lo, hi, []⟩ m 0

end

section
open CE.Base64

/-- the loop of `base64::decode` lib/h/ce/ce.h:885-891 on a memory of bytes, of which `[0, len)` may be read: `n` more bytes
are to be written, the next one is number `i` -/
def decodeLoop (dst src len : Nat) : Nat → Nat → (Nat → Nat) → Option (Nat → Nat)
  | 0, _, m => some m
  | n + 1, i, m =>
    if src + i * 4 % 2 ^ 64 / 3 + 1 < len then
      let a := m (src + i * 4 % 2 ^ 64 / 3)
      let b := m (src + i * 4 % 2 ^ 64 / 3 + 1)
      let s := i % 3 * 2 + 2
      decodeLoop dst src len n (i + 1) (upd m (dst + i) (((dec a <<< s) + (dec b >>> (6 - s))) % 256))
    else none

/-- `base64::decode(size, dst, src)` lib/h/ce/ce.h:879-892 -/
def decode (size dst src len : Nat) (m : Nat → Nat) : Option (Nat → Nat) := decodeLoop dst src len size 0 m

end

end CE.InPlace
