/-!
# Model of the z-order code (lib/h/ce/zorder.h:30-170)

`uint64_t` values are naturals; operations that can leave 64 bits are reduced modulo 2^64.
-/
namespace CE.Zorder

/-- `a << s` on 64 bits -/
def shl (a s : Nat) : Nat := a <<< s % 2 ^ 64

/-- `~a` on 64 bits -/
def not64 (a : Nat) : Nat := (2 ^ 64 - 1) ^^^ a

/-- `z_expand` lib/h/ce/zorder.h:30-39 -/
def expand (n : Nat) : Nat :=
  let m4 := n
  let m3 := 0x0000ffff0000ffff &&& (m4 ||| shl m4 16)
  let m2 := 0x00ff00ff00ff00ff &&& (m3 ||| shl m3 8)
  let m1 := 0x0f0f0f0f0f0f0f0f &&& (m2 ||| shl m2 4)
  let m0 := 0x3333333333333333 &&& (m1 ||| shl m1 2)
  0x5555555555555555 &&& (m0 ||| shl m0 1)

/-- `uint32_t(x)` -/
def u32 (x : Int) : Nat := (x % 2 ^ 32).toNat

/-- `z_encode` lib/h/ce/zorder.h:41-46 -/
def encode (x y : Int) : Nat :=
  let u := expand (u32 x ^^^ 0x80000000)
  let v := expand (u32 y ^^^ 0x80000000)
  (v + v + u) % 2 ^ 64

/-- the smear lib/h/ce/zorder.h:54-59 -/
def smear (m : Nat) : Nat :=
  let m := m ||| m >>> 2
  let m := m ||| m >>> 4
  let m := m ||| m >>> 8
  let m := m ||| m >>> 16
  m ||| m >>> 32

/-- the bits below the top difference, on its axis lib/h/ce/zorder.h:50-59 -/
def splitMask (lo hi : Nat) : Nat :=
  let d := lo ^^^ hi
  let dx := d &&& 0x5555555555555555
  let dy := d &&& 0xaaaaaaaaaaaaaaaa
  smear (if dx < dy then dy else dx)

/-- what `z_split` returns -/
structure Split where
  /-- the result: worth splitting -/
  go : Bool
  /-- jump out -/
  jo : Nat
  /-- jump in -/
  ji : Nat
deriving DecidableEq, Repr

/-- `z_split` lib/h/ce/zorder.h:48-74 -/
def split (lo hi : Nat) : Split :=
  let m := splitMask lo hi
  let jo := (hi &&& not64 m) ||| m >>> 2
  let ji := (lo ||| m) &&& not64 (m >>> 2)
  let jo := jo &&& not64 0xffff
  let ji := ji &&& not64 0xffff
  ⟨decide ((ji + 2 ^ 64 - jo) % 2 ^ 64 > 0x10000), jo, ji⟩

/-- the loop of `z_lower_bound` lib/h/ce/zorder.h:78-88; `data` is the array, `a` an index -/
def lowerLoop (data : Nat → Nat) (z : Nat) (a n : Nat) : Nat :=
  if h : n > 0 then
    let step := n / 2
    if data (a + step) < z then lowerLoop data z (a + step + 1) (n - (step + 1))
    else lowerLoop data z a step
  else a
termination_by n
decreasing_by all_goals omega

/-- `z_lower_bound` lib/h/ce/zorder.h:76-90 -/
def lowerBound (data : Nat → Nat) (a b z : Nat) : Nat := lowerLoop data z a (b - a)

/-- `z_inside` lib/h/ce/zorder.h:92-109 -/
def inside (lo hi zn : Nat) : Bool :=
  let znx := zn &&& 0x5555555555555555
  let lox := lo &&& 0x5555555555555555
  let hix := hi &&& 0x5555555555555555
  let zny := zn &&& 0xaaaaaaaaaaaaaaaa
  let loy := lo &&& 0xaaaaaaaaaaaaaaaa
  let hiy := hi &&& 0xaaaaaaaaaaaaaaaa
  if znx < lox ∨ znx > hix then false
  else if zny < loy ∨ zny > hiy then false
  else true

/-- addition on 64 bits -/
def add64 (a b : Nat) : Nat := (a + b) % 2 ^ 64

/-- a current box and the stack of boxes still to do, most recent first -/
structure Boxes where
  /-- corner -/
  lo : Nat
  /-- corner -/
  hi : Nat
  /-- `spans`, of capacity 32 pairs -/
  stack : List (Nat × Nat)
deriving DecidableEq, Repr

/-- the pop loop lib/h/ce/zorder.h:126-135; `none` is the return -/
def popTo (zn : Nat) : Nat → Nat → List (Nat × Nat) → Option Boxes
  | lo, hi, stack =>
    if zn > add64 hi 0xffff then
      match stack with
      | [] => none
      | (l, h) :: rest => popTo zn l h rest
    else some ⟨lo, hi, stack⟩

/-- result of looking at one element -/
inductive Look
  /-- write past the end of `spans` -/
  | overflow
  /-- `zn < lo`: jump ahead -/
  | jump (b : Boxes)
  /-- write the element to the output -/
  | emit (b : Boxes)
deriving DecidableEq, Repr

/-- from the label `test_lo` to the output lib/h/ce/zorder.h:137-166.  Every split lowers the highest
bit in which `lo` and `hi` differ, so 64 rounds are enough; running out
of rounds is lumped with the overflow, so that theorems excluding it exclude non-termination too. -/
def look (zn : Nat) : Nat → Boxes → Look
  | 0, _ => .overflow
  | fuel + 1, b =>
    if zn < b.lo then .jump b
    else
      let s := split b.lo b.hi
      if s.go then
        if zn > add64 s.jo 0xffff then look zn fuel ⟨s.ji, b.hi, b.stack⟩
        else if b.stack.length < 32 then look zn fuel ⟨b.lo, s.jo, (s.ji, b.hi) :: b.stack⟩
        else .overflow
      else .emit b

/-- the main loop lib/h/ce/zorder.h:122-167; `none` is a write past the end of `spans` -/
def queryLoop (data : Nat → Nat) (last : Nat) (i : Nat) (b : Boxes) : Option (List Nat) :=
  if h : i < last then
    let zn := data i
    match popTo zn b.lo b.hi b.stack with
    | none => some []
    | some b =>
      match look zn 64 b with
      | .overflow => none
      | .jump b =>
        -- `z_lower_bound` never moves backwards; the maximum makes that evident
        queryLoop data last (max (i + 1) (lowerBound data (i + 1) last b.lo)) b
      | .emit b => (queryLoop data last (i + 1) b).map (zn :: ·)
  else some []
termination_by last - i
decreasing_by all_goals omega

/-- `z_query` lib/h/ce/zorder.h:111-170: the values written to `out`, which the caller must make large
enough -/
def query (lo hi : Nat) (size : Nat) (data : Nat → Nat) : Option (List Nat) :=
  queryLoop data (lowerBound data 0 size (add64 hi 0xffff)) 0 ⟨lo, hi, []⟩

end CE.Zorder
