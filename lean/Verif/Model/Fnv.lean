/-!
# Model of `ce::hash::fnv1a` (lib/h/ce/ce.h:529-581)

`T` is `BitVec w` with `w = 32` or `64`; an element of type `U` with `sizeof(U) = k` is a
`BitVec (8 * k)`.  For signed `U` of more than one byte `v >>= 8` is an arithmetic shift, which
changes only bits that are never read, so one model covers both (the `sshift` flag keeps both).
-/
namespace CE.Fnv

/-- `prime` lib/h/ce/ce.h:537 and 543 -/
def prime (w : Nat) : BitVec w := if w = 32 then 0x01000193 else 0x00000100000001B3
/-- `basis` lib/h/ce/ce.h:538 and 544 -/
def basis (w : Nat) : BitVec w := if w = 32 then 0x811c9dc5 else 0xcbf29ce484222325

/-- `(h ^ uint8_t(v)) * Prime` lib/h/ce/ce.h:556, 560 -/
def mix {w : Nat} (h : BitVec w) (v : BitVec 8) : BitVec w := (h ^^^ v.zeroExtend w) * prime w

/-- `v >>= 8`, arithmetic for signed element types -/
def shr8 {n : Nat} (signed : Bool) (v : BitVec n) : BitVec n :=
  if signed then v.sshiftRight 8 else v >>> 8

/-- inner loop lib/h/ce/ce.h:559-560, `left` iterations to go -/
def inner {w n : Nat} (signed : Bool) : Nat → BitVec w → BitVec n → BitVec w
  | 0, h, _ => h
  | left + 1, h, v => inner signed left (mix h ((shr8 signed v).truncate 8)) (shr8 signed v)

/-- body of the outer loop lib/h/ce/ce.h:555-560 for `sizeof(v) = k` -/
def element {w k : Nat} (signed : Bool) (h : BitVec w) (v : BitVec (8 * k)) : BitVec w :=
  inner signed (k - 1) (mix h (v.truncate 8)) v

/-- `fnv1a(size, data, basis)` lib/h/ce/ce.h:548-564 -/
def fnv1a {w k : Nat} (signed : Bool) (data : List (BitVec (8 * k))) (basis : BitVec w) : BitVec w :=
  data.foldl (element signed) basis

/-- `fnv1a(char const text[])` lib/h/ce/ce.h:572-580; the list is the readable memory at `text`,
reading past it is undefined -/
def fnv1aText (h : BitVec 32) : List (BitVec 8) → Option (BitVec 32)
  | [] => none
  | c :: s => if c ≠ 0 then fnv1aText (mix h c) s else some h

end CE.Fnv
