import Verif.Model.Crc
import Verif.Model.Fnv
/-!
# Model of `ce::random` (lib/h/ce/ce.h:704-850)

Machine words are `BitVec`.  Shifts by the width of the operand are undefined in C++; the model
takes what the machine does in that case as a parameter (`Shl`) and a Boolean function tells when
it matters.
-/
namespace CE.Random

open CE.Crc (U8 U32 U64)

/-- `rotl32` lib/h/ce/ce.h:76-79 (`CE_ROTL32`), used with constants 5, 13, 26 only -/
def rotl32 (x : U32) (i : Nat) : U32 := (x <<< (i % 32)) ||| (x >>> (32 - i % 32))

/-- state of `xoroshiro64ss` (lib/h/ce/ce.h:710-713, w = 32) and of `xoroshiro128pp`
(lib/h/ce/ce.h:745-748, w = 64) -/
@[ext] structure St (w : Nat) where
  a : BitVec w
  b : BitVec w
deriving DecidableEq

/-- state part of `next(xoroshiro64ss&)` lib/h/ce/ce.h:724-729 -/
def step64 (g : St 32) : St 32 :=
  let a := g.a
  let b := g.b ^^^ a
  { a := rotl32 a 26 ^^^ b ^^^ (b <<< 9), b := rotl32 b 13 }

/-- result of `next(xoroshiro64ss&)` lib/h/ce/ce.h:730 -/
def out64 (g : St 32) : U32 := rotl32 (g.a * 0x9e3779bb) 5 * 5

/-- `next(xoroshiro64ss&)` -/
def next64ss (g : St 32) : U32 × St 32 := (out64 g, step64 g)

/-- `next64(xoroshiro64ss&)` lib/h/ce/ce.h:734-738 -/
def next64ss_64 (g : St 32) : U64 × St 32 :=
  let (a, g) := next64ss g
  let (b, g) := next64ss g
  ((a.zeroExtend 64 <<< 32) ||| b.zeroExtend 64, g)

/-- `seed(xoroshiro64ss&, size, data)` lib/h/ce/ce.h:715-722 -/
def seed64ss (data : List U8) : Option (St 32) := do
  let a ← Crc.crc32Bytes Crc.crc32cPoly 0 (data.take (data.length / 2))
  let b ← Crc.crc32Bytes Crc.crc32cPoly a (data.drop (data.length / 2))
  return { a := a, b := b }

/-- `xoroshiro128pp::rotl` lib/h/ce/ce.h:756-758 -/
def rotl64 (x : U64) (k : Nat) : U64 := (x <<< k) ||| (x >>> (64 - k))

/-- state part of `next(xoroshiro128pp&)` lib/h/ce/ce.h:760-766 -/
def step128 (g : St 64) : St 64 :=
  let a := g.a
  let b := g.b
  let c := a ^^^ b
  { a := rotl64 a 49 ^^^ c ^^^ (c <<< 21), b := rotl64 c 28 }

/-- result of `next(xoroshiro128pp&)` lib/h/ce/ce.h:767 -/
def out128 (g : St 64) : U64 := rotl64 (g.a + g.b) 17 + g.a

/-- `seed(xoroshiro128pp&, size, data)` lib/h/ce/ce.h:750-754 -/
def seed128pp (data : List U8) : St 64 :=
  let a := Fnv.fnv1a (k := 1) false data (Fnv.basis 64)
  { a := a, b := Fnv.fnv1a (k := 1) false data a }

/-- what a machine gives for `b << 32` on 32-bit `b`: undefined in C++ -/
abbrev Shl := U32 → U32

/-- `b << n` for `n ≤ 32` on a given machine -/
def shl (m : Shl) (b : U32) (n : Nat) : U32 := if n < 32 then b <<< n else m b

/-- `read(pcg32_64_t)` lib/h/ce/ce.h:780-796 -/
def read (m : Shl) (q : U64) : U32 :=
  let a := (q >>> 59).toNat
  let b : U32 := ((q >>> 27) ^^^ (q >>> 45)).truncate 32
  (b >>> a) ||| shl m b (32 - a)

/-- the shift in `read` is one that C++ leaves undefined -/
def readUndefined (q : U64) : Bool := (q >>> 59).toNat == 0

/-- `step(pcg32_64_t)` lib/h/ce/ce.h:798-801 -/
def step (g : U64) : U64 := 0x5851f42d4c957f2d * g + 0xda3e39cb94b95bdb

/-- `seed(pcg32_64_t&, uint64_t)` lib/h/ce/ce.h:803-806 -/
def seedPcg (state : U64) : U64 := step (step 0 + state)

/-- `seed(pcg32_64_t&, size, data)` lib/h/ce/ce.h:808-811 -/
def seedPcgBytes (data : List U8) : U64 := seedPcg (Fnv.fnv1a (k := 1) false data (Fnv.basis 64))

/-- `next<T>` lib/h/ce/ce.h:813-820, for a generator given by its `read` and `step` -/
def next {G : Type} (read : G → U32) (step : G → G) (g : G) : U32 × G := (read g, step g)

/-- `next_ranged<T>` lib/h/ce/ce.h:822-829 -/
def nextRanged {G : Type} (read : G → U32) (step : G → G) (g : G) (n : U32) : U32 × G :=
  let m : U64 := (n.zeroExtend 64 * (read g).zeroExtend 64) >>> 32
  (m.truncate 32, step g)

/-- the rejection loop of `next_unbiased<T>` lib/h/ce/ce.h:841-846; `none` when `fuel` runs out -/
def unbiasedLoop {G : Type} (read : G → U32) (step : G → G) (n k : U32) :
    Nat → G → U64 → Option (U32 × G)
  | 0, _, _ => none
  | fuel + 1, q, m =>
    if m.truncate 32 < k then
      unbiasedLoop read step n k fuel (step q) (n.zeroExtend 64 * (read q).zeroExtend 64)
    else some ((m >>> 32).truncate 32, q)

/-- `next_unbiased<T>` lib/h/ce/ce.h:831-850 -/
def nextUnbiased {G : Type} (read : G → U32) (step : G → G) (fuel : Nat) (g : G) (n : U32) :
    Option (U32 × G) :=
  let m : U64 := n.zeroExtend 64 * (read g).zeroExtend 64
  let q := step g
  let p : U32 := m.truncate 32
  if p < n then
    let k : U32 := 0 - n % n
    unbiasedLoop read step n k fuel q m
  else some ((m >>> 32).truncate 32, q)

end CE.Random
