/-!
# Model of `ce::crc32` (lib/h/ce/ce.h:437-525)

`uint32_t` is `BitVec 32`.  The template parameter `P` (the reflected polynomial) is an ordinary
argument.  The compile-time tables are functions of the index; indices are always below 256 by
construction (`% 256`, `/ 16777216`, or xor of two bytes), reading elsewhere is `none`.
-/
namespace CE.Crc

abbrev U8 := BitVec 8
abbrev U32 := BitVec 32
abbrev U64 := BitVec 64

/-- `crc(i)` lib/h/ce/ce.h:445 -/
def crc (P i : U32) : U32 := i / 2 ^^^ i % 2 * P

/-- `x8<I>` lib/h/ce/ce.h:446 -/
def x8 (P i : U32) : U32 :=
  crc P (crc P (crc P (crc P (crc P (crc P (crc P (crc P i)))))))

/-- entry `i` of `table<N, ...>::vs` lib/h/ce/ce.h:448-457 -/
def table (P : U32) : Nat → U32 → U32
  | 0, i => x8 P i
  | N + 1, i => table P N i / 256 ^^^ x8 P (table P N i % 256)

/-- `crc32_table<T, N>::vs[i]` : the array has 256 entries -/
def tableAt (P : U32) (N : Nat) (i : U32) : Option U32 :=
  if i.toNat < 256 then some (table P N i) else none

/-- body of the loop of `crc32(T, size_t, uint8_t const[])` lib/h/ce/ce.h:511 -/
def stepByte (P v : U32) (b : U8) : Option U32 := do
  let t ← tableAt P 0 (v % 256 ^^^ b.zeroExtend 32)
  return v / 256 ^^^ t

/-- `crc32(T c, size_t n, uint8_t const p[])` lib/h/ce/ce.h:506-514 -/
def crc32Bytes (P c : U32) (p : List U8) : Option U32 := do
  let v ← p.foldlM (stepByte P) (~~~ c)
  return ~~~ v

/-- body of the loop of `crc32(T, size_t, uint32_t const[])` lib/h/ce/ce.h:496-500 -/
def stepWord (P v : U32) (p : U32) : Option U32 := do
  let v := v ^^^ p
  let t0 ← tableAt P 0 (v / 16777216)
  let t1 ← tableAt P 1 (v / 65536 % 256)
  let t2 ← tableAt P 2 (v / 256 % 256)
  let t3 ← tableAt P 3 (v % 256)
  return t0 ^^^ t1 ^^^ t2 ^^^ t3

/-- `crc32(T c, size_t n, uint32_t const p[])` lib/h/ce/ce.h:490-504 -/
def crc32Words (P c : U32) (p : List U32) : Option U32 := do
  let v ← p.foldlM (stepWord P) (~~~ c)
  return ~~~ v

/-- body of the loop of `crc32(T, size_t, uint64_t const[])` lib/h/ce/ce.h:473-484 -/
def stepLong (P v : U32) (q : U64) : Option U32 := do
  let v := v ^^^ q.truncate 32
  let w : U32 := (q >>> 32).truncate 32
  let t0 ← tableAt P 0 (w / 16777216)
  let t1 ← tableAt P 1 (w / 65536 % 256)
  let t2 ← tableAt P 2 (w / 256 % 256)
  let t3 ← tableAt P 3 (w % 256)
  let t4 ← tableAt P 4 (v / 16777216)
  let t5 ← tableAt P 5 (v / 65536 % 256)
  let t6 ← tableAt P 6 (v / 256 % 256)
  let t7 ← tableAt P 7 (v % 256)
  return t0 ^^^ t1 ^^^ t2 ^^^ t3 ^^^ t4 ^^^ t5 ^^^ t6 ^^^ t7

/-- `crc32(T c, size_t n, uint64_t const p[])` lib/h/ce/ce.h:467-488 -/
def crc32Longs (P c : U32) (p : List U64) : Option U32 := do
  let v ← p.foldlM (stepLong P) (~~~ c)
  return ~~~ v

/-- polynomial of `crc32c_t` lib/h/ce/ce.h:465 -/
def crc32cPoly : U32 := 0x82f63b78

/-- `crc32c(char const (&s)[N])` lib/h/ce/ce.h:516-525; `s` is the whole array, the loop runs
over its first `N - 1` elements (`N` is at least 1 in C++) -/
def crc32c (s : List U8) : Option U32 := do
  let v ← (s.take (s.length - 1)).foldlM (stepByte crc32cPoly) (~~~ 0)
  return ~~~ v

end CE.Crc
