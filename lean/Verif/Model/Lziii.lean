/-!
# Model of `ce::lziii` (lib/h/ce/lziii.h:34-101)

`size_t` is 64 bits, arithmetic on it wraps.  The encoded array is a list; advancing an index is
taking the tail, and reading when nothing is left is a read outside the array: `none`.  Cells of the
destination that were not written yet are `none` and must not be read either.
-/
namespace CE.Lziii

abbrev U8 := BitVec 8

/-- `size_t` arithmetic wraps -/
def w64 (n : Nat) : Nat := n % 2 ^ 64

/-- `b = i + q % 16 * 256 + p - 4096` lib/h/ce/lziii.h:84 -/
def spanBegin (i : Nat) (p q : U8) : Nat :=
  w64 (i + q.toNat % 16 * 256 + p.toNat + (2 ^ 64 - 4096))

/-- `e = b + q / 16 + 3` lib/h/ce/lziii.h:84 -/
def spanEnd (b : Nat) (q : U8) : Nat := w64 (b + q.toNat / 16 + 3)

/-- `if (c == 1) c = data[i++] | 0x100;` lib/h/ce/lziii.h:51-52, 78-79 -/
def fetch (c : Nat) (src : List U8) : Option (Nat × List U8) :=
  if c = 1 then
    match src with
    | [] => none
    | x :: src => some (x.toNat ||| 0x100, src)
  else some (c, src)

theorem fetch_length {c c' : Nat} {src src' : List U8} (h : fetch c src = some (c', src')) :
    src'.length ≤ src.length := by
  unfold fetch at h
  split at h
  · split at h
    · cases h
    · simp only [Option.some.injEq, Prod.mk.injEq] at h; rw [← h.2]; simp
  · simp only [Option.some.injEq, Prod.mk.injEq] at h; rw [← h.2]; simp

/-- the loop of `size` lib/h/ce/lziii.h:46-67; `src` is what is left from index `i`.  `++i` may move
past the end without a read; then `src` stays empty. -/
def sizeLoop (c n : Nat) (src : List U8) : Option Nat :=
  if hs : src = [] then some n
  else
    match hf : fetch c src with
    | none => none
    | some (c, rest) =>
      let n := w64 (n + 1)
      if c % 2 = 0 then
        match h2 : rest.drop 1 with
        | [] => none
        | q :: rest' => sizeLoop (c / 2) (w64 (n + (2 + q.toNat / 16))) rest'
      else sizeLoop (c / 2) n (rest.drop 1)
termination_by src.length
decreasing_by
  · have := fetch_length hf
    have e := congrArg List.length h2
    simp at e; omega
  · have := fetch_length hf
    have : src.length ≠ 0 := by simpa using hs
    simp; omega

/-- `size(encoded_size, data)` lib/h/ce/lziii.h:41-69 -/
def size (src : List U8) : Option Nat := sizeLoop 1 0 src

/-- destination array: its size and its cells -/
abbrev Cells := Nat → Option U8

/-- `dst_data[b]` for reading -/
def rd (D : Nat) (dst : Cells) (b : Nat) : Option U8 := if b < D then dst b else none

/-- `dst_data[i] = x` -/
def wr (D : Nat) (dst : Cells) (i : Nat) (x : U8) : Option Cells :=
  if i < D then some (fun j => if j = i then some x else dst j) else none

/-- `for (...; b < e; ++b) dst_data[i++] = dst_data[b];` lib/h/ce/lziii.h:84-85, `k = e - b` -/
def copyLoop (D : Nat) : Nat → Cells → Nat → Nat → Option (Cells × Nat)
  | 0, dst, i, _ => some (dst, i)
  | k + 1, dst, i, b => do
    let x ← rd D dst b
    let dst ← wr D dst i x
    copyLoop D k dst (i + 1) (b + 1)

/-- the reads of one round of `decode`, lib/h/ce/lziii.h:78-84: the control byte when needed, `p`,
and for a span `q`; gives `c`, `p`, `q` and what is left -/
def token (c : Nat) (src : List U8) : Option (Nat × U8 × Option U8 × List U8) :=
  match fetch c src with
  | none => none
  | some (_, []) => none
  | some (c, p :: rest) =>
    if c % 2 = 0 then
      match rest with
      | [] => none
      | q :: rest => some (c, p, some q, rest)
    else some (c, p, none, rest)

theorem token_length {c c' : Nat} {src src' : List U8} {p : U8} {q : Option U8}
    (h : token c src = some (c', p, q, src')) : src'.length < src.length := by
  unfold token at h
  split at h
  · cases h
  · cases h
  · rename_i c1 p1 rest hf
    have hl := fetch_length hf
    simp only [List.length_cons] at hl
    split at h
    · split at h
      · cases h
      · simp only [Option.some.injEq, Prod.mk.injEq] at h
        simp only [List.length_cons] at hl
        rw [← h.2.2.2]; omega
    · simp only [Option.some.injEq, Prod.mk.injEq] at h
      rw [← h.2.2.2]; omega

/-- the writes of one round of `decode`, lib/h/ce/lziii.h:83-87 -/
def emit (D : Nat) (dst : Cells) (i : Nat) (p : U8) : Option U8 → Option (Cells × Nat)
  | some q => copyLoop D (spanEnd (spanBegin i p q) q - spanBegin i p q) dst i (spanBegin i p q)
  | none => do
    let dst ← wr D dst i p
    return (dst, i + 1)

/-- the loop of `decode` lib/h/ce/lziii.h:76-90 -/
def decodeLoop (D : Nat) (dst : Cells) (i c : Nat) (src : List U8) : Option Cells :=
  if i < D then
    match ht : token c src with
    | none => none
    | some (c, p, q, rest) =>
      match emit D dst i p q with
      | none => none
      | some (dst, i) => decodeLoop D dst i (c / 2) rest
  else some dst
termination_by src.length
decreasing_by exact token_length ht

/-- `decode(dst_size, dst_data, src)` lib/h/ce/lziii.h:71-91, on a destination that is not
initialised -/
def decode (D : Nat) (src : List U8) : Option Cells := decodeLoop D (fun _ => none) 0 1 src

/-- `decode(dst_size, dst_data, src)` lib/h/ce/lziii.h:71-91, on a destination that holds `init` -/
def decodeInto (D : Nat) (init : Cells) (src : List U8) : Option Cells := decodeLoop D init 0 1 src

/-- `decoder<T>` lib/h/ce/lziii.h:93-100, `src` is `T{}.data` and its length `T{}.size`: the size is
computed, the bytes are set to 0 (`data{ }`) and decoded into.  All of it is constant evaluation, in
which a bad access is a compile error, and so is an array of no bytes (`uint8_t data[size]`):
`none`. -/
def decoder (src : List U8) : Option (Nat × Cells) := do
  let n ← size src
  if n = 0 then none
  else
    let d ← decodeInto n (fun _ => some 0) src
    return (n, d)

end CE.Lziii
