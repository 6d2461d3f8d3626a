import Verif.Model.Lziii
/-!
# Model of `ce::lziii::decode` (lib/h/ce/lziii.h:71-91) with source and destination in one memory

`src` and `dst_data` are addresses in a memory of bytes of which `[0, M)` may be used, so that they can overlap in any
way.  The memory is initialised.  `spanBegin` and `spanEnd` are those of Model/Lziii.
-/
namespace CE.LziiiMem

open CE.Lziii

abbrev Mem := Nat → U8

/-- a read -/
def ld (M : Nat) (m : Mem) (a : Nat) : Option U8 := if a < M then some (m a) else none

/-- a store -/
def st (M : Nat) (m : Mem) (a : Nat) (x : U8) : Option Mem :=
  if a < M then some (fun j => if j = a then x else m j) else none

/-- `for (...; b < e; ++b) dst_data[i++] = dst_data[b];` lib/h/ce/lziii.h:84-85, `k = e - b` -/
def copyLoop (M d : Nat) : Nat → Mem → Nat → Nat → Option (Mem × Nat)
  | 0, m, i, _ => some (m, i)
  | k + 1, m, i, b => do
    let x ← ld M m (d + b)
    let m ← st M m (d + i) x
    copyLoop M d k m (i + 1) (b + 1)

/-- `if (c == 1) c = src[s++] | 0x100;` lib/h/ce/lziii.h:78-79 -/
def fetch (M : Nat) (m : Mem) (c s : Nat) : Option (Nat × Nat) :=
  if c = 1 then do
    let x ← ld M m s
    return (x.toNat ||| 0x100, s + 1)
  else some (c, s)

/-- the reads of one round, lib/h/ce/lziii.h:78-84 -/
def token (M : Nat) (m : Mem) (c s : Nat) : Option (Nat × U8 × Option U8 × Nat) := do
  let r ← fetch M m c s
  let p ← ld M m r.2
  if r.1 % 2 = 0 then
    let q ← ld M m (r.2 + 1)
    return (r.1, p, some q, r.2 + 2)
  else return (r.1, p, none, r.2 + 1)

theorem token_lt {M : Nat} {m : Mem} {c s : Nat} {r : Nat × U8 × Option U8 × Nat} (h : token M m c s = some r) :
    s < r.2.2.2 ∧ s < M := by
  unfold token at h
  simp only [Option.bind_eq_bind, Option.bind_eq_some_iff] at h
  obtain ⟨⟨c', s'⟩, h1, p, h2, h3⟩ := h
  have hs : s ≤ s' := by
    unfold fetch at h1
    split at h1
    · simp only [Option.bind_eq_bind, Option.bind_eq_some_iff] at h1
      obtain ⟨x, -, h1⟩ := h1
      injection h1 with h1
      have := congrArg Prod.snd h1
      simp only at this
      omega
    · injection h1 with h1
      have := congrArg Prod.snd h1
      simp only at this
      omega
  have hM : s' < M := by
    unfold ld at h2
    split at h2
    · assumption
    · cases h2
  split at h3
  · simp only [Option.bind_eq_some_iff] at h3
    obtain ⟨q, -, h3⟩ := h3
    injection h3 with h3
    rw [← h3]
    simp only
    omega
  · injection h3 with h3
    rw [← h3]
    simp only
    omega

/-- the writes of one round, lib/h/ce/lziii.h:83-87 -/
def emit (M d : Nat) (m : Mem) (i : Nat) (p : U8) : Option U8 → Option (Mem × Nat)
  | some q => copyLoop M d (spanEnd (spanBegin i p q) q - spanBegin i p q) m i (spanBegin i p q)
  | none => do
    let m ← st M m (d + i) p
    return (m, i + 1)

/-- the loop of `decode` lib/h/ce/lziii.h:76-90 -/
def decodeLoop (M d D : Nat) (m : Mem) (i c s : Nat) : Option Mem :=
  if i < D then
    match ht : token M m c s with
    | none => none
    | some (c, p, q, s) =>
      match emit M d m i p q with
      | none => none
      | some (m, i) => decodeLoop M d D m i (c / 2) s
  else some m
termination_by M - s
decreasing_by
  have := token_lt ht
  simp only at this
  omega

/-- `decode(dst_size, dst_data, src)` lib/h/ce/lziii.h:71-91 -/
def decode (M d D : Nat) (m : Mem) (s : Nat) : Option Mem := decodeLoop M d D m 0 1 s

end CE.LziiiMem
