import Verif.Model.Mem
/-!
# Model of `lib/to_text_from_integer.h`

Unsigned 32/64 bit arithmetic is written out as natural number arithmetic followed by `% 2^32`
or `% 2^64`.  `none` is an out-of-bounds read of the digit table.
The macros `JEAIII_*` are transcribed one by one.
-/
namespace CE.ToText

/-- `u32(x)`: lib/to_text_from_integer.h:71 -/
def u32 (x : Nat) : Nat := x % 2 ^ 32
/-- `u64(x)`: lib/to_text_from_integer.h:72 -/
def u64 (x : Nat) : Nat := x % 2 ^ 64

/-- lib/to_text_from_integer.h:79-81 `digits_00_99` -/
def digits_00_99 : List Char :=
  ("00010203040506070809" ++ "10111213141516171819" ++ "20212223242526272829"
    ++ "30313233343536373839" ++ "40414243444546474849" ++ "50515253545556575859"
    ++ "60616263646566676869" ++ "70717273747576777879" ++ "80818283848586878889"
    ++ "90919293949596979899").toList

/-- `JEAIII_W(I, U)` lib/to_text_from_integer.h:85: copy the character pair at `digits_00_99[U*2]`
to `b[I]`, `b[I+1]`; reading outside the table is undefined. -/
def W (m : Mem) (i : Nat) (u : Nat) : Option Mem := do
  let t ← digits_00_99[u * 2]?
  let o ← digits_00_99[u * 2 + 1]?
  return (m.write i t).write (i + 1) o

/-- shift amount `N / 5 * N * 53 / 16` of lib/to_text_from_integer.h:86 -/
def shiftA (N : Nat) : Nat := N / 5 * N * 53 / 16

/-- value of `t` after `JEAIII_A(I, N)` lib/to_text_from_integer.h:86 (before the store) -/
def tA (N u : Nat) : Nat :=
  let t := u64 (u64 (2 ^ (32 + shiftA N)) / u32 (10 ^ N) + 1 + N / 6 - N / 8)
  let t := u64 (t * u)
  let t := t >>> shiftA N
  u64 (t + N / 6 * 4)

/-- `JEAIII_A(I, N)` lib/to_text_from_integer.h:86 : result is memory and `t` -/
def A (m : Mem) (i N u : Nat) : Option (Mem × Nat) := do
  let t := tA N u
  let m ← W m i (t >>> 32)
  return (m, t)

/-- `JEAIII_S(I)` lib/to_text_from_integer.h:87 (the value is cast to `char`, 8 bits) -/
def S (m : Mem) (i t : Nat) : Option Mem :=
  some (m.write i (Char.ofNat ((u64 (10 * u32 t) >>> 32) % 256 + 48)))

/-- `JEAIII_D(I)` lib/to_text_from_integer.h:88 -/
def D (m : Mem) (i t : Nat) : Option (Mem × Nat) := do
  let t := u64 (100 * u32 t)
  let m ← W m i (t >>> 32)
  return (m, t)

/-- `JEAIII_C0(I)` lib/to_text_from_integer.h:90 -/
def C0 (m : Mem) (i u : Nat) : Option Mem := some (m.write i (Char.ofNat (u % 256 + 48)))
/-- `JEAIII_C1(I)` lib/to_text_from_integer.h:91 -/
def C1 (m : Mem) (i u : Nat) : Option Mem := W m i u
/-- `JEAIII_C2(I)` lib/to_text_from_integer.h:92 -/
def C2 (m : Mem) (i u : Nat) : Option Mem := do
  let (m, t) ← A m i 1 u
  S m (i + 2) t
/-- `JEAIII_C3(I)` lib/to_text_from_integer.h:93 -/
def C3 (m : Mem) (i u : Nat) : Option Mem := do
  let (m, t) ← A m i 2 u
  let (m, _) ← D m (i + 2) t
  return m
/-- `JEAIII_C4(I)` lib/to_text_from_integer.h:94 -/
def C4 (m : Mem) (i u : Nat) : Option Mem := do
  let (m, t) ← A m i 3 u
  let (m, t) ← D m (i + 2) t
  S m (i + 4) t
/-- `JEAIII_C5(I)` lib/to_text_from_integer.h:95 -/
def C5 (m : Mem) (i u : Nat) : Option Mem := do
  let (m, t) ← A m i 4 u
  let (m, t) ← D m (i + 2) t
  let (m, _) ← D m (i + 4) t
  return m
/-- `JEAIII_C6(I)` lib/to_text_from_integer.h:96 -/
def C6 (m : Mem) (i u : Nat) : Option Mem := do
  let (m, t) ← A m i 5 u
  let (m, t) ← D m (i + 2) t
  let (m, t) ← D m (i + 4) t
  S m (i + 6) t
/-- `JEAIII_C7(I)` lib/to_text_from_integer.h:97 -/
def C7 (m : Mem) (i u : Nat) : Option Mem := do
  let (m, t) ← A m i 6 u
  let (m, t) ← D m (i + 2) t
  let (m, t) ← D m (i + 4) t
  let (m, _) ← D m (i + 6) t
  return m
/-- `JEAIII_C8(I)` lib/to_text_from_integer.h:98 -/
def C8 (m : Mem) (i u : Nat) : Option Mem := do
  let (m, t) ← A m i 7 u
  let (m, t) ← D m (i + 2) t
  let (m, t) ← D m (i + 4) t
  let (m, t) ← D m (i + 6) t
  S m (i + 8) t
/-- `JEAIII_C9(I)` lib/to_text_from_integer.h:99 -/
def C9 (m : Mem) (i u : Nat) : Option Mem := do
  let (m, t) ← A m i 8 u
  let (m, t) ← D m (i + 2) t
  let (m, t) ← D m (i + 4) t
  let (m, t) ← D m (i + 6) t
  let (m, _) ← D m (i + 8) t
  return m

/-- token pasting `JEAIII_C##N` used by lib/to_text_from_integer.h:105-107 -/
def C (N : Nat) (m : Mem) (i u : Nat) : Option Mem :=
  match N with
  | 0 => C0 m i u | 1 => C1 m i u | 2 => C2 m i u | 3 => C3 m i u | 4 => C4 m i u
  | 5 => C5 m i u | 6 => C6 m i u | 7 => C7 m i u | 8 => C8 m i u | _ => C9 m i u

/-- `JEAIII_K(N)` lib/to_text_from_integer.h:105 -/
def K (m : Mem) (b u N : Nat) : Option (Mem × Nat) := do
  let m ← C N m b u
  return (m, b + N + 1)
/-- `JEAIII_KX(N)` lib/to_text_from_integer.h:106 -/
def KX (m : Mem) (b u x N : Nat) : Option (Mem × Nat) := do
  let m ← C N m b u
  let m ← C7 m (b + N + 1) x
  return (m, b + N + 9)
/-- `JEAIII_KYX(N)` lib/to_text_from_integer.h:107 -/
def KYX (m : Mem) (b u y x N : Nat) : Option (Mem × Nat) := do
  let m ← C N m b u
  let m ← C7 m (b + N + 1) y
  let m ← C7 m (b + N + 9) x
  return (m, b + N + 17)

/-- `JEAIII_L(N, A, B)` lib/to_text_from_integer.h:101 -/
def L {α : Type} (u N : Nat) (a b : α) : α := if u < u32 (10 ^ N) then a else b
/-- `JEAIII_L09(F)` lib/to_text_from_integer.h:102 -/
def L09 {α : Type} (u : Nat) (F : Nat → α) : α :=
  L u 2 (L u 1 (F 0) (F 1))
    (L u 6 (L u 4 (L u 3 (F 2) (F 3)) (L u 5 (F 4) (F 5)))
      (L u 8 (L u 7 (F 6) (F 7)) (L u 9 (F 8) (F 9))))
/-- `JEAIII_L03(F)` lib/to_text_from_integer.h:103 -/
def L03 {α : Type} (u : Nat) (F : Nat → α) : α :=
  L u 2 (L u 1 (F 0) (F 1)) (L u 3 (F 2) (F 3))

/-- A built-in integer type: `sizeof(T)` and signedness. -/
structure IntTy where
  size : Nat
  signed : Bool

/-- Value range of an integer type (two's complement). -/
def IntTy.InRange (T : IntTy) (i : Int) : Prop :=
  if T.signed then -(2 ^ (8 * T.size - 1) : Nat) ≤ i ∧ i < (2 ^ (8 * T.size - 1) : Nat)
  else 0 ≤ i ∧ i < (2 ^ (8 * T.size) : Nat)

instance (T : IntTy) (i : Int) : Decidable (T.InRange i) := by
  unfold IntTy.InRange; infer_instance

/-- the narrowing conversion of lib/to_text_from_integer.h:120 (`T` other than `bool`) -/
def narrow (T : IntTy) (t : Nat) : Nat :=
  if T.size ≠ 1 then (if T.size ≠ 2 then u32 t else t % 2 ^ 16) else t % 2 ^ 8

/-- `to_text_from_integer` lib/to_text_from_integer.h:113-140: memory and returned pointer. -/
def toTextFromInteger (T : IntTy) (m : Mem) (b : Nat) (i : Int) : Option (Mem × Nat) :=
  let t := (i % (2 ^ 64 : Nat)).toNat
  let (t, m, b) := if i < 0 then (u64 (2 ^ 64 + 0 - t), m.write b '-', b + 1) else (t, m, b)
  let u := narrow T t
  if u = t then L09 u (K m b u)
  else
    let x := u32 (t % 100000000)
    let t := t / 100000000
    let u := u32 t
    if u = t then L09 u (KX m b u x)
    else
      let y := u32 (t % 100000000)
      let u := u32 (t / 100000000)
      L03 u (KYX m b u y x)

/-- `measure<T>` for integer types: lib/h/ce/ce.h:1033-1042 (`long` is 4 or 8 bytes). -/
def measure (T : IntTy) : Nat :=
  match T.size, T.signed with
  | 1, true => 4
  | 1, false => 3
  | 2, true => 6
  | 2, false => 5
  | 4, true => 11
  | 4, false => 10
  | _, _ => 20

end CE.ToText
