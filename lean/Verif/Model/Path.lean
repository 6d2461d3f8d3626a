import Verif.Model.Utf16
/-!
# Model of the path conversion (lib/os_win32.cpp:56-61, 104-109)

`mem` are the bytes from the path pointer to the end of the array it points into, `stale` what the stack holds where
`_alloca` puts the converted path.  `none` is a read outside of these.  A stack overflow by `_alloca` is not modelled.
-/
namespace CE.Path
open CE.Utf16

/-- a text up to its terminator, as `CE_STRLEN` (lib/h/ce/ce.h:156) and the system read it -/
def cstr : List Nat → Option (List Nat)
  | [] => none
  | c :: m => if c = 0 then some [] else (cstr m).map (c :: ·)

/-- `to_utf16` lib/os_win32.cpp:33-54 with `left` bytes before `f`; characters at the end are read past `f` -/
def conv (left : Nat) (mem : List Nat) : Option (List Nat) :=
  if left = 0 then some [] else
  match mem with
  | [] => none
  | s0 :: rest =>
    if s0 < 0x80 then
      (conv (left - 1) rest).map (u16 s0 :: ·)
    else if s0 < 0xe0 then
      match rest with
      | s1 :: r => (conv (left - 2) r).map (u16 ((s0 : Int) * 64 + s1 - 0xc0 * 64 - 0x80) :: ·)
      | _ => none
    else if s0 < 0xf0 then
      match rest with
      | s1 :: s2 :: r => (conv (left - 3) r).map (u16 ((s0 : Int) * 64 * 64 + s1 * 64 + s2 - 0x80 * 64 - 0x80) :: ·)
      | _ => none
    else
      match rest with
      | s1 :: s2 :: s3 :: r =>
        (conv (left - 4) r).map (fun d => u16 ((0xd800 : Int) - 0xf248 + s0 * 256 + s1 * 4 + (s2 / 16 : Nat)) ::
          u16 ((0xdc00 : Int) - 0x0080 + (s2 % 16 * 64 : Nat) + s3) :: d)
      | _ => none

/-- `as_span(path)` lib/os_win32.cpp:59 is the text with its terminator: its size -/
def spanSize (mem : List Nat) : Option Nat := (cstr mem).map (fun p => p.length + 1)

/-- `CE_TO_UTF16(os_path, path)` lib/os_win32.cpp:61: the units in the new buffer; `none` also if they do not fit -/
def toPath (mem stale : List Nat) : Option (List Nat) := do
  let n ← spanSize mem
  let d ← conv n mem
  if d.length ≤ n then some (d ++ (stale.take n).drop d.length) else none

/-- the name `CreateFileW` gets, lib/os_win32.cpp:105-108 -/
def osPath (mem stale : List Nat) : Option (List Nat) := (toPath mem stale).bind cstr

end CE.Path
