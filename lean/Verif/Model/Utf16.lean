/-!
# Model of to_utf16 (lib/os_win32.cpp:33-54)

The source is a list of bytes; `none` is a read behind its end.  The arithmetic is done in `int` and stored in a
`char16_t`.
-/
namespace CE.Utf16

/-- storing an `int` in a `char16_t` -/
def u16 (n : Int) : Nat := (n % 65536).toNat

/-- `to_utf16` lib/os_win32.cpp:33-54: the code units written -/
def toUtf16 : List Nat → Option (List Nat)
  | [] => some []
  | s0 :: rest =>
    if s0 < 0x80 then
      (toUtf16 rest).map (u16 s0 :: ·)
    else if s0 < 0xe0 then
      match rest with
      | s1 :: r => (toUtf16 r).map (u16 ((s0 : Int) * 64 + s1 - 0xc0 * 64 - 0x80) :: ·)
      | _ => none
    else if s0 < 0xf0 then
      match rest with
      | s1 :: s2 :: r => (toUtf16 r).map (u16 ((s0 : Int) * 64 * 64 + s1 * 64 + s2 - 0x80 * 64 - 0x80) :: ·)
      | _ => none
    else
      match rest with
      | s1 :: s2 :: s3 :: r =>
        (toUtf16 r).map (fun d => u16 ((0xd800 : Int) - 0xf248 + s0 * 256 + s1 * 4 + (s2 / 16 : Nat)) ::
          u16 ((0xdc00 : Int) - 0x0080 + (s2 % 16 * 64 : Nat) + s3) :: d)
      | _ => none

end CE.Utf16
