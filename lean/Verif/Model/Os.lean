/-!
# Model of the time and file functions of the operating system layer (lib/os_posix.cpp, lib/os_win32.cpp)

The system calls are given by their documentation.  Time is in nanoseconds.
-/
namespace CE.Os

/-- `timespec` -/
structure Timespec where
  sec : Int
  nsec : Int

/-- value of an expression of type `int64_t` -/
def i64 (n : Int) : Option Int := if -2 ^ 63 ≤ n ∧ n < 2 ^ 63 then some n else none

/-- the argument of `nanosleep` in `sleep_ns` lib/os_posix.cpp:58-72; `ns` is 64-bit, `tv_sec` and `tv_nsec` are `long` -/
def posixSleep (ns : Nat) : Timespec :=
  if ns < 1000000000 then ⟨0, ns⟩ else ⟨ns / 1000000000, ns % 1000000000⟩

/-- `monotonic_timestamp` lib/os_posix.cpp:44-51; `ok` is whether `clock_gettime` returned 0.  The sum is `long`, the result
`uint64_t`. -/
def posixTimestamp (ok : Bool) (ts : Timespec) : Option Nat :=
  if ok then do
    let s ← i64 (ts.sec * 1000000000)
    let t ← i64 (ts.nsec + s)
    return (t % 2 ^ 64).toNat
  else some 0

/-- `monotonic_frequency` lib/os_posix.cpp:53-56 -/
def posixFrequency : Nat := 1000000000

/-- the argument of `SleepEx` in `sleep_ns` lib/os_win32.cpp:92-103, a `DWORD` -/
def winSleep (ns : Nat) : Nat :=
  if ns ≠ 0 then
    let ms64 := if ns < 1000000 then 1 else ns / 1000000
    let ms := ms64 % 2 ^ 32
    if ms ≠ ms64 then 2 ^ 32 - 1 else ms
  else 0

/-! ## files of lib/os_win32.cpp -/

/-- what a process sees of the system: contents of files by path, open file handles, open section handles and mapped views
(each with its contents), the next number that is free, and which of the calls to come fail for reasons of their own -/
structure World (P : Type) where
  files : P → Option (List UInt8)
  file : Nat → Option (List UInt8)
  sect : Nat → Option (List UInt8)
  view : Nat → Option (List UInt8)
  next : Nat
  fail : Nat → Bool
  time : Nat
  /-- what `CloseHandle(INVALID_HANDLE_VALUE)` returns; it also stands for the process itself, and nothing is closed -/
  pseudo : Bool

/-- `span<uint8_t const>` with what it shows; `data` is `nullptr` when `none` -/
structure Span where
  size : Nat
  data : Option Nat
  deriving DecidableEq

/-- change at one place -/
def put {X : Type} (f : Nat → Option X) (n : Nat) (v : Option X) : Nat → Option X := fun i => if i = n then v else f i

section
variable {P : Type}

/-- a call that takes place -/
def World.tick (w : World P) : World P := { w with time := w.time + 1 }

/-- `CreateFileW(path, GENERIC_READ, FILE_SHARE_READ, NULL, OPEN_EXISTING, ..)`; `none` is `INVALID_HANDLE_VALUE` -/
def World.createFile (w : World P) (path : P) : World P × Option Nat :=
  let v := w.tick
  if w.fail w.time then (v, none) else
  match w.files path with
  | none => (v, none)
  | some c => ({ v with file := put v.file v.next (some c), next := v.next + 1 }, some v.next)

/-- `GetFileSizeEx(handle, &size)` -/
def World.fileSize (w : World P) (h : Option Nat) : World P × Option Nat :=
  let v := w.tick
  if w.fail w.time then (v, none) else (v, h.bind fun h => (w.file h).map List.length)

/-- `CreateFileMappingW(handle, NULL, PAGE_READONLY, hi, lo, NULL)` with a size of `size` in two halves; `none` is `NULL`.  An empty
file cannot be mapped, and the section cannot be larger than the file. -/
def World.createMapping (w : World P) (h : Option Nat) (size : Nat) : World P × Option Nat :=
  let v := w.tick
  if w.fail w.time then (v, none) else
  match h.bind w.file with
  | none => (v, none)
  | some c =>
    if c = [] ∨ c.length < size then (v, none)
    else ({ v with sect := put v.sect v.next (some (if size = 0 then c else c.take size)), next := v.next + 1 }, some v.next)

/-- `MapViewOfFile(map, FILE_MAP_READ, 0, 0, size)`; `none` is `NULL`, a size of 0 is the whole section -/
def World.mapView (w : World P) (map : Nat) (size : Nat) : World P × Option Nat :=
  let v := w.tick
  if w.fail w.time then (v, none) else
  match w.sect map with
  | none => (v, none)
  | some c =>
    if c.length < size then (v, none)
    else ({ v with view := put v.view v.next (some (if size = 0 then c else c.take size)), next := v.next + 1 }, some v.next)

/-- `CloseHandle(handle)` of a file -/
def World.closeFile (w : World P) (h : Option Nat) : World P × Bool :=
  let v := w.tick
  match h with
  | none => (v, w.pseudo)
  | some h => ({ v with file := put v.file h none }, (w.file h).isSome)

/-- `CloseHandle(map)` of a section; views of it stay -/
def World.closeSection (w : World P) (h : Nat) : World P :=
  let v := w.tick
  { v with sect := put v.sect h none }

/-- `UnmapViewOfFile(data)` -/
def World.unmapView (w : World P) (a : Option Nat) : World P × Bool :=
  let v := w.tick
  match a with
  | none => (v, false)
  | some a => ({ v with view := put v.view a none }, (w.view a).isSome)

/-- `open_file(file, path)` lib/os_win32.cpp:105-116 -/
def openFile (w : World P) (path : P) : World P × Option Nat × Bool :=
  let r := w.createFile path
  (r.1, r.2, r.2.isSome)

/-- `close_file(file)` lib/os_win32.cpp:118-123: the world, the file and the result -/
def closeFile (w : World P) (h : Option Nat) : World P × Option Nat × Bool :=
  let r := w.closeFile h
  (r.1, none, r.2)

/-- `map_span(span, file)` lib/os_win32.cpp:126-153; `SIZE_T` has `bits` bits -/
def mapSpan (bits : Nat) (w : World P) (h : Option Nat) : World P × Span × Bool :=
  let r := w.fileSize h
  match r.2 with
  | none => (r.1, ⟨0, none⟩, false)
  | some n =>
    let s := r.1.createMapping h n
    match s.2 with
    | none => (s.1, ⟨0, none⟩, false)
    | some map =>
      let size := n % 2 ^ bits
      let v := s.1.mapView map size
      let c := v.1.closeSection map
      match v.2 with
      | none => (c, ⟨0, none⟩, false)
      | some data => (c, ⟨size, some data⟩, true)

/-- `map_span(span, path)` lib/os_win32.cpp:155-161 -/
def mapPath (bits : Nat) (w : World P) (path : P) : World P × Span × Bool :=
  let f := w.createFile path
  let r := mapSpan bits f.1 f.2
  let c := closeFile r.1 f.2
  (c.1, r.2.1, r.2.2)

/-- `unmap_span(span)` lib/os_win32.cpp:163-169 -/
def unmapSpan (w : World P) (s : Span) : World P × Span × Bool :=
  let r := w.unmapView s.data
  (r.1, ⟨0, none⟩, r.2)

/-- `map_span<T>(path)` lib/h/ce/ce.h:1237-1242: the number of elements of `unit` bytes, and where they are -/
def mapAs (bits unit : Nat) (w : World P) (path : P) : World P × Nat × Option Nat :=
  let r := mapPath bits w path
  (r.1, r.2.1.size / unit, r.2.1.data)

end

/-! ## files of lib/os_posix.cpp: not implemented; `none` is the null handle -/

/-- `open_file(path)` lib/os_posix.cpp:74-77 -/
def posixOpenFile {P : Type} (_ : P) : Option Nat := none

/-- `open_file(file, path)` lib/os_posix.cpp:79-82 -/
def posixOpen {P : Type} (file : Option Nat) (_ : P) : Option Nat × Bool := (file, false)

/-- `close_file(file)` lib/os_posix.cpp:84-87 -/
def posixClose (file : Option Nat) : Option Nat × Bool := (file, false)

/-- `map_span(span, file)` lib/os_posix.cpp:90-95 -/
def posixMapSpan (_ : Span) (_ : Option Nat) : Span × Bool := (⟨0, none⟩, false)

/-- `map_span(span, path)` lib/os_posix.cpp:97-103 -/
def posixMapPath {P : Type} (s : Span) (path : P) : Span × Bool :=
  let f := posixOpenFile path
  let r := posixMapSpan s f
  let _ := posixClose f
  r

/-- `unmap_span(span)` lib/os_posix.cpp:105-110 -/
def posixUnmapSpan (_ : Span) : Span × Bool := (⟨0, none⟩, false)

/-- `map_span<T>(path)` lib/h/ce/ce.h:1237-1242 on POSIX; `junk` is what is in `view` before the call -/
def posixMapAs {P : Type} (unit : Nat) (junk : Span) (path : P) : Nat × Option Nat :=
  let r := posixMapPath junk path
  (r.1.size / unit, r.1.data)

end CE.Os
