/-!
# Model of the log record, the error report and the check macros

lib/os.cpp:31-79, lib/h/ce/ce.h:230-241, 1082-1108, 1174-1191.  A text is a list of characters; `debug_out` appends to
the output.
-/
namespace CE.Log

/-- `os::log(level, argc, argv)` lib/os.cpp:31-48: the loop from pair `i` on, with the current `prefix` -/
def logLoop (out pre : List Char) : List (List Char × List Char) → List Char
  | [] => out
  | (k, v) :: rest => logLoop (out ++ pre ++ ['"'] ++ k ++ ['"', ':', ' ', '"'] ++ v ++ ['"']) [',', ' '] rest

/-- the letter of a level: `"FEWNIDSM"[level < 0 ? 0 : level > 7 ? 7 : level]` lib/os.cpp:34; the character beyond the
eight letters would be the terminating 0 -/
def letter (level : Int) : Char :=
  ['F', 'E', 'W', 'N', 'I', 'D', 'S', 'M'].getD (if level < 0 then 0 else if level > 7 then 7 else level).toNat '\x00'

/-- `os::log` lib/os.cpp:31-48 -/
def log (level : Int) (argv : List (List Char × List Char)) : List Char :=
  logLoop ([] ++ [letter level, ':', ' ', '{']) [' '] argv ++ [' ', '}', '\n']

/-- the loop of `os::error` lib/os.cpp:65-72 -/
def errorLoop (out pre : List Char) : List (List Char × List Char) → List Char
  | [] => out
  | (_, v) :: rest => errorLoop (out ++ pre ++ v) [',', ' '] rest

/-- `os::error(level, argc, argv)` lib/os.cpp:50-79: the output and whether to break -/
def error (level : Int) (argv : List (List Char × List Char)) : List Char × Bool :=
  (['*', '*', '*', '*', '*', '*', '*', '*', ' ', 'F', 'A', 'I', 'L', 'E', 'D', ' ', '*', '*', '*', '*', '*', '*', '*', '*', '\n'] ++
    (match argv with
     | a0 :: a1 :: rest =>
       errorLoop (a0.2 ++ [':', ' '] ++ a0.1 ++ [':', ' '] ++ a1.1 ++ [':', ' ', '('] ++ a1.2 ++ [')', ' ', '=', ' ', '(']) [] rest
         ++ [')', '\n']
     | _ => []),
   level == 0)

/-- level names `_CE_LOG_…` lib/h/ce/ce.h:1181-1190: any other name is 7 -/
def levelOf (name : String) : Int :=
  if name = "fatal" then 0 else if name = "error" then 1 else if name = "warn" then 2 else if name = "note" then 3
  else if name = "info" then 4 else if name = "debug" then 5 else if name = "spam" then 6 else if name = "more" then 7 else 7

/-- the C string at the start of an array: characters before the first 0; `none` if there is no 0 -/
def cstr : List Nat → Option (List Nat)
  | [] => none
  | c :: cs => if c = 0 then some [] else (cstr cs).map (c :: ·)

/-- `next` lib/h/ce/ce.h:1084: skip to just behind the next 0 -/
def next : List Nat → Option (List Nat)
  | [] => none
  | c :: cs => if c ≠ 0 then next cs else some cs

/-- `static_cast<signed char>(*info)` lib/h/ce/ce.h:1099 -/
def schar (c : Nat) : Int := if c % 256 < 128 then (c % 256 : Nat) else (c % 256 : Nat) - 256

/-- what a hook is called with -/
structure Call where
  /-- level -/
  level : Int
  /-- name and value pairs -/
  argv : List (List Nat × List Nat)
deriving DecidableEq

/-- `call_error_hook(info, args...)` lib/h/ce/ce.h:1082-1102: the arguments both hooks get -/
def callErrorHook (info : List Nat) (args : List (List Nat)) : Option Call := do
  let l ← info.head?
  let kind ← info.tail?
  let what ← next kind
  let file ← next what
  let more ← next file
  some ⟨schar l, (← cstr kind, ← cstr file) :: (← cstr what, ← cstr more) :: args.map (fun a => ([46, 46, 46], a))⟩

/-! ## Check macros lib/h/ce/ce.h:228-241 -/

/-- C++ expressions of type `bool`, as far as the macros need them -/
inductive Ex
  /-- `bool{ TEST }` -/
  | test
  /-- `_CE_ERROR(...)`, the call of the error hook -/
  | hook
  /-- `CE_DEBUG_BREAK()` -/
  | brk
  /-- a literal -/
  | lit (b : Bool)
  /-- `!a` -/
  | not (a : Ex)
  /-- `a || b` -/
  | or (a b : Ex)
  /-- `a && b` -/
  | and (a b : Ex)
  /-- `a, b` -/
  | comma (a b : Ex)

/-- evaluation: the test and the hook are arbitrary computations on the program's state, breaking changes it too -/
def eval {σ : Type} (test hook : σ → Bool × σ) (brk : σ → σ) : Ex → σ → Bool × σ
  | .test, s => test s
  | .hook, s => hook s
  | .brk, s => (false, brk s)
  | .lit b, s => (b, s)
  | .not a, s => let r := eval test hook brk a s; (!r.1, r.2)
  | .or a b, s => let r := eval test hook brk a s; if r.1 then (true, r.2) else eval test hook brk b r.2
  | .and a b, s => let r := eval test hook brk a s; if r.1 then eval test hook brk b r.2 else (false, r.2)
  | .comma a b, s => let r := eval test hook brk a s; eval test hook brk b r.2

/-- the part of `CE_AFFIRM` behind the test: `_CE_ERROR(...) && (CE_DEBUG_BREAK(), false)` lib/h/ce/ce.h:233 -/
def orElse : Ex := .and .hook (.comma .brk (.lit false))

/-- `CE_VERIFY(test, ...)` with `CE_ERROR_LEVEL == 1`: `(bool{ TEST } || ...)` lib/h/ce/ce.h:233, 240 -/
def verify : Ex := .or .test orElse

/-- `CE_REJECT(test, ...)`: `!(!bool{ TEST } || ...)` lib/h/ce/ce.h:233, 241; the inner `!` binds tighter than `||` -/
def reject : Ex := .not (.or (.not .test) orElse)

/-- `CE_VERIFY` otherwise: `(bool{ TEST })` lib/h/ce/ce.h:235, 240 -/
def verifyOff : Ex := .test

/-- `CE_REJECT` otherwise: `!(!bool{ TEST })` lib/h/ce/ce.h:235, 241 -/
def rejectOff : Ex := .not (.not .test)

end CE.Log
