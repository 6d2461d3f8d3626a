import Verif.Model.Log
/-!
# Model of `debug_out` and of threads that log (lib/os_posix.cpp:36-42, lib/os.cpp:31-79)

`os::log` and `os::error` hand their text to `debug_out` in pieces, and each piece is one `write` to the standard error
stream, whose result is ignored.  Pieces of other threads may come in between; the kernel may take fewer characters than
it is given.  A text is the characters before its terminator; `none` is the null pointer.
-/
namespace CE.Stderr

/-- a text -/
abbrev Text := List Char

/-- `debug_out` lib/os_posix.cpp:36-42: nothing for a null pointer, otherwise one `write`, of which the kernel leaves the
last `d` characters unwritten (all of them when it fails) -/
def debugOut (d : Nat) (out : Text) : Option Text → Text
  | none => out
  | some t => out ++ t.take (t.length - d)

/-- the calls of `debug_out` in the loop of `os::log` lib/os.cpp:37-46 -/
def logLoop (pre : Text) : List (Option Text × Option Text) → List (Option Text)
  | [] => []
  | (k, v) :: rest => [some pre, some ['"'], k, some ['"', ':', ' ', '"'], v, some ['"']] ++ logLoop [',', ' '] rest

/-- the calls of `debug_out` in `os::log` lib/os.cpp:31-48 -/
def logPieces (level : Int) (argv : List (Option Text × Option Text)) : List (Option Text) :=
  [some [Log.letter level, ':', ' ', '{']] ++ logLoop [' '] argv ++ [some [' ', '}', '\n']]

/-- the calls of `debug_out` in the loop of `os::error` lib/os.cpp:65-73 -/
def errorLoop (pre : Text) : List (Option Text × Option Text) → List (Option Text)
  | [] => []
  | (_, v) :: rest => [some pre, v] ++ errorLoop [',', ' '] rest

/-- the calls of `debug_out` in `os::error` lib/os.cpp:50-79; `none` is `argv == nullptr` -/
def errorPieces (argv : Option (List (Option Text × Option Text))) : List (Option Text) :=
  [some ['*', '*', '*', '*', '*', '*', '*', '*', ' ', 'F', 'A', 'I', 'L', 'E', 'D', ' ', '*', '*', '*', '*', '*', '*', '*', '*', '\n']] ++
    match argv with
    | some (a0 :: a1 :: rest) =>
      [a0.2, some [':', ' '], a0.1, some [':', ' '], a1.1, some [':', ' ', '('], a1.2, some [')', ' ', '=', ' ', '(']] ++
        errorLoop [] rest ++ [some [')', '\n']]
    | _ => []

/-- what a thread asks for -/
inductive Cmd where
  /-- `os::log(level, argc, argv)` -/
  | log (level : Int) (argv : List (Option Text × Option Text))
  /-- `os::error(level, argc, argv)` -/
  | error (argv : Option (List (Option Text × Option Text)))
deriving DecidableEq

/-- its calls of `debug_out` -/
def Cmd.pieces : Cmd → List (Option Text)
  | .log level argv => logPieces level argv
  | .error argv => errorPieces argv

/-- a thread: the rest of the call it is in, and the calls to come -/
structure Thread where
  /-- pieces not yet handed over -/
  cur : List (Option Text)
  /-- calls to come -/
  todo : List Cmd
deriving DecidableEq

/-- the program: its threads, who holds the user's lock, and what the standard error stream has received -/
structure St where
  /-- the threads -/
  th : Nat → Thread
  /-- the thread inside the lock -/
  owner : Option Nat
  /-- output -/
  out : Text

/-- replace a thread -/
def St.set (s : St) (i : Nat) (t : Thread) : Nat → Thread := fun j => if j = i then t else s.th j

/-- One step of thread `i`: it hands over its next piece, or begins its next call.  If the calls are made under a lock
(`lock`; the library does not take one) it first needs the lock, and gives it back with the last piece.  The kernel leaves
`d` characters of the piece. -/
def step (lock : Bool) (s : St) (i d : Nat) : St :=
  match (s.th i).cur with
  | p :: ps => ⟨s.set i ⟨ps, (s.th i).todo⟩, if ps = [] then none else s.owner, debugOut d s.out p⟩
  | [] =>
    match (s.th i).todo with
    | [] => s
    | c :: cs => if lock && s.owner.isSome then s else ⟨s.set i ⟨c.pieces, cs⟩, some i, s.out⟩

/-- a sequence of steps -/
def run (lock : Bool) : St → List (Nat × Nat) → St
  | s, [] => s
  | s, (i, d) :: l => run lock (step lock s i d) l

/-- the start: nothing written, nobody in a call -/
def start (prog : Nat → List Cmd) : St := ⟨fun i => ⟨[], prog i⟩, none, []⟩

end CE.Stderr
