/-!
# Model of the preprocessor and of the library's macros (lib/h/ce/ce.h:203-266, 1172-1194)

Macro expansion follows Prosser's algorithm, which the standards committee used to define it: a token carries the set of
macro names that are not to be expanded in it any more.  Tokens do not carry white space, so a stringized argument is the
list of the spellings of its tokens.  `CE_DEBUG_BREAK` depends on the compiler and is left as it is.  `none` is an
ill-formed program, or one that needs more than the given number of steps.
-/
namespace CE.Preproc

/-- preprocessing tokens -/
inductive Kind
  /-- identifier -/
  | id (name : String)
  /-- `(` -/
  | lp
  /-- `)` -/
  | rp
  /-- `,` -/
  | comma
  /-- other punctuation -/
  | op (s : String)
  /-- number -/
  | num (s : String)
  /-- string literal -/
  | str (s : String)
  /-- string literal made by `#` from tokens with these spellings -/
  | text (ts : List String)
deriving DecidableEq, Repr

/-- how a token is written -/
def Kind.spell : Kind → String
  | .id s => s
  | .lp => "("
  | .rp => ")"
  | .comma => ","
  | .op s => s
  | .num s => s
  | .str s => "\"" ++ s ++ "\""
  | .text ts => "\"" ++ String.join ts ++ "\""

/-- a token with its hide set -/
structure Tok where
  /-- the token -/
  kind : Kind
  /-- the macros that are not expanded here -/
  hide : List String
deriving DecidableEq, Repr

/-- parts of a replacement list; `__VA_ARGS__` is the parameter after the named ones -/
inductive Item
  /-- a token -/
  | tok (k : Kind)
  /-- a parameter -/
  | arg (i : Nat)
  /-- `#` and a parameter -/
  | text (i : Nat)
  /-- an identifier, `##` and a parameter -/
  | join (s : String) (i : Nat)
  /-- a parameter, `##` and a parameter -/
  | joinArgs (i j : Nat)
  /-- `, ##` and the variable parameter: without the comma when there are no such arguments (GNU) -/
  | commaArg (i : Nat)
deriving DecidableEq, Repr

/-- a macro -/
structure Macro where
  /-- for a function-like macro the number of named parameters and whether others may follow -/
  params : Option (Nat × Bool)
  /-- the replacement list -/
  body : List Item
deriving DecidableEq, Repr

/-- the tokens up to the parenthesis that closes, with `d` more open, that parenthesis and what follows -/
def gather : Nat → List Tok → Option (List Tok × Tok × List Tok)
  | _, [] => none
  | d, t :: ts =>
    match t.kind with
    | .rp => match d with
      | 0 => some ([], t, ts)
      | d + 1 => (gather d ts).map fun r => (t :: r.1, r.2)
    | .lp => (gather (d + 1) ts).map fun r => (t :: r.1, r.2)
    | _ => (gather d ts).map fun r => (t :: r.1, r.2)

/-- the tokens before and behind the first comma outside parentheses; `none` if there is none -/
def cut : Nat → List Tok → Option (List Tok × List Tok)
  | _, [] => none
  | d, t :: ts =>
    match t.kind with
    | .comma => match d with
      | 0 => some ([], ts)
      | d + 1 => (cut (d + 1) ts).map fun r => (t :: r.1, r.2)
    | .lp => (cut (d + 1) ts).map fun r => (t :: r.1, r.2)
    | .rp => (cut (d - 1) ts).map fun r => (t :: r.1, r.2)
    | _ => (cut d ts).map fun r => (t :: r.1, r.2)

/-- the arguments for `n` named parameters and, if so, the variable one, which may be left out -/
def actuals : Nat → Bool → List Tok → Option (List (List Tok))
  | 0, true, ts => some [ts]
  | 0, false, ts => if ts.isEmpty then some [] else none
  | n + 1, va, ts =>
    match cut 0 ts with
    | some (a, rest) => if n = 0 ∧ va = false then none else (actuals n va rest).map (a :: ·)
    | none => if n = 0 then some (if va then [ts, []] else [ts]) else none

/-- the token made by `##`: identifiers and numbers -/
def paste : List Tok → List Tok → Option Tok
  | [⟨.id a, h⟩], [⟨.id b, g⟩] => some ⟨.id (a ++ b), h.filter (g.contains ·)⟩
  | [⟨.id a, h⟩], [⟨.num b, g⟩] => some ⟨.id (a ++ b), h.filter (g.contains ·)⟩
  | _, _ => none

/-- one part of the replacement list with the arguments `raw`, and `full` expanded -/
def substItem (raw full : List (List Tok)) : Item → Option (List Tok)
  | .tok k => some [⟨k, []⟩]
  | .arg i => full[i]?
  | .text i => (raw[i]?).map fun a => [⟨.text (a.map (·.kind.spell)), []⟩]
  | .join s i => (raw[i]?).bind fun a => (paste [⟨.id s, []⟩] a).map ([·])
  | .joinArgs i j => (raw[i]?).bind fun a => (raw[j]?).bind fun b => (paste a b).map ([·])
  | .commaArg i => (raw[i]?).map fun a => if a.isEmpty then [] else ⟨.comma, []⟩ :: a

/-- the replacement list with arguments put in -/
def subst (raw full : List (List Tok)) : List Item → Option (List Tok)
  | [] => some []
  | i :: is => (substItem raw full i).bind fun a => (subst raw full is).map (a ++ ·)

/-- adding to the hide sets -/
def hideAll (h : List String) (ts : List Tok) : List Tok := ts.map fun t => ⟨t.kind, h ++ t.hide⟩

/-- expansion of each argument -/
def mapAll (f : List Tok → Option (List Tok)) : List (List Tok) → Option (List (List Tok))
  | [] => some []
  | a :: as => (f a).bind fun b => (mapAll f as).map (b :: ·)

/-- macro expansion with the given macros, in at most the given number of steps -/
def expand (env : String → Option Macro) : Nat → List Tok → Option (List Tok)
  | 0, _ => none
  | _ + 1, [] => some []
  | f + 1, t :: ts =>
    match t.kind with
    | .id s =>
      if t.hide.contains s then (expand env f ts).map (t :: ·)
      else
        match env s with
        | none => (expand env f ts).map (t :: ·)
        | some m =>
          match m.params with
          | none => (subst [] [] m.body).bind fun b => expand env f (hideAll (s :: t.hide) b ++ ts)
          | some (n, va) =>
            match ts with
            | ⟨.lp, _⟩ :: ts' =>
              (gather 0 ts').bind fun r =>
                (actuals n va r.1).bind fun raw =>
                  (mapAll (expand env f) raw).bind fun full =>
                    (subst raw full m.body).bind fun b =>
                      expand env f (hideAll (s :: t.hide.filter (r.2.1.hide.contains ·)) b ++ r.2.2)
            | _ => (expand env f ts).map (t :: ·)
    | _ => (expand env f ts).map (t :: ·)

/-! ## the macros -/

/-- an identifier -/
abbrev w (s : String) : Item := .tok (.id s)
/-- punctuation -/
abbrev o (s : String) : Item := .tok (.op s)
/-- `(` -/
abbrev lp : Item := .tok .lp
/-- `)` -/
abbrev rp : Item := .tok .rp
/-- `,` -/
abbrev cm : Item := .tok .comma
/-- a string literal -/
abbrev q (s : String) : Item := .tok (.str s)
/-- function-like, `n` named parameters and variable ones -/
abbrev va (n : Nat) (b : List Item) : Option Macro := some ⟨some (n, true), b⟩
/-- object-like -/
abbrev obj (b : List Item) : Option Macro := some ⟨none, b⟩

/-- what the user and the compiler configure -/
structure Config where
  /-- `CE_ERROR_LEVEL == 1` -/
  err : Bool
  /-- `CE_LOG_LEVEL`: 1 or 0 -/
  log : Bool
  /-- `__FILE__` -/
  file : String
  /-- `__LINE__` -/
  line : String
  /-- other macros -/
  user : String → Option Macro

/-- the macros of lib/h/ce/ce.h:203-266 and 1172-1194, and those of the program -/
def macros (c : Config) (s : String) : Option Macro :=
  match s with
  -- 207-209 and 215-217: CE_LOG_LEVEL
  | "CE_LOG_LEVEL" => obj [.tok (.num (if c.log then "1" else "0"))]
  | "__FILE__" => obj [q c.file]
  | "__LINE__" => obj [.tok (.num c.line)]
  -- 225-226
  | "CE_FILELINE_EX" => some ⟨some (2, false), [.arg 0, q "(", w "CE_PP_TEXT", lp, .arg 1, rp, q ")"]⟩
  | "CE_FILELINE" => obj [w "CE_FILELINE_EX", lp, w "__FILE__", cm, w "__LINE__", rp]
  -- 228
  | "_CE_ERROR" => va 2 [w "decltype", lp, w "ce", o "::", w "error_hook", lp, .arg 2, rp, rp, o "::", w "fn", lp,
      q "\\0", .arg 0, q "\\0", .arg 1, q "\\0", w "CE_FILELINE", q "\\0", .text 2, .commaArg 2, rp]
  -- 230-234
  | "CE_AFFIRM" =>
    if c.err then va 2 [w "bool", o "{", .arg 1, o "}", o "||", w "_CE_ERROR", lp, .arg 0, cm, .text 1, .commaArg 2, rp, o "&&", lp,
      w "CE_DEBUG_BREAK", lp, rp, cm, w "false", rp]
    else va 2 [w "bool", o "{", .arg 1, o "}"]
  -- 236-239
  | "CE_ERROR" => va 0 [lp, lp, w "void", rp, w "_CE_ERROR", lp, q "CE_ERROR", cm, q "", .commaArg 0, rp, cm,
      w "CE_DEBUG_BREAK", lp, rp, rp]
  | "CE_ASSERT" => va 0 [lp, w "void", rp, lp, w "CE_PP_PASS", lp, w "CE_AFFIRM", w "CE_PP_ARGS", lp, q "CE_ASSERT", cm, .arg 0, rp,
      rp, rp]
  | "CE_VERIFY" => va 0 [lp, w "CE_PP_PASS", lp, w "CE_AFFIRM", w "CE_PP_ARGS", lp, q "CE_VERIFY", cm, .arg 0, rp, rp, rp]
  | "CE_REJECT" => va 0 [o "!", lp, o "!", w "CE_PP_PASS", lp, w "CE_AFFIRM", w "CE_PP_ARGS", lp, q "CE_REJECT", cm, .arg 0, rp, rp,
      rp]
  -- 241-244
  | "CE_COUNTOF" => va 0 [w "sizeof", lp, w "ce", o "::", w "detail", o "::", w "countof_helper", lp, .arg 0, rp, rp]
  | "CE_COUNTOF_ARGS" => va 0 [lp, w "sizeof", lp, w "decltype", lp, w "ce", o "::", w "detail", o "::", w "countof_args_helper",
      lp, .arg 0, rp, rp, rp, o "-", .tok (.num "1"), rp]
  | "CE_REF" => va 0 [lp, w "void", rp, w "CE_COUNTOF_ARGS", lp, .arg 0, rp]
  -- 246-251
  | "CE_PP_JOIN" => va 1 [.joinArgs 0 1]
  | "CE_PP_PASS" => va 0 [.arg 0]
  | "CE_PP_KILL" => va 0 []
  | "CE_PP_ARGS" => va 0 [lp, .arg 0, rp]
  | "CE_PP_CALL" => va 1 [.arg 0, lp, .arg 1, rp]
  | "CE_PP_TEXT" => va 0 [.text 0]
  -- 253-261
  | "CE_PP_GET_0" => va 1 [.arg 0]
  | "CE_PP_GET_1" => va 2 [.arg 1]
  | "CE_PP_GET_2" => va 3 [.arg 2]
  | "CE_PP_GET_3" => va 4 [.arg 3]
  | "CE_PP_GET_4" => va 5 [.arg 4]
  | "CE_PP_GET_5" => va 6 [.arg 5]
  | "CE_PP_GET_6" => va 7 [.arg 6]
  | "CE_PP_GET_7" => va 8 [.arg 7]
  | "CE_PP_MAP" => va 8 [.arg 0, lp, .arg 1, rp, .arg 0, lp, .arg 2, rp, .arg 0, lp, .arg 3, rp, .arg 0, lp, .arg 4, rp,
      .arg 0, lp, .arg 5, rp, .arg 0, lp, .arg 6, rp, .arg 0, lp, .arg 7, rp, .arg 0, lp, .arg 8, rp]
  -- 263-265
  | "CE_PP_WHEN_0" => va 0 [w "CE_PP_PASS"]
  | "CE_PP_WHEN_1" => va 0 [.arg 0, w "CE_PP_KILL"]
  | "CE_PP_WHEN" => some ⟨some (1, false), [w "CE_PP_JOIN", lp, w "CE_PP_WHEN_", cm, .arg 0, rp]⟩
  -- 1172
  | "CE_AS_NAMES_EX" => some ⟨some (2, false), [o "[", o "]", o "{", w "static", w "constexpr", w "ce", o "::", w "names", o "<",
      w "sizeof", lp, .arg 1, q "", rp, cm, .arg 0, o ">", w "_", o "{", .arg 1, q "", o "}", o ";", w "return", w "_", o ".",
      w "data", o ";", o "}", lp, rp]⟩
  -- 1181-1188
  | "_CE_LOG_fatal" => obj [o "~", cm, .tok (.num "0")]
  | "_CE_LOG_error" => obj [o "~", cm, .tok (.num "1")]
  | "_CE_LOG_warn" => obj [o "~", cm, .tok (.num "2")]
  | "_CE_LOG_note" => obj [o "~", cm, .tok (.num "3")]
  | "_CE_LOG_info" => obj [o "~", cm, .tok (.num "4")]
  | "_CE_LOG_debug" => obj [o "~", cm, .tok (.num "5")]
  | "_CE_LOG_spam" => obj [o "~", cm, .tok (.num "6")]
  | "_CE_LOG_more" => obj [o "~", cm, .tok (.num "7")]
  -- 1190-1195
  | "_CE_LOG_LVL" => some ⟨some (1, false), [w "CE_PP_GET_1", w "CE_PP_ARGS", lp, .join "_CE_LOG_" 0, cm, .tok (.num "7"), rp]⟩
  | "CE_LOG_EX" => va 2 [w "CE_PP_WHEN", lp, w "CE_LOG_LEVEL", rp, lp, w "ce", o "::", w "call_log_hook", lp, .arg 0, cm,
      w "CE_AS_NAMES_EX", lp, w "CE_COUNTOF_ARGS", lp, .arg 2, rp, cm, .arg 1, rp, cm, .arg 2, rp, rp, lp, w "CE_REF", lp, .arg 2, rp, rp]
  | "CE_LOG" => va 1 [w "CE_LOG_EX", lp, w "_CE_LOG_LVL", lp, .arg 0, rp, cm, q "$,", .text 1, cm, .text 0, .commaArg 1, rp]
  | "CE_LOG_MSG" => va 1 [w "CE_LOG_EX", lp, w "_CE_LOG_LVL", lp, .arg 0, rp, cm, q "$,$msg", cm, .text 0, cm, w "ce", o "::",
      w "as_string", o "{", .arg 1, o "}", o ".", w "as", rp]
  | s => c.user s

/-- a written token -/
def tok (k : Kind) : Tok := ⟨k, []⟩

/-- a use of a function-like macro with these tokens between the parentheses -/
def call (s : String) (a : List Tok) : List Tok := tok (.id s) :: tok .lp :: (a ++ [tok .rp])

end CE.Preproc
