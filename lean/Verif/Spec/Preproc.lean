import Verif.Model.Preproc
/-! What the macros for checks and logging are to expand to. -/
namespace CE.Preproc

/-- identifiers that the library's macros use and that the program does not define as macros -/
def words : List String :=
  ["decltype", "ce", "error_hook", "fn", "bool", "false", "void", "CE_DEBUG_BREAK", "sizeof", "detail", "countof_args_helper",
   "countof_helper", "call_log_hook", "static", "constexpr", "names", "return", "_", "data", "as_string", "as", "CE_PP_WHEN_"]

/-- how many parentheses are open behind the tokens when `d` are before them; `none` if one too many closes -/
def nest : Nat → List Kind → Option Nat
  | d, [] => some d
  | d, .lp :: ts => nest (d + 1) ts
  | 0, .rp :: _ => none
  | d + 1, .rp :: ts => nest d ts
  | d, _ :: ts => nest d ts

/-- parentheses match -/
def Closed (a : List Kind) : Prop := nest 0 a = some 0

/-- one macro argument: every comma is in parentheses -/
def OneArg (a : List Kind) : Prop := Closed a ∧ ∀ x y, a = x ++ .comma :: y → nest 0 x ≠ some 0

/-- no identifier in it is a macro -/
def Ordinary (c : Config) (a : List Kind) : Prop := ∀ s, .id s ∈ a → macros c s = none

/-- a use of a macro -/
def use (s : String) (a : List Kind) : List Kind := .id s :: .lp :: (a ++ [.rp])

/-- further arguments, with the comma before them, if there are any -/
def more (a : List Kind) : List Kind := if a.isEmpty then [] else .comma :: a

/-- the written tokens become these -/
def Expands (c : Config) (a ks : List Kind) : Prop :=
  ∃ f out, expand (macros c) f (a.map tok) = some out ∧ out.map (·.kind) = ks

/-- the string literal that shows the tokens -/
def shown (a : List Kind) : Kind := .text (a.map (·.spell))

/-- identifier, punctuation, literal -/
abbrev i (s : String) : Kind := .id s
/-- punctuation -/
abbrev p (s : String) : Kind := .op s

/-- `decltype(ce::error_hook(a))::fn("\0" KIND "\0" WHAT "\0" FILE "(" "LINE" ")" "\0" "a", a)` -/
def report (c : Config) (kind : String) (what : Kind) (a : List Kind) : List Kind :=
  [i "decltype", .lp, i "ce", p "::", i "error_hook", .lp] ++ a ++ [.rp, .rp, p "::", i "fn", .lp, .str "\\0", .str kind, .str "\\0",
    what, .str "\\0", .str c.file, .str "(", .text [c.line], .str ")", .str "\\0", shown a] ++ more a ++ [.rp]

/-- `bool{ test } || report && (CE_DEBUG_BREAK(), false)`, or without checks `bool{ test }` -/
def check (c : Config) (kind : String) (test a : List Kind) : List Kind :=
  [i "bool", p "{"] ++ test ++ [p "}"] ++
    if c.err then [p "||"] ++ report c kind (shown test) a ++ [p "&&", .lp, i "CE_DEBUG_BREAK", .lp, .rp, .comma, i "false", .rp]
    else []

/-- `(sizeof(decltype(ce::detail::countof_args_helper(a))) - 1)` -/
def countOf (a : List Kind) : List Kind :=
  [.lp, i "sizeof", .lp, i "decltype", .lp, i "ce", p "::", i "detail", p "::", i "countof_args_helper", .lp] ++ a ++
    [.rp, .rp, .rp, p "-", .num "1", .rp]

/-- `[]{ static constexpr ce::names<sizeof(n ""), count> _{ n "" }; return _.data; }()` -/
def namesOf (n count : List Kind) : List Kind :=
  [p "[", p "]", p "{", i "static", i "constexpr", i "ce", p "::", i "names", p "<", i "sizeof", .lp] ++ n ++
    [.str "", .rp, .comma] ++ count ++ [p ">", i "_", p "{"] ++ n ++ [.str "", p "}", p ";", i "return", i "_", p ".", i "data",
    p ";", p "}", .lp, .rp]

/-- `ce::call_log_hook(level, names, a)`, or with logging off `(void)` and the number of the arguments -/
def logCall (c : Config) (level : String) (n a : List Kind) : List Kind :=
  if c.log then [i "ce", p "::", i "call_log_hook", .lp, .num level, .comma] ++ namesOf n (countOf a) ++ [.comma] ++ a ++ [.rp]
  else [.lp, i "void", .rp] ++ countOf a

/-- arguments with commas between them -/
def sep : List (List Kind) → List Kind
  | [] => []
  | [x] => x
  | x :: y :: xs => x ++ .comma :: sep (y :: xs)

/-- the levels -/
def levels : List (String × String) :=
  [("fatal", "0"), ("error", "1"), ("warn", "2"), ("note", "3"), ("info", "4"), ("debug", "5"), ("spam", "6"), ("more", "7")]

end CE.Preproc
