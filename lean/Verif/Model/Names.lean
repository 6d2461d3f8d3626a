import Verif.Model.Buf
/-!
# Model of `ce::names` (lib/h/ce/ce.h:1113-1170) and `ce::names_t` (lib/h/ce/io.h:30-61)

The source text is the list of its characters before the terminating NUL; `*src == '\0'` is `[]`.
Characters are bytes; whether plain `char` is signed is the parameter `sg` (it decides how bytes
above 127 compare with `' '`).  The text buffer has `N` cells, access outside it is `none`.  A key
pointer `&text[i]` is the index `i`.  `int balance` is an integer (it cannot overflow for texts
shorter than 2^31).
-/
namespace CE.Names

abbrev U8 := BitVec 8

/-- `*src <= ' '` -/
def blank (sg : Bool) (c : U8) : Bool := if sg then decide (c.toInt ≤ 32) else decide (c.toNat ≤ 32)

/-- `'\0'`, `','`, `'"'`, `'\''`, `'\\'` -/
def nul : U8 := 0
def comma : U8 := 0x2c
def dquote : U8 := 0x22
def squote : U8 := 0x27
def backslash : U8 := 0x5c
/-- `'('`, `'['`, `'{'` lib/h/ce/ce.h:1144 -/
def opens (c : U8) : Bool := c == 0x28 || c == 0x5b || c == 0x7b
/-- `')'`, `']'`, `'}'` lib/h/ce/ce.h:1146 -/
def closes (c : U8) : Bool := c == 0x29 || c == 0x5d || c == 0x7d

/-- the part of the loop body that tracks brackets, quotes and escapes lib/h/ce/ce.h:1138-1154:
`none` is `break` -/
def track (src : List U8) (c : U8) (balance : Int) (quote : U8) (escape : Bool) :
    Option (Int × U8 × Bool) :=
  if quote = 0 then
    if c = comma ∧ (balance = 0 ∨ src = []) then none
    else if c = dquote ∨ c = squote then some (balance, c, escape)
    else if opens c then some (balance + 1, quote, escape)
    else if closes c then some (balance - 1, quote, escape)
    else some (balance, quote, escape)
  else if escape then some (balance, quote, false)
  else if c = backslash then some (balance, quote, true)
  else if c = quote then some (balance, 0, escape)
  else some (balance, quote, escape)

/-- the copy loop lib/h/ce/ce.h:1135-1158; gives the text, `trim` and the rest of the source -/
def copyKey (sg : Bool) (N : Nat) : List U8 → Int → U8 → Bool → (Nat → U8) → Nat → Nat →
    Option ((Nat → U8) × Nat × List U8)
  | [], _, _, _, text, _, trim => some (text, trim, [])
  | c :: src, balance, quote, escape, text, i, trim =>
    match track src c balance quote escape with
    | none => some (text, trim, c :: src)
    | some (balance, quote, escape) => do
      let text ← (Obj.mk 0 N).wr text i c
      copyKey sg N src balance quote escape text (i + 1) (if blank sg c then trim else i + 1)

/-- one round of the outer loop lib/h/ce/ce.h:1120-1168: the text, the next `i` and the rest -/
def round (sg : Bool) (N : Nat) (last : Bool) (src : List U8) (text : Nat → U8) (i : Nat) :
    Option ((Nat → U8) × Nat × List U8) := do
  let src := src.dropWhile (blank sg)
  let (text, i, src) ← copyKey sg N src (if last then 1 else 0) 0 false text i i
  let text ← (Obj.mk 0 N).wr text i nul
  match src with
  | [] => return (text, i, [])
  | _ :: src => return (text, i + 1, src)

/-- `left` rounds; `withLast` is `COUNT != 0` (for `COUNT == 0` there is one entry in `data` and no
entry is the last one) -/
def rounds (sg : Bool) (N : Nat) (withLast : Bool) :
    Nat → List U8 → (Nat → U8) → Nat → Option ((Nat → U8) × List Nat)
  | 0, _, text, _ => some (text, [])
  | left + 1, src, text, i => do
    let (text, i', src) ← round sg N (withLast && left == 0) src text i
    let (text, keys) ← rounds sg N withLast left src text i'
    return (text, i :: keys)

/-- `names<N, COUNT>(src)` with `N = sizeof` the literal: the text and the key pointers -/
def names (sg : Bool) (COUNT : Nat) (src : List U8) : Option ((Nat → U8) × List Nat) :=
  rounds sg (src.length + 1) (COUNT != 0) (COUNT + (if COUNT = 0 then 1 else 0)) src (fun _ => 0) 0

/-- `while (s[k] > ' ' && s[k] != ',') text[j++] = s[k++];` lib/h/ce/io.h:46-47 -/
def copyMember (sg : Bool) (N : Nat) : List U8 → (Nat → U8) → Nat → Option ((Nat → U8) × Nat × List U8)
  | [], text, j => some (text, j, [])
  | c :: s, text, j =>
    if !blank sg c && c != comma then do
      let text ← (Obj.mk 0 N).wr text j c
      copyMember sg N s text (j + 1)
    else some (text, j, c :: s)

/-- the loop of `names_t` lib/h/ce/io.h:39-54 -/
def members (sg : Bool) (N : Nat) : Nat → List U8 → (Nat → U8) → Nat →
    Option ((Nat → U8) × Nat × List Nat)
  | 0, _, text, j => some (text, j, [])
  | left + 1, s, text, j => do
    let (text, j', s) ← copyMember sg N (s.dropWhile (blank sg)) text j
    let s := match s with
      | [] => []
      | c :: s => if c = comma then s else c :: s
    let text ← (Obj.mk 0 N).wr text j' nul
    let (text, j'', ns) ← members sg N left s text (j' + 1)
    return (text, j'', j :: ns)

/-- `names_t<N, COUNT>(s)` lib/h/ce/io.h:35-61; the final loop clears cells that are still zero -/
def namesT (sg : Bool) (COUNT : Nat) (s : List U8) : Option ((Nat → U8) × List Nat) := do
  let (text, j, ns) ← members sg (s.length + 1) COUNT s (fun _ => 0) 0
  return (fun k => if j ≤ k ∧ k < s.length + 1 then 0 else text k, ns)

end CE.Names
