/-! What splitting an argument list means. -/
namespace CE.Names

/-- inside a quoted text: no quote, no backslash except as an escape -/
inductive Quoted (q : BitVec 8) : List (BitVec 8) → Prop where
  | nil : Quoted q []
  | char (c s) (h : c ≠ q) (hb : c ≠ 0x5c) (hs : Quoted q s) : Quoted q (c :: s)
  | esc (c s) (hs : Quoted q s) : Quoted q (0x5c :: c :: s)

/-- punctuation with a meaning: quotes, brackets and comma -/
def special : List (BitVec 8) := [0x22, 0x27, 0x28, 0x29, 0x5b, 0x5d, 0x7b, 0x7d, 0x2c]

/-- bracket pairs -/
def pairs : List (BitVec 8 × BitVec 8) := [(0x28, 0x29), (0x5b, 0x5d), (0x7b, 0x7d)]

/-- a well bracketed text; commas outside brackets and quotes only if `commas` -/
inductive Balanced : Bool → List (BitVec 8) → Prop where
  | nil (b) : Balanced b []
  | plain (b c s) (h : c ∉ special) (hs : Balanced b s) : Balanced b (c :: s)
  | comma (s) (hs : Balanced true s) : Balanced true (0x2c :: s)
  | quoted (b q t s) (hq : q = 0x22 ∨ q = 0x27) (ht : Quoted q t) (hs : Balanced b s) :
      Balanced b (q :: (t ++ q :: s))
  | group (b o c t s) (hp : (o, c) ∈ pairs) (ht : Balanced true t) (hs : Balanced b s) :
      Balanced b (o :: (t ++ c :: s))

/-- remove from both ends the characters for which `p` holds -/
def strip (p : BitVec 8 → Bool) (s : List (BitVec 8)) : List (BitVec 8) :=
  ((s.dropWhile p).reverse.dropWhile p).reverse

/-- arguments separated by commas -/
def joined : List (List (BitVec 8)) → List (BitVec 8)
  | [] => []
  | [a] => a
  | a :: b :: s => a ++ 0x2c :: joined (b :: s)

/-- the C string at `start` in a buffer of `N` cells is `k` -/
def CStr (N : Nat) (text : Nat → BitVec 8) (start : Nat) (k : List (BitVec 8)) : Prop :=
  start + k.length < N ∧ (∀ j (h : j < k.length), text (start + j) = k[j]) ∧
    text (start + k.length) = 0 ∧ 0 ∉ k

/-- the pieces between the characters for which `p` holds -/
def pieces (p : BitVec 8 → Bool) : List (BitVec 8) → List (List (BitVec 8))
  | [] => [[]]
  | c :: s => if p c then [] :: pieces p s else
    match pieces p s with
    | [] => [[c]]
    | a :: r => (c :: a) :: r

/-- the words of a text, between blanks -/
def words (blank : BitVec 8 → Bool) (s : List (BitVec 8)) : List (List (BitVec 8)) := (pieces blank s).filter (· ≠ [])

/-- the words of a piece and, when it does not end with one, an empty name -/
def entries (blank : BitVec 8 → Bool) (s : List (BitVec 8)) : List (List (BitVec 8)) :=
  words blank s ++ match s.getLast? with
    | none => [[]]
    | some c => if blank c then [[]] else []

end CE.Names
