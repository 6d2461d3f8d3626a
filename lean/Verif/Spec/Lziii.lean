/-!
The lziii format as described in the comment lib/h/ce/lziii.h:34-41: groups of up to eight tokens,
each group preceded by a control byte.
-/
namespace CE.Lziii

/-- a literal byte, or a copy of `len` bytes starting `off` bytes back -/
inductive Tok where
  | lit (x : BitVec 8)
  | span (off len : Nat)

/-- does the control bit say literal? -/
def Tok.isLit : Tok → Bool
  | .lit _ => true
  | .span .. => false

/-- offset and length fit the format, and the span starts inside what has been produced so far
(`n` bytes) -/
def Tok.Ok (n : Nat) : Tok → Prop
  | .lit _ => True
  | .span off len => 1 ≤ off ∧ off ≤ 4096 ∧ 3 ≤ len ∧ len ≤ 18 ∧ off ≤ n

/-- number of bytes a token produces -/
def Tok.count : Tok → Nat
  | .lit _ => 1
  | .span _ len => len

/-- every token is usable where it stands -/
def Valid : Nat → List Tok → Prop
  | _, [] => True
  | n, t :: ts => t.Ok n ∧ Valid (n + t.count) ts

/-- append `len` bytes, each a copy of the one `off` back -/
def copyBack (off : Nat) : Nat → List (BitVec 8) → List (BitVec 8)
  | 0, out => out
  | len + 1, out => copyBack off len (out ++ [out.getD (out.length - off) 0])

/-- the data a token list stands for -/
def expand : List Tok → List (BitVec 8) → List (BitVec 8)
  | [], out => out
  | .lit x :: ts, out => expand ts (out ++ [x])
  | .span off len :: ts, out => expand ts (copyBack off len out)

/-- bytes of a token -/
def Tok.payload : Tok → List (BitVec 8)
  | .lit x => [x]
  | .span off len => [BitVec.ofNat 8 ((4096 - off) % 256), BitVec.ofNat 8 ((len - 3) * 16 + (4096 - off) / 256)]

/-- `e` is an encoding of the tokens: groups of eight, the last one may be shorter (and then the
unused control bits are arbitrary) -/
inductive Encodes : List Tok → List (BitVec 8) → Prop where
  | nil : Encodes [] []
  | group (ctl : BitVec 8) (g rest : List Tok) (e : List (BitVec 8)) (hg : g ≠ [])
      (hlen : g.length = 8 ∨ (g.length < 8 ∧ rest = []))
      (hbits : ∀ (i : Nat) (t : Tok), g[i]? = some t → ctl.getLsbD i = t.isLit)
      (h : Encodes rest e) : Encodes (g ++ rest) (ctl :: (g.flatMap Tok.payload ++ e))

/-- control byte of a group -/
def control (g : List Tok) : BitVec 8 :=
  BitVec.ofNat 8 (g.foldr (fun t n => 2 * n + t.isLit.toNat) 0)

/-- an encoder -/
def encode (ts : List Tok) : List (BitVec 8) :=
  if h : ts = [] then []
  else control (ts.take 8) :: ((ts.take 8).flatMap Tok.payload ++ encode (ts.drop 8))
termination_by ts.length
decreasing_by
  have : ts.length ≠ 0 := by simpa using h
  simp; omega

end CE.Lziii
