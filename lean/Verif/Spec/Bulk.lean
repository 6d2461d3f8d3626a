import Verif.Model.Bulk
/-! Bounded sequences, as lists. -/
namespace CE.Bulk

variable {α : Type}

/-- the variables that exist and their content -/
abbrev Lists (α : Type) := Nat → Option (List α)

/-- what growth may add: default values, or anything for a trivially constructible type -/
def Grown (t : Traits α) (ys : List α) : Prop := t.trivialCtor = false → ∀ y ∈ ys, y = t.dflt

/-- one call on lists: `SpecStep σ op out σ'` says that `op` may give `out` and leave `σ'` -/
inductive SpecStep (t : Traits α) (N : Nat) (σ : Lists α) : Op α → Out α → Lists α → Prop where
  | new (k junk) (h : σ k = none) : SpecStep t N σ (.new k junk) .unit (upd σ k (some []))
  | drop (k) (h : (σ k).isSome) : SpecStep t N σ (.drop k) .unit (upd σ k none)
  | copy (k j junk xs) (hk : σ k = none) (hj : σ j = some xs) :
      SpecStep t N σ (.copy k j junk) .unit (upd σ k (some xs))
  | assign (k j xs) (hk : (σ k).isSome) (hj : σ j = some xs) :
      SpecStep t N σ (.assign k j) .unit (upd σ k (some xs))
  | clear (k) (h : (σ k).isSome) : SpecStep t N σ (.clear k) .unit (upd σ k (some []))
  | resizeFail (k n xs) (h : σ k = some xs) (hn : N < n) : SpecStep t N σ (.resize k n) (.ok false) σ
  | shrink (k n xs) (h : σ k = some xs) (hn : n ≤ xs.length) (hN : n ≤ N) :
      SpecStep t N σ (.resize k n) (.ok true) (upd σ k (some (xs.take n)))
  | grow (k n xs ys) (h : σ k = some xs) (hn : xs.length + ys.length = n) (hN : n ≤ N)
      (hy : Grown t ys) : SpecStep t N σ (.resize k n) (.ok true) (upd σ k (some (xs ++ ys)))
  | appendNFail (k n xs) (h : σ k = some xs) (hn : N < xs.length + n) :
      SpecStep t N σ (.appendN k n) (.ok false) σ
  | appendN (k n xs ys) (h : σ k = some xs) (hn : xs.length + n ≤ N) (hl : ys.length = n)
      (hy : Grown t ys) : SpecStep t N σ (.appendN k n) (.ok true) (upd σ k (some (xs ++ ys)))
  | appendFail (k x xs) (h : σ k = some xs) (hn : xs.length = N) :
      SpecStep t N σ (.append k x) (.ok false) σ
  | append (k x xs) (h : σ k = some xs) (hn : xs.length < N) :
      SpecStep t N σ (.append k x) (.ok true) (upd σ k (some (xs ++ [x])))
  | removeFail (o k i xs) (h : σ k = some xs) (hi : xs.length ≤ i) :
      SpecStep t N σ (.remove o k i) (.ok false) σ
  | removeOrdered (k i xs) (h : σ k = some xs) (hi : i < xs.length) :
      SpecStep t N σ (.remove true k i) (.ok true) (upd σ k (some (xs.eraseIdx i)))
  | removeUnordered (k i xs) (h : σ k = some xs) (hi : i < xs.length) :
      SpecStep t N σ (.remove false k i) (.ok true)
        (upd σ k (some ((xs.set i (xs[xs.length - 1])).dropLast)))
  | get (k i xs) (h : σ k = some xs) (hi : i < xs.length) :
      SpecStep t N σ (.get k i) (.value xs[i]) σ
  | put (k i x xs) (h : σ k = some xs) (hi : i < xs.length) :
      SpecStep t N σ (.put k i x) .unit (upd σ k (some (xs.set i x)))
  | items (k xs) (h : σ k = some xs) : SpecStep t N σ (.items k) (.values xs) σ
  | back (k xs) (h : σ k = some xs) (hi : xs ≠ []) :
      SpecStep t N σ (.back k) (.value (xs.getLast hi)) σ
  | room (k xs n) (h : σ k = some xs) (hn : xs.length + n = N) :
      SpecStep t N σ (.room k) (.count n) σ

/-- a history of calls on lists -/
inductive SpecRun (t : Traits α) (N : Nat) : Lists α → List (Op α) → List (Out α) → Lists α → Prop where
  | nil (σ) : SpecRun t N σ [] [] σ
  | cons {σ σ' σ'' op ops r rs} (h : SpecStep t N σ op r σ') (hs : SpecRun t N σ' ops rs σ'') :
      SpecRun t N σ (op :: ops) (r :: rs) σ''

/-- Which histories are C++ programs: variables are created before use and not twice, `[i]` and
`back()` are only used in range.  Only the number of elements of each variable matters. -/
def admissible (N : Nat) : (Nat → Option Nat) → List (Op α) → Prop
  | _, [] => True
  | σ, .new k _ :: ops => σ k = none ∧ admissible N (upd σ k (some 0)) ops
  | σ, .drop k :: ops => (σ k).isSome ∧ admissible N (upd σ k none) ops
  | σ, .copy k j _ :: ops => σ k = none ∧ (σ j).isSome ∧ admissible N (upd σ k (σ j)) ops
  | σ, .assign k j :: ops => (σ k).isSome ∧ (σ j).isSome ∧ admissible N (upd σ k (σ j)) ops
  | σ, .clear k :: ops => (σ k).isSome ∧ admissible N (upd σ k (some 0)) ops
  | σ, .resize k n :: ops =>
    ∃ c, σ k = some c ∧ admissible N (upd σ k (some (if n ≤ N then n else c))) ops
  | σ, .appendN k n :: ops =>
    ∃ c, σ k = some c ∧ admissible N (upd σ k (some (if c + n ≤ N then c + n else c))) ops
  | σ, .append k _ :: ops =>
    ∃ c, σ k = some c ∧ admissible N (upd σ k (some (if c < N then c + 1 else c))) ops
  | σ, .remove _ k i :: ops =>
    ∃ c, σ k = some c ∧ admissible N (upd σ k (some (if i < c then c - 1 else c))) ops
  | σ, .get k i :: ops => (∃ c, σ k = some c ∧ i < c) ∧ admissible N σ ops
  | σ, .put k i _ :: ops => (∃ c, σ k = some c ∧ i < c) ∧ admissible N σ ops
  | σ, .items k :: ops => (σ k).isSome ∧ admissible N σ ops
  | σ, .back k :: ops => (∃ c, σ k = some c ∧ 0 < c) ∧ admissible N σ ops
  | σ, .room k :: ops => (σ k).isSome ∧ admissible N σ ops

end CE.Bulk
