import Verif.Model.Dictionary
/-! A bounded map with stable handles. -/
namespace CE.Dictionary

variable {K V : Type} [DecidableEq K]

/-- abstract dictionary: the handle of each bound name, the value of each handle, and how many names
are bound -/
structure Abs (K V : Type) where
  handle : K → Option Nat
  value : Nat → V
  count : Nat

/-- set one entry -/
def Abs.upd {β : Type} (f : K → β) (k : K) (v : β) : K → β := fun j => if j = k then v else f j

/-- handles may only be used after `bind` returned them; `[n]` only on bound names -/
def Pre (σ : Abs K V) : Op K V → Prop
  | .get p | .put p _ => ∃ n, σ.handle n = some p
  | .getName n => (σ.handle n).isSome
  | _ => True

/-- the name a call mentions is not `k` -/
def Op.Avoids (k : K) : Op K V → Prop
  | .find n | .bind n _ | .getName n => n ≠ k
  | _ => True

/-- one call on the abstract dictionary with room for `N - 1` names -/
inductive SpecStep (N : Nat) (σ : Abs K V) : Op K V → Out V → Abs K V → Prop where
  | find (n p) (h : σ.handle n = some p) : SpecStep N σ (.find n) (.ptr p) σ
  | findNil (n) (h : σ.handle n = none) : SpecStep N σ (.find n) (.ptr 0) σ
  | rebind (n v p) (h : σ.handle n = some p) :
      SpecStep N σ (.bind n v) (.ptr p) { σ with value := CE.upd σ.value p v }
  | bind (n v p) (h : σ.handle n = none) (hc : σ.count < N - 1) (hp : p ≠ 0) (hN : p < N)
      (hnew : ∀ n', σ.handle n' ≠ some p) : SpecStep N σ (.bind n v) (.ptr p)
        ⟨Abs.upd σ.handle n (some p), CE.upd σ.value p v, σ.count + 1⟩
  | bindFull (n v) (h : σ.handle n = none) (hc : σ.count = N - 1) :
      SpecStep N σ (.bind n v) (.ptr 0) σ
  | get (n p) (h : σ.handle n = some p) : SpecStep N σ (.get p) (.value (σ.value p)) σ
  | put (n p v) (h : σ.handle n = some p) :
      SpecStep N σ (.put p v) .unit { σ with value := CE.upd σ.value p v }
  | getName (n p) (h : σ.handle n = some p) : SpecStep N σ (.getName n) (.value (σ.value p)) σ

/-- a history of calls -/
inductive SpecRun (N : Nat) : Abs K V → List (Op K V) → List (Out V) → Abs K V → Prop where
  | nil (σ) : SpecRun N σ [] [] σ
  | cons {σ σ' σ'' op ops r rs} (h : SpecStep N σ op r σ') (hs : SpecRun N σ' ops rs σ'') :
      SpecRun N σ (op :: ops) (r :: rs) σ''

/-- nothing bound -/
def Abs.init (value : Nat → V) : Abs K V := ⟨fun _ => none, value, 0⟩

/-- `j` is in the subtree of the implicit binary tree rooted at `i` -/
def InSubtree (i j : Nat) : Prop := ∃ k, j / 2 ^ k = i

/-- `names[1 .. heap)` is the implicit search tree the scan of `find` walks: smaller names below
`2i + 1`, larger ones below `2i` -/
def SearchTree {K V : Type} (lt : K → K → Prop) (d : Dict K V) : Prop :=
  ∀ i j, 1 ≤ i → i < d.heap → j < d.heap →
    (InSubtree (2 * i + 1) j → lt (d.names j) (d.names i)) ∧
    (InSubtree (2 * i) j → lt (d.names i) (d.names j))

end CE.Dictionary
