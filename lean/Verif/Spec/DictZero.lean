import Verif.Spec.Dictionary
/-! What the dictionary does with every name, the one in `names[0]` included. -/
namespace CE.Dictionary

variable {K V : Type} [DecidableEq K]

/-- abstract dictionary: the handle of each name that can be found, the handles given out, their values, and how many there are -/
structure AbsZ (K V : Type) where
  handle : K → Option Nat
  given : Nat → Prop
  value : Nat → V
  count : Nat

/-- handles may only be used after `bind` returned them; `[n]` only on names that can be found -/
def PreZ (σ : AbsZ K V) : Op K V → Prop
  | .get p | .put p _ => σ.given p
  | .getName n => (σ.handle n).isSome
  | _ => True

/-- one call, with room for `N - 1` entries; the name `k0` is forgotten as soon as it is bound -/
inductive StepZ (k0 : K) (N : Nat) (σ : AbsZ K V) : Op K V → Out V → AbsZ K V → Prop where
  | find (n p) (h : σ.handle n = some p) : StepZ k0 N σ (.find n) (.ptr p) σ
  | findNil (n) (h : σ.handle n = none) : StepZ k0 N σ (.find n) (.ptr 0) σ
  | rebind (n v p) (h : σ.handle n = some p) : StepZ k0 N σ (.bind n v) (.ptr p) { σ with value := CE.upd σ.value p v }
  | bind (n v p) (h : σ.handle n = none) (hc : σ.count < N - 1) (hp : p ≠ 0) (hN : p < N) (hnew : ¬ σ.given p) :
      StepZ k0 N σ (.bind n v) (.ptr p)
        ⟨if n = k0 then σ.handle else Abs.upd σ.handle n (some p), fun q => q = p ∨ σ.given q, CE.upd σ.value p v, σ.count + 1⟩
  | bindFull (n v) (h : σ.handle n = none) (hc : σ.count = N - 1) : StepZ k0 N σ (.bind n v) (.ptr 0) σ
  | get (p) (h : σ.given p) : StepZ k0 N σ (.get p) (.value (σ.value p)) σ
  | put (p v) (h : σ.given p) : StepZ k0 N σ (.put p v) .unit { σ with value := CE.upd σ.value p v }
  | getName (n p) (h : σ.handle n = some p) : StepZ k0 N σ (.getName n) (.value (σ.value p)) σ

/-- a history of calls -/
inductive RunZ (k0 : K) (N : Nat) : AbsZ K V → List (Op K V) → List (Out V) → AbsZ K V → Prop where
  | nil (σ) : RunZ k0 N σ [] [] σ
  | cons {σ σ' σ'' op ops r rs} (h : StepZ k0 N σ op r σ') (hs : RunZ k0 N σ' ops rs σ'') : RunZ k0 N σ (op :: ops) (r :: rs) σ''

/-- nothing bound -/
def AbsZ.init (value : Nat → V) : AbsZ K V := ⟨fun _ => none, fun _ => False, value, 0⟩

end CE.Dictionary
