import Verif.Model.SpinNest
/-! Sections inside sections. -/
namespace CE.SpinNest

/-- A thread that has the slots `held`, the last one first, does `p`: what it takes may follow what it has (`may`), it gives back
the last one taken first, and at the end it has none. -/
inductive Nested {S : Type} (may : S → S → Prop) : List S → List (Ins S) → Prop
  | done : Nested may [] []
  | take {held g p} : (∀ h ∈ held, may h g) → Nested may (g :: held) p → Nested may held (.take g :: p)
  | give {held g p} : Nested may held p → Nested may (g :: held) (.give g :: p)

end CE.SpinNest
