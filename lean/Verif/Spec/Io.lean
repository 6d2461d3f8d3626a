import Verif.Model.Io
/-!
# Event streams: nesting, a writer and a reader
-/
namespace CE.Io

/-- the calls a handler receives -/
inductive Ev (A : Type)
  | atom (a : A)
  | enterArray (n : Nat) (dyn : Bool)
  | leaveArray (n : Nat) (dyn : Bool)
  | name (s : String)
  | enterClass
  | leaveClass

/-- kinds of properly nested streams -/
inductive Kind
  /-- one item -/
  | item
  /-- `n` items -/
  | items (n : Nat)
  /-- named items -/
  | members

/-- properly nested -/
inductive Nest {A : Type} : Kind → List (Ev A) → Prop
  | atom (a : A) : Nest .item [.atom a]
  | array {n es} (dyn : Bool) : Nest (.items n) es → Nest .item (.enterArray n dyn :: (es ++ [.leaveArray n dyn]))
  | cls {es} : Nest .members es → Nest .item (.enterClass :: (es ++ [.leaveClass]))
  | nil : Nest (.items 0) []
  | cons {n e es} : Nest .item e → Nest (.items n) es → Nest (.items (n + 1)) (e ++ es)
  | mnil : Nest .members []
  | mcons {e es} (s : String) : Nest .item e → Nest .members es → Nest .members (.name s :: (e ++ es))

/-- a handler that records the calls and changes nothing -/
def writer (A : Type) : Handler A (List (Ev A)) where
  atom a s := some (a, s ++ [.atom a])
  enterArray n d s := some (n, s ++ [.enterArray n d])
  leaveArray n d s := some (n, s ++ [.leaveArray n d])
  name x s := some (s ++ [.name x])
  enterClass s := some (s ++ [.enterClass])
  leaveClass s := some (s ++ [.leaveClass])

/-- a handler that takes atoms and sizes from a stream, and gives up when the stream does not match -/
def reader (A : Type) : Handler A (List (Ev A)) where
  atom _ s := match s with | .atom a :: r => some (a, r) | _ => none
  enterArray _ d s := match s with | .enterArray n d' :: r => if d = d' then some (n, r) else none | _ => none
  leaveArray n d s := match s with | .leaveArray n' d' :: r => if n = n' ∧ d = d' then some (n, r) else none | _ => none
  name x s := match s with | .name y :: r => if x = y then some r else none | _ => none
  enterClass s := match s with | .enterClass :: r => some r | _ => none
  leaveClass s := match s with | .leaveClass :: r => some r | _ => none

/-- a proper type: member chains only inside `obj`, and nothing but member chains there (`chain` tells which is
expected) -/
def Proper : Bool → Ty → Prop
  | false, .atom => True
  | false, .arr _ t => Proper false t
  | false, .list _ t => Proper false t
  | false, .obj m => Proper true m
  | true, .nil => True
  | true, .member _ t r => Proper false t ∧ Proper true r
  | _, _ => False

/-- every list's size is within its capacity -/
def Valid {A : Type} : (t : Ty) → Val A t → Prop
  | .atom, _ => True
  | .arr _ t, d => ∀ i, Valid t (d i)
  | .list cap t, d => d.1 ≤ cap ∧ ∀ i, i.1 < d.1 → Valid t (d.2 i)
  | .obj m, d => Valid m d
  | .nil, _ => True
  | .member _ t r, d => Valid t d.1 ∧ Valid r d.2

/-- equal, where elements of a list beyond its size do not count -/
def Same {A : Type} : (t : Ty) → Val A t → Val A t → Prop
  | .atom, a, b => a = b
  | .arr _ t, a, b => ∀ i, Same t (a i) (b i)
  | .list _ t, a, b => a.1 = b.1 ∧ ∀ i, i.1 < a.1 → Same t (a.2 i) (b.2 i)
  | .obj m, a, b => Same m a b
  | .nil, _, _ => True
  | .member _ t r, a, b => Same t a.1 b.1 ∧ Same r a.2 b.2

end CE.Io
