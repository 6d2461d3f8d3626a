import Verif.Model.Pool
/-! Queues as lists, nodes handed out as a set, and a count of what is in use. -/
namespace CE.Pool

variable {α : Type}

/-- abstract state: the queues, the nodes the client holds with their content, the number of nodes in
use (held by the client, in a queue, or lost) and the number of nodes lost: those of a queue that was
reset are out of reach until the pool is reset -/
structure Abs (α : Type) where
  queue : Nat → List α
  held : Nat → Bool
  cell : Nat → α
  used : Nat
  lost : Nat

/-- what a client must respect: free, read and write only nodes it holds (freeing 0 is allowed), use
`head` and `tail` only on non-empty queues, and have no items in any queue when the pool is reset -/
def Pre (σ : Abs α) : Op α → Prop
  | .free x => x = 0 ∨ σ.held x = true
  | .peek x | .poke x _ => σ.held x = true
  | .head q | .tail q | .setHead q _ | .setTail q _ => σ.queue q ≠ []
  | .reset => ∀ q, σ.queue q = []
  | _ => True

/-- one call on the abstract state, of a pool with `N - 1` nodes -/
inductive SpecStep (N : Nat) (σ : Abs α) : Op α → Out α → Abs α → Prop where
  | alloc (x v) (hu : σ.used < N - 1) (h0 : x ≠ 0) (hN : x < N) (hx : σ.held x = false) :
      SpecStep N σ .alloc (.node x)
        { σ with held := upd σ.held x true, cell := upd σ.cell x v, used := σ.used + 1 }
  | allocFull (hu : σ.used = N - 1) : SpecStep N σ .alloc (.node 0) σ
  | free (x n) (h0 : x ≠ 0) (hx : σ.held x = true) (hn : n + 1 = σ.used) :
      SpecStep N σ (.free x) .unit { σ with held := upd σ.held x false, used := n }
  | freeNil : SpecStep N σ (.free 0) .unit σ
  | peek (x) (hx : σ.held x = true) : SpecStep N σ (.peek x) (.value (σ.cell x)) σ
  | poke (x v) (hx : σ.held x = true) :
      SpecStep N σ (.poke x v) .unit { σ with cell := upd σ.cell x v }
  | append (q v) (hu : σ.used < N - 1) : SpecStep N σ (.append q v) (.ok true)
      { σ with queue := upd σ.queue q (σ.queue q ++ [v]), used := σ.used + 1 }
  | appendFull (q v) (hu : σ.used = N - 1) : SpecStep N σ (.append q v) (.ok false) σ
  | insert (q v) (hu : σ.used < N - 1) : SpecStep N σ (.insert q v) (.ok true)
      { σ with queue := upd σ.queue q (v :: σ.queue q), used := σ.used + 1 }
  | insertFull (q v) (hu : σ.used = N - 1) : SpecStep N σ (.insert q v) (.ok false) σ
  | remove (q v vs n) (h : σ.queue q = v :: vs) (hn : n + 1 = σ.used) :
      SpecStep N σ (.remove q) (.ok true) { σ with queue := upd σ.queue q vs, used := n }
  | removeEmpty (q) (h : σ.queue q = []) : SpecStep N σ (.remove q) (.ok false) σ
  | head (q v vs) (h : σ.queue q = v :: vs) : SpecStep N σ (.head q) (.value v) σ
  | tail (q v vs) (h : σ.queue q = vs ++ [v]) : SpecStep N σ (.tail q) (.value v) σ
  | setHead (q v w vs) (h : σ.queue q = w :: vs) :
      SpecStep N σ (.setHead q v) .unit { σ with queue := upd σ.queue q (v :: vs) }
  | setTail (q v w vs) (h : σ.queue q = vs ++ [w]) :
      SpecStep N σ (.setTail q v) .unit { σ with queue := upd σ.queue q (vs ++ [v]) }
  | isEmpty (q b) (h : b = true ↔ σ.queue q = []) : SpecStep N σ (.isEmpty q) (.ok b) σ
  | forget (q) : SpecStep N σ (.forget q) .unit
      { σ with queue := upd σ.queue q [], lost := σ.lost + (σ.queue q).length }
  | reset (h : ∀ q, σ.queue q = []) :
      SpecStep N σ .reset .unit { σ with held := fun _ => false, used := 0, lost := 0 }

/-- a history of calls -/
inductive SpecRun (N : Nat) : Abs α → List (Op α) → List (Out α) → Abs α → Prop where
  | nil (σ) : SpecRun N σ [] [] σ
  | cons {σ σ' σ'' op ops r rs} (h : SpecStep N σ op r σ') (hs : SpecRun N σ' ops rs σ'') :
      SpecRun N σ (op :: ops) (r :: rs) σ''

/-- before any call: all queues empty, nothing held -/
def Abs.init (cell : Nat → α) : Abs α := ⟨fun _ => [], fun _ => false, cell, 0, 0⟩

end CE.Pool
