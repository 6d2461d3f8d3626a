import Verif.Proof.Io
/-!
# io visits (C64)
-/
namespace CE.Io

variable {A : Type}

/-- Visiting a value with a recording handler is defined, leaves the value alone, and yields a properly nested
stream: one item, every array with as many items as announced. -/
theorem C64_bracketed (t : Ty) (ht : Proper false t) (v : Val A t) (hv : Valid t v) :
    ∃ es, item (writer A) t v [] = some (v, es) ∧ Nest .item es :=
  ⟨events t v, by rw [item_write t v [] hv, List.nil_append], events_nest t v false ht hv⟩

/-- The stream determines the value (list elements beyond the size aside). -/
theorem C64_lossless (t : Ty) (v w : Val A t) (hv : Valid t v) (hw : Valid t w)
    (h : (item (writer A) t v []).map (·.2) = (item (writer A) t w []).map (·.2)) : Same t v w := by
  rw [item_write t v [] hv, item_write t w [] hw] at h
  simp only [Option.map_some, List.nil_append, Option.some.injEq] at h
  obtain ⟨u, h1, h2⟩ := item_read t v v [] hv
  obtain ⟨u', h3, h4⟩ := item_read t v w [] hw
  rw [h, h3] at h1
  cases h1
  exact same_trans t _ _ _ (same_symm t _ _ h2) h4

/-- Reading a written stream into any value of the type gives back the value written, whatever follows the stream. -/
theorem C64_read_back (t : Ty) (u v : Val A t) (hv : Valid t v) (rest : List (Ev A)) :
    ∃ es, item (writer A) t v [] = some (v, es) ∧
      ∃ u', item (reader A) t u (es ++ rest) = some (u', rest) ∧ Same t u' v :=
  ⟨events t v, by rw [item_write t v [] hv, List.nil_append], item_read t u v rest hv⟩

/-- No handler gets the capacity: a reader that sets the size of a list from a stream of more items than fit makes the
visitor go past the end of the array, though the stream is properly nested.  The same happens with a plain array. -/
theorem C64_capacity_false :
    ∃ es : List (Ev Nat), Nest .item es ∧ ∀ u, item (reader Nat) (.list 1 .atom) u es = none :=
  ⟨[.enterArray 2 true, .atom 7, .atom 8, .leaveArray 2 true],
    .array (es := [.atom 7, .atom 8]) true (.cons (e := [.atom 7]) (.atom 7) (.cons (e := [.atom 8]) (.atom 8) .nil)),
    fun _ => rfl⟩

/-- a class with a `vec<2, T>` and a list -/
def sample : Ty :=
  .obj (.member "p" (.obj (.member "x" .atom (.member "y" .atom .nil))) (.member "steps" (.list 4 (.arr 2 .atom)) .nil))

/-- a value of it -/
def sampleVal : Val Nat sample :=
  show (Nat × Nat × Unit) × (Nat × (Fin 4 → Fin 2 → Nat)) × Unit from ((3, 4, ()), (2, fun i j => i.1 + j.1), ())

example : Proper false sample ∧ Valid sample sampleVal :=
  ⟨⟨⟨trivial, trivial, trivial⟩, trivial, trivial⟩, ⟨⟨trivial, trivial, trivial⟩, ⟨(by decide : 2 ≤ 4), fun _ _ _ => trivial⟩, trivial⟩⟩

end CE.Io
