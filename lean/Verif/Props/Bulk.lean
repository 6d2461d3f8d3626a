import Verif.Proof.Bulk
/-!
# C27-C29: bulk
-/
namespace CE.Bulk

variable {α : Type}

/-- C27.  Any number of bulk variables, any history of construction, copying, assignment, clear,
resize, append_n, append, remove_at, reads, writes to elements and iteration: the calls succeed, and their results are those of the
obvious lists of at most `N` elements.  The element type is default constructible, as `resize` and
`append_n` require; see C29 for other types. -/
theorem C27_history_refines (t : Traits α) (hc : t.constructible = true) (N : Nat)
    (ops : List (Op α)) (ha : admissible N (fun _ => none) ops) :
    ∃ rs σ τ, run t N (fun _ => none) ops = some (rs, σ) ∧ SpecRun t N (fun _ => none) ops rs τ ∧
      ∀ k, match σ k, τ k with
        | none, none => True
        | some b, some xs => b.size = xs.length ∧ xs.length ≤ N ∧
            ∀ i (h : i < xs.length), get N b i = some xs[i]
        | _, _ => False := by
  obtain ⟨rs, σ, τ, h1, h2, h3⟩ := run_sim t N hc ops (fun _ => none) (fun _ => none)
    (fun _ => trivial) ha
  refine ⟨rs, σ, τ, h1, h2, fun k => ?_⟩
  have := h3 k
  cases hs : σ k with
  | none => cases ht : τ k with
    | none => trivial
    | some xs => rw [hs, ht] at this; exact this
  | some b => cases ht : τ k with
    | none => rw [hs, ht] at this; exact this
    | some xs =>
      rw [hs, ht] at this
      have hcap := this.cap
      have hsz := this.size
      refine ⟨this.size, this.cap, fun i hi => ?_⟩
      rw [get, read_eq N b.slots b.size i this.live (by omega) (by omega), this.val i hi]

/-- an admissible history with copies, growth, removal and destruction -/
example : admissible 3 (fun _ => none) ([.new 0 (fun _ => 7), .append 0 1, .append 0 2, .resize 0 3,
    .appendN 0 1, .copy 1 0 (fun _ => 9), .remove true 0 0, .put 1 2 5, .remove false 1 0, .assign 0 1,
    .items 0, .back 0, .drop 1, .drop 0] : List (Op Nat)) := by
  simp [admissible, upd]

/-- C28.  In every state any admissible history can reach (no step of which constructs over a live
object, reads, assigns or destroys a dead one: the run is not `none`), the live objects of every bulk
are exactly those below its size, and its destructor destroys every one of them. -/
theorem C28_lifetimes (t : Traits α) (hc : t.constructible = true) (N : Nat)
    (ops : List (Op α)) (ha : admissible N (fun _ => none) ops) :
    ∃ rs σ, run t N (fun _ => none) ops = some (rs, σ) ∧
      ∀ k b, σ k = some b →
        (∀ i, b.slots.live i = true ↔ i < b.size) ∧
        ∃ s, dtor N b = some s ∧ ∀ i, s.live i = false := by
  obtain ⟨rs, σ, τ, h1, h2, h3⟩ := run_sim t N hc ops (fun _ => none) (fun _ => none)
    (fun _ => trivial) ha
  refine ⟨rs, σ, h1, fun k b hb => ?_⟩
  have := h3 k
  rw [hb] at this
  cases ht : τ k with
  | none => rw [ht] at this; exact this.elim
  | some xs =>
    rw [ht] at this
    exact ⟨fun i => by rw [this.live i]; simp, dtor_eq N b xs this⟩

/-- C29, the property is false.  For an element type that is not default constructible and cannot be
assigned to raw storage, copying any non-empty bulk assigns to a slot that holds no object, because
`is_constructible_with<T, T>::value` is false for every `T`. -/
theorem C29_copy_constructs_first_false (t : Traits α) (hc : t.constructible = false)
    (hi : t.implicitLife = false) (N : Nat) (junk : Nat → α) (x : α) (hN : 0 < N) :
    ∃ b, append N (new junk) x = some (true, b) ∧ copy t N junk b = none := by
  obtain ⟨b, e1, e2⟩ := append_eq N (new junk) [] (new_rep N junk) x (by simpa [new] using hN)
  refine ⟨b, e1, ?_⟩
  have hs : b.size = 1 := e2.size
  have hr : read N b.slots 0 = some x := by
    rw [read_eq N b.slots b.size 0 e2.live (by omega) (by omega), e2.val 0 (by simp)]; rfl
  simp only [copy, check, hs, copyLoop, hr, constructCopy, hc, assign, hi, new]
  simp

/-- the same for assignment to an empty bulk -/
theorem C29_assign_constructs_first_false (t : Traits α) (hc : t.constructible = false)
    (hi : t.implicitLife = false) (N : Nat) (junk : Nat → α) (x : α) (hN : 0 < N) :
    ∃ b, append N (new junk) x = some (true, b) ∧ assignBulk t N (new junk) b = none := by
  obtain ⟨b, e1, e2⟩ := append_eq N (new junk) [] (new_rep N junk) x (by simpa [new] using hN)
  refine ⟨b, e1, ?_⟩
  have hs : b.size = 1 := e2.size
  have hr : read N b.slots 0 = some x := by
    rw [read_eq N b.slots b.size 0 e2.live (by omega) (by omega), e2.val 0 (by simp)]; rfl
  simp only [assignBulk, check, assignItems, hs, assignLoop, copyLoop, hr, constructCopy, hc, assign, hi, new]
  simp

/-- such an element type -/
example : ∃ t : Traits Nat, t.constructible = false ∧ t.implicitLife = false :=
  ⟨⟨false, false, 0, false, id⟩, rfl, rfl⟩

/-- C29, what does hold: copying and assigning work for every element type that is default
constructible or may be assigned to raw storage, for all bulks whose live objects are those below
their size, and give an equal sequence. -/
theorem C29_copy_partial (t : Traits α) (hc : t.constructible = true ∨ t.implicitLife = true) (N : Nat)
    (junk : Nat → α) (a b : Bulk α) (ha : a.size ≤ N) (hb : b.size ≤ N)
    (hla : ∀ i, a.slots.live i = true ↔ i < a.size) (hlb : ∀ i, b.slots.live i = true ↔ i < b.size) :
    (∃ c, copy t N junk b = some c ∧ c.size = b.size ∧
      (∀ i, c.slots.live i = true ↔ i < c.size) ∧ ∀ i, i < c.size → get N c i = get N b i) ∧
    (∃ c, assignBulk t N a b = some c ∧ c.size = b.size ∧
      (∀ i, c.slots.live i = true ↔ i < c.size) ∧ ∀ i, i < c.size → get N c i = get N b i) := by
  have rep : ∀ b : Bulk α, b.size ≤ N → (∀ i, b.slots.live i = true ↔ i < b.size) →
      Rep N b ((List.range b.size).map b.slots.val) := by
    intro b hb hl
    refine ⟨by simp, by simpa using hb, fun i => ?_, fun i hi => by simp⟩
    have := hl i
    by_cases h : i < b.size
    · simp [h, this]
    · simp only [h, iff_false, Bool.not_eq_true] at this; simp [h, this]
  have ra := rep a ha hla
  have rb := rep b hb hlb
  have fin : ∀ c : Bulk α, Rep N c ((List.range b.size).map b.slots.val) → c.size = b.size ∧
      (∀ i, c.slots.live i = true ↔ i < c.size) ∧ ∀ i, i < c.size → get N c i = get N b i := by
    intro c rc
    have hs : c.size = b.size := by simpa using rc.size
    refine ⟨hs, fun i => by rw [rc.live i]; simp, fun i hi => ?_⟩
    rw [get, get, read_eq N c.slots c.size i rc.live (by omega) hi,
      read_eq N b.slots b.size i rb.live hb (by omega), rc.val i (by simp; omega), rb.val i (by simp; omega)]
  obtain ⟨c, e1, e2⟩ := copy_eq t N hc junk b _ rb
  obtain ⟨d, f1, f2⟩ := assignBulk_eq t N hc a b _ _ ra rb
  exact ⟨⟨c, e1, fin c e2⟩, ⟨d, f1, fin d f2⟩⟩

/-- growth of a trivially constructible type shows what is in the storage: after shrinking and
growing again the old value is back (so C27's "anything" cannot be narrowed to a fixed value) -/
theorem C27_trivial_growth_is_stale (t : Traits α) (ht : t.trivialCtor = true) (N : Nat) (hN : 0 < N)
    (junk : Nat → α) : ∃ b, resize t N (new junk) 1 = some (true, b) ∧ get N b 0 = some (junk 0) := by
  refine ⟨⟨1, ⟨junk, upd (fun _ => false) 0 true⟩⟩, ?_, ?_⟩
  · simp [resize, show ¬ N < 1 by omega, new, constructAt, constructDefault, ht, hN]
  · simp [get, read, upd, hN]

end CE.Bulk
