import Verif.Proof.SpinLock
/-!
# Spin lock and the atomics built on it (C60, C61)
-/
namespace CE.SpinLock
open CE.Linear

variable {T A V : Type} {n : Nat} [DecidableEq T] [DecidableEq A]

/-- sequential meaning of the operations: the new objects and the result -/
def meaning : Op A V n → (A → Fin n → V) → (A → Fin n → V) × Res V n
  | .load a, s => (s, some (s a))
  | .store a b, s => (fun c => if c = a then b else s c, none)
  | .exchange a b, s => (fun c => if c = a then b else s c, some (s a))
  | .fetch a f, s => (fun c => if c = a then f (s a) else s c, some (s a))

/-- At most one thread is in the critical section. -/
theorem C60_exclusion {d : A → Fin n → V} {s : St T A V n} (h : Reach false d s) {t u : T}
    (ht : (s.pc t).inside = true) (hu : (s.pc u).inside = true) : t = u := by
  obtain ⟨-, -, -, hq, -⟩ := owner_of (inv_reach h) ht
  by_contra hc
  have := (hq u (fun h => hc h.symm)).2
  rw [hu] at this; cases this

/-- The slot is taken exactly while some thread is in the critical section or has its release still buffered. -/
theorem C60_release {d : A → Fin n → V} {s : St T A V n} (h : Reach false d s) :
    s.lk = true ↔ ∃ t, (s.pc t).inside = true ∨ Ent.unlock ∈ s.buf t := by
  obtain ⟨-, abs, hr, h⟩ := inv_reach h
  rcases h with ⟨h1, h2, h3⟩ | ⟨h1, o, h2, h3⟩
  · rw [h1]
    constructor
    · intro h; cases h
    · rintro ⟨t, h | h⟩
      · rw [(h2 t).2] at h; cases h
      · rw [(h2 t).1] at h; cases h
  · rw [h1]
    refine ⟨fun _ => ⟨o, ?_⟩, fun _ => rfl⟩
    by_cases hin : (s.pc o).inside = true
    · exact Or.inl hin
    · obtain ⟨ws, hws, -, -⟩ := (Own.outside (by simpa using hin)).1 h3
      rw [hws]; exact Or.inr (by simp)

/-- Each operation on an object guarded by the lock takes effect atomically between call and return, although it copies
word by word and its stores, the release included, linger in store buffers; once all is flushed memory holds
the result. -/
theorem C60_linearizable {d : A → Fin n → V} {s : St T A V n} (h : Reach false d s) :
    ∃ abs, Linearizable meaning d s.tr abs ∧
      ((∀ t, s.buf t = [] ∧ (s.pc t).inside = false) → s.data = abs) := by
  have e : (meaning : Op A V n → _) = seqApply := by
    funext o s; cases o <;> rfl
  rw [e]
  obtain ⟨hp, abs, hr, h⟩ := inv_reach h
  refine ⟨abs, ⟨hr, fun t => ⟨_, hp t⟩⟩, fun hq => ?_⟩
  rcases h with ⟨h1, h2, h3⟩ | ⟨h1, o, h2, h3⟩
  · exact h3
  · obtain ⟨ws, hws, -, -⟩ := (Own.outside (hq o).2).1 h3
    rw [(hq o).1] at hws
    exact absurd hws (by simp)

/-- For objects whose every operation takes the lock (any size but 1, 2, 4, 8): what is returned is the initial value or
was stored, never a mixture. Missing for the full claim: sizes 1, 2, 4, 8, where `atomic_store` does not take the lock
that `atomic_load` takes, see `C61_torn_false`. -/
theorem C61_locked_partial {d : A → Fin n → V} {s : St T A V n} (h : Reach false d s)
    (hf : ∀ t a f r, Ev.lin t (.fetch a f) r ∉ s.tr) {t : T} {u : Fin n → V} (hu : Ev.ret t (some u) ∈ s.tr) :
    ∃ a, u = d a ∨ ∃ t' r, Ev.lin t' (.store a u) r ∈ s.tr ∨ Ev.lin t' (.exchange a u) r ∈ s.tr := by
  obtain ⟨hp, abs, hr, -⟩ := inv_reach h
  obtain ⟨o, ho⟩ := (ret_lin (hp t)).2 _ hu
  exact ⟨o.obj, (replay_values hr hf).2 t o u ho⟩

/-- the contents of the example: two words -/
def both (v : Nat) : Fin 2 → Nat := fun _ => v

/-- For a small struct: one thread loads, another stores (1, 1) over (0, 0) with an interlocked exchange, ignoring the
lock; the load returns (0, 1), which was never stored. -/
theorem C61_torn_false : ∃ s : St Bool Unit Nat 2, Reach true (fun _ => both 0) s ∧
    (∃ u, Ev.ret true (some u) ∈ s.tr ∧ u 0 = 0 ∧ u 1 = 1) ∧
    ∀ t o, Ev.inv t o ∈ s.tr → o = .load () ∨ o = .store () (both 1) := by
  have h0 : Reach true (fun _ => both 0) (⟨false, fun _ => both 0, fun _ => [], fun _ => .idle, []⟩ : St Bool Unit Nat 2) :=
    Reach.init
  have h1 := Reach.step h0 (Step.call _ true (.load ()) rfl)
  have h2 := Reach.step h1 (Step.call _ false (.store () (both 1)) rfl)
  have h3 := Reach.step h2 (Step.lock _ true (.load ()) (both 7) rfl rfl rfl (fun _ => ⟨(), rfl⟩))
  have h4 := Reach.step h3 (Step.copy _ true (.load ()) 0 (both 7) (by decide) rfl)
  have h5 := Reach.step h4 (Step.interlocked _ false (.store () (both 1)) (both 1) rfl rfl rfl ⟨(), Or.inl rfl⟩)
  have h6 := Reach.step h5 (Step.copy _ true (.load ()) 1 _ (by decide) rfl)
  have h7 := Reach.step h6 (Step.copied _ true (.load ()) 2 _ rfl (by decide))
  have h8 := Reach.step h7 (Step.leave _ true (.load ()) _ rfl)
  have h9 := Reach.step h8 (Step.ret _ true _ rfl)
  refine ⟨_, h9, ⟨_, List.mem_append_right _ (List.mem_singleton.2 rfl), rfl, rfl⟩, ?_⟩
  intro t o h
  simp only [List.mem_append, List.mem_singleton, List.not_mem_nil, false_or, Ev.inv.injEq, reduceCtorEq, or_false] at h
  rcases h with ⟨-, rfl⟩ | ⟨-, rfl⟩
  · exact Or.inl rfl
  · exact Or.inr rfl

/-- two threads, one inside, the other waiting -/
example : ∃ s : St Bool Unit Nat 2, Reach false (fun _ => both 0) s ∧ (s.pc true).inside = true ∧
    s.pc false = .pause (.load ()) := by
  have h0 : Reach false (fun _ => both 0) (⟨false, fun _ => both 0, fun _ => [], fun _ => .idle, []⟩ : St Bool Unit Nat 2) :=
    Reach.init
  have h1 := Reach.step h0 (Step.call _ true (.store () (both 5)) rfl)
  have h2 := Reach.step h1 (Step.call _ false (.load ()) rfl)
  have h3 := Reach.step h2 (Step.lock _ true (.store () (both 5)) (both 7) rfl rfl rfl (fun h => by cases h))
  have h4 := Reach.step h3 (Step.busy _ false (.load ()) rfl rfl rfl)
  exact ⟨_, h4, rfl, rfl⟩

end CE.SpinLock
