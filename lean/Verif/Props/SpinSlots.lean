import Verif.Proof.SpinSlots
import Verif.Props.SpinLock
/-!
# All spin locks together (C60)
-/
namespace CE.SpinSlots
open CE.Linear CE.SpinLock

variable {S T A V : Type} {n : Nat} [DecidableEq S] [DecidableEq T] [DecidableEq A] {slot : A → S}

/-- C60.  At most one thread is in the critical section of a slot, whatever else the threads do with other slots. -/
theorem C60_slots_exclusion {d : A → Fin n → V} {s : St S T A V n} (h : Reach slot d s) {t u : T} {g : S}
    (ht : within slot (s.pc t) = some g) (hu : within slot (s.pc u) = some g) : t = u := by
  obtain ⟨-, abs, -, h⟩ := inv_reach h
  obtain ⟨-, hq, -⟩ := (h g).within ht
  by_contra hc
  exact (hq u (fun h => hc h.symm)).2 hu

/-- C60.  A slot is taken exactly while some thread is in its critical section or has its release still buffered. -/
theorem C60_slots_release {d : A → Fin n → V} {s : St S T A V n} (h : Reach slot d s) (g : S) :
    s.lk g = true ↔ ∃ t, within slot (s.pc t) = some g ∨ Ent.unlock g ∈ s.buf t := by
  obtain ⟨-, abs, -, h⟩ := inv_reach h
  constructor
  · intro hl
    rcases h g with ⟨h1, -, -⟩ | ⟨-, o, -, h3⟩
    · rw [h1] at hl; cases hl
    · obtain ⟨-, h4, h5⟩ := h3.place
      refine ⟨o, ?_⟩
      rcases h4 with h4 | h4
      · exact .inr (h5 h4)
      · exact .inl h4
  · rintro ⟨t, ht⟩
    refine ((h g).owner (t := t) fun q => ?_).1
    rcases ht with ht | ht
    · exact q.2 ht
    · exact q.1 _ ht rfl

/-- C60.  All operations on all objects together are linearizable: there is one order in which they take effect, each between its
call and its return.  Once everything is flushed memory holds the result. -/
theorem C60_slots_linearizable {d : A → Fin n → V} {s : St S T A V n} (h : Reach slot d s) :
    ∃ abs, Linearizable meaning d s.tr abs ∧
      ((∀ t, s.buf t = [] ∧ within slot (s.pc t) = none) → s.data = abs) := by
  have e : (meaning : Op A V n → _) = seqApply := by
    funext o s; cases o <;> rfl
  rw [e]
  obtain ⟨hp, abs, hr, h⟩ := inv_reach h
  refine ⟨abs, ⟨hr, fun t => ⟨_, hp t⟩⟩, fun hq => ?_⟩
  funext c
  rcases h (slot c) with ⟨h1, h2, h3⟩ | ⟨h1, o, h2, h3⟩
  · exact h3 c rfl
  · refine absurd ?_ h3.not_quiet
    refine ⟨?_, by rw [(hq o).2]; simp⟩
    rw [(hq o).1]
    exact fun e he => by cases he

/-- C60.  No deadlock: the thread that has a slot never waits for another one, it can always get on, or its store buffer can. -/
theorem C60_slots_holder {d : A → Fin n → V} {s : St S T A V n} (h : Reach slot d s) {g : S} (hl : s.lk g = true) :
    ∃ t s', (within slot (s.pc t) = some g ∨ Ent.unlock g ∈ s.buf t) ∧ Step slot s s' ∧
      (s'.pc t ≠ s.pc t ∨ (s'.buf t).length < (s.buf t).length) := by
  obtain ⟨t, ht⟩ := (C60_slots_release h g).1 hl
  have ne : ∀ {p q : Pc A V n}, p ≠ q → set s.pc t p t ≠ q := by
    intro p q h
    rw [set_same]; exact h
  rcases ht with ht | ht
  · cases hp : s.pc t with
    | copy o k u =>
      by_cases hk : k < n
      · refine ⟨t, _, .inl ht, .copy s t o k u hk hp, .inl (ne ?_)⟩
        simp [hp]
      · refine ⟨t, _, .inl ht, .copied s t o k u hp hk, .inl (ne ?_)⟩
        rw [hp]; unfold Op.copied; split <;> simp
    | write o k u w =>
      by_cases hk : k < n
      · refine ⟨t, _, .inl ht, .write s t o k u w hk hp, .inl (ne ?_)⟩
        simp [hp]
      · refine ⟨t, _, .inl ht, .written s t o k u w hp hk, .inl (ne ?_)⟩
        simp [hp]
    | leave o u =>
      refine ⟨t, _, .inl ht, .leave s t o u hp, .inl (ne ?_)⟩
      simp [hp]
    | idle => rw [hp] at ht; cases ht
    | spin o => rw [hp] at ht; cases ht
    | pause o => rw [hp] at ht; cases ht
    | fin o => rw [hp] at ht; cases ht
  · cases hb : s.buf t with
    | nil => rw [hb] at ht; cases ht
    | cons e b =>
      refine ⟨t, _, .inr ht, .flush s t e b hb, .inr ?_⟩
      show (set s.buf t b t).length < (s.buf t).length
      rw [set_same, hb]; simp

/-- C60.  The index computed from an address is inside the array of 256 locks, and with pointers of 8 bytes two objects share a
lock exactly when their addresses, divided by 8, are equal modulo 256. -/
theorem C60_index (w a b : Nat) : index w a < 256 ∧ (index w a = index w b ↔ a / w % 256 = b / w % 256) := by
  have e : ∀ a, index w a = a / w % 256 := fun a => by
    unfold index
    rw [Nat.and_comm]
    exact Nat.and_two_pow_sub_one_eq_mod (a / w) 8
  rw [e, e]
  exact ⟨Nat.mod_lt _ (by decide), Iff.rfl⟩

/-- where the lock of an object at an address is -/
def slotAt (address : A → Nat) (a : A) : Fin 256 := ⟨index 8 (address a), (C60_index 8 _ 0).1⟩

/-- two threads in the critical sections of two objects at once, a third object shares the first one's lock -/
example : ∃ s : St (Fin 256) Bool Nat Nat 2, Reach (slotAt fun a => 4096 + 1024 * a) (fun _ => both 0) s ∧
    within (slotAt fun a => 4096 + 1024 * a) (s.pc true) = some 0 ∧
    within (slotAt fun a => 4096 + 1024 * a) (s.pc false) = some 128 ∧
    slotAt (fun a : Nat => 4096 + 1024 * a) 2 = 0 := by
  have h0 : Reach (slotAt fun a => 4096 + 1024 * a) (fun _ => both 0)
      (⟨fun _ => false, fun _ => both 0, fun _ => [], fun _ => .idle, []⟩ : St (Fin 256) Bool Nat Nat 2) := Reach.init
  have h1 := Reach.step h0 (Step.call _ true (.store 0 (both 5)) rfl)
  have h2 := Reach.step h1 (Step.call _ false (.load 1) rfl)
  have h3 := Reach.step h2 (Step.lock _ true (.store 0 (both 5)) (both 7) rfl rfl rfl)
  have h4 := Reach.step h3 (Step.lock _ false (.load 1) (both 7) rfl rfl rfl)
  exact ⟨_, h4, rfl, rfl, rfl⟩

end CE.SpinSlots
