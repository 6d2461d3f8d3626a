import Verif.Model.Mutex
/-!
# Mutex wrappers: the lock knows what the clients hold
-/
namespace CE.Mutex

variable {T : Type} [DecidableEq T]

/-- wrappers that, where defined, are those of the shared mutex -/
def Sub (impl : Call → Option LockOp) : Prop := ∀ c o, impl c = some o → o = implShared c

theorem sub_shared : Sub (fun c => some (implShared c)) := fun c o h => (Option.some.inj h).symm

theorem sub_mutex : Sub implMutex := by
  intro c o h
  cases c <;> simp only [implMutex, Option.some.injEq, reduceCtorEq] at h <;> (subst h; rfl)

/-- invariant -/
structure Inv (s : St T) : Prop where
  /-- nothing undefined -/
  ok : s.bad = false
  /-- construction -/
  made : s.lock.live = s.made
  /-- before construction nobody holds -/
  unmade : s.made = false → ∀ t, s.hold t = .none
  /-- exclusive holder is owner -/
  ex : s.made = true → ∀ t, s.hold t = .excl ↔ s.lock.excl = some t
  /-- shared holders are owners -/
  sh : s.made = true → ∀ t, s.hold t = .shared ↔ s.lock.shared t = true
  /-- exclusion in the lock -/
  exc : s.made = true → ∀ t u, s.lock.excl = some t → s.lock.shared u = false

theorem Inv.free {s : St T} (h : Inv s) (hm : s.made = true) {t : T} (ht : s.hold t = .none) : ¬ s.lock.owns t := by
  rintro (h1 | h1)
  · rw [(h.ex hm t).2 h1] at ht; cases ht
  · rw [(h.sh hm t).2 h1] at ht; cases ht

theorem Inv.none {s : St T} (h : Inv s) (hm : s.made = true) (ha : ∀ u, s.hold u = .none) :
    s.lock.excl = none ∧ ∀ u, s.lock.shared u = false := by
  refine ⟨?_, fun u => ?_⟩
  · cases he : s.lock.excl with
    | none => rfl
    | some t => have := (h.ex hm t).2 he; rw [ha] at this; cases this
  · cases he : s.lock.shared u with
    | false => rfl
    | true => have := (h.sh hm u).2 he; rw [ha] at this; cases this

/-- taking it exclusively -/
theorem inv_excl {s : St T} (h : Inv s) (hm : s.made = true) {t : T} (hf : s.lock.excl = none ∧ ∀ u, s.lock.shared u = false) :
    Inv ⟨{ s.lock with excl := some t }, s.made, fun u => if u = t then .excl else s.hold u, s.bad⟩ := by
  refine ⟨h.ok, h.made, fun hm' => (by rw [hm] at hm'; cases hm'), fun _ u => ?_, fun _ u => ?_, fun _ _ u _ => hf.2 u⟩
  · show (if u = t then Hold.excl else s.hold u) = .excl ↔ some t = some u
    by_cases hu : u = t
    · subst hu; simp
    · rw [if_neg hu, h.ex hm, hf.1]
      constructor
      · intro h; cases h
      · intro h; exact absurd (Option.some.inj h).symm hu
  · show (if u = t then Hold.excl else s.hold u) = .shared ↔ s.lock.shared u = true
    by_cases hu : u = t
    · rw [if_pos hu, hf.2]; simp
    · rw [if_neg hu]; exact h.sh hm u

/-- taking it shared -/
theorem inv_shared {s : St T} (h : Inv s) (hm : s.made = true) {t : T} (hf : s.lock.excl = none) :
    Inv ⟨{ s.lock with shared := fun u => if u = t then true else s.lock.shared u }, s.made,
      fun u => if u = t then .shared else s.hold u, s.bad⟩ := by
  refine ⟨h.ok, h.made, fun hm' => (by rw [hm] at hm'; cases hm'), fun _ u => ?_, fun _ u => ?_, fun _ v u hv => ?_⟩
  · show (if u = t then Hold.shared else s.hold u) = .excl ↔ s.lock.excl = some u
    by_cases hu : u = t
    · rw [if_pos hu, hf]; simp
    · rw [if_neg hu]; exact h.ex hm u
  · show (if u = t then Hold.shared else s.hold u) = .shared ↔ (if u = t then true else s.lock.shared u) = true
    by_cases hu : u = t
    · rw [if_pos hu, if_pos hu]; simp
    · rw [if_neg hu, if_neg hu]; exact h.sh hm u
  · change s.lock.excl = some v at hv
    rw [hf] at hv; cases hv

theorem hold_same (s : St T) (t : T) : (fun u => if u = t then s.hold t else s.hold u) = s.hold := by
  funext u
  by_cases hu : u = t
  · rw [if_pos hu, hu]
  · rw [if_neg hu]

theorem not_owned {s : St T} (h : Inv s) {t : T} (ha : s.made = true ∧ s.hold t = .none) :
    ¬ (s.lock.live = false ∨ s.lock.owns t) := by
  rintro (h1 | h1)
  · rw [h.made, ha.1] at h1; cases h1
  · exact h.free ha.1 ha.2 h1

theorem inv_step {impl : Call → Option LockOp} (hs : Sub impl) {s s' : St T} (h : Inv s) (st : Step impl s s') :
    Inv s' := by
  cases st with
  | done t c o fail l r ha hi ho =>
    have := hs c o hi
    subst this
    cases c with
    | construct =>
      have hm : s.made = false := ha
      have hl : s.lock.live = false := by rw [h.made, hm]
      simp only [implShared, Lock.op, hl, Bool.false_eq_true, if_false, Outcome.done.injEq] at ho
      obtain ⟨rfl, rfl⟩ := ho
      have hn := h.unmade hm
      refine ⟨h.ok, rfl, fun h => (by cases h), fun _ u => ?_, fun _ u => ?_, fun _ v u hv => (by cases hv)⟩
      · show (if u = t then holdAfter (s.hold t) true .construct else s.hold u) = .excl ↔ none = some u
        simp [holdAfter, hn]
      · show (if u = t then holdAfter (s.hold t) true .construct else s.hold u) = .shared ↔ false = true
        simp [holdAfter, hn]
    | destroy =>
      obtain ⟨hm, hn⟩ := ha
      have hf := h.none hm hn
      have hl : s.lock.live = true := by rw [h.made, hm]
      simp only [implShared, Lock.op] at ho
      rw [if_pos ⟨hl, hf⟩] at ho
      simp only [Outcome.done.injEq] at ho
      obtain ⟨rfl, rfl⟩ := ho
      refine ⟨h.ok, rfl, fun _ u => ?_, fun h => (by cases h), fun h => (by cases h), fun h => (by cases h)⟩
      show (if u = t then holdAfter (s.hold t) true .destroy else s.hold u) = .none
      simp [holdAfter, hn]
    | tryAcquire =>
      have hno := not_owned h ha
      simp only [implShared, Lock.op] at ho
      rw [if_neg hno] at ho
      split at ho
      · next hc =>
        simp only [Outcome.done.injEq] at ho
        obtain ⟨rfl, rfl⟩ := ho
        exact inv_excl h ha.1 hc.2
      · simp only [Outcome.done.injEq] at ho
        obtain ⟨rfl, rfl⟩ := ho
        show Inv ⟨s.lock, s.made, fun u => if u = t then s.hold t else s.hold u, s.bad⟩
        rw [hold_same]; exact h
    | acquire =>
      have hno := not_owned h ha
      simp only [implShared, Lock.op] at ho
      rw [if_neg hno] at ho
      split at ho
      · next hc =>
        simp only [Outcome.done.injEq] at ho
        obtain ⟨rfl, rfl⟩ := ho
        exact inv_excl h ha.1 hc
      · cases ho
    | release =>
      obtain ⟨hm, he⟩ := ha
      have hex := (h.ex hm t).1 he
      have hl : s.lock.live = true := by rw [h.made, hm]
      simp only [implShared, Lock.op] at ho
      rw [if_pos ⟨hl, hex⟩] at ho
      simp only [Outcome.done.injEq] at ho
      obtain ⟨rfl, rfl⟩ := ho
      refine ⟨h.ok, h.made, fun hm' => (by change s.made = false at hm'; rw [hm] at hm'; cases hm'), fun _ u => ?_, fun _ u => ?_, fun _ v u hv => (by cases hv)⟩
      · show (if u = t then Hold.none else s.hold u) = .excl ↔ none = some u
        by_cases hu : u = t
        · simp [hu]
        · rw [if_neg hu, h.ex hm, hex]
          constructor
          · intro h; exact absurd (Option.some.inj h).symm hu
          · intro h; cases h
      · show (if u = t then Hold.none else s.hold u) = .shared ↔ s.lock.shared u = true
        by_cases hu : u = t
        · rw [if_pos hu, h.exc hm t u hex]; simp
        · rw [if_neg hu]; exact h.sh hm u
    | tryAcquireShared =>
      have hno := not_owned h ha
      simp only [implShared, Lock.op] at ho
      rw [if_neg hno] at ho
      split at ho
      · next hc =>
        simp only [Outcome.done.injEq] at ho
        obtain ⟨rfl, rfl⟩ := ho
        exact inv_shared h ha.1 hc.2
      · simp only [Outcome.done.injEq] at ho
        obtain ⟨rfl, rfl⟩ := ho
        show Inv ⟨s.lock, s.made, fun u => if u = t then s.hold t else s.hold u, s.bad⟩
        rw [hold_same]; exact h
    | acquireShared =>
      have hno := not_owned h ha
      simp only [implShared, Lock.op] at ho
      rw [if_neg hno] at ho
      split at ho
      · next hc =>
        simp only [Outcome.done.injEq] at ho
        obtain ⟨rfl, rfl⟩ := ho
        exact inv_shared h ha.1 hc
      · cases ho
    | releaseShared =>
      obtain ⟨hm, he⟩ := ha
      have hsh := (h.sh hm t).1 he
      have hl : s.lock.live = true := by rw [h.made, hm]
      simp only [implShared, Lock.op] at ho
      rw [if_pos ⟨hl, hsh⟩] at ho
      simp only [Outcome.done.injEq] at ho
      obtain ⟨rfl, rfl⟩ := ho
      have hnx : ∀ v, s.lock.excl ≠ some v := fun v hv => by
        have := h.exc hm v t hv; rw [hsh] at this; cases this
      refine ⟨h.ok, h.made, fun hm' => (by change s.made = false at hm'; rw [hm] at hm'; cases hm'), fun _ u => ?_, fun _ u => ?_, fun _ v u hv => absurd hv (hnx v)⟩
      · show (if u = t then Hold.none else s.hold u) = .excl ↔ s.lock.excl = some u
        by_cases hu : u = t
        · rw [if_pos hu]
          exact ⟨fun h => (by cases h), fun h => absurd h (hnx u)⟩
        · rw [if_neg hu]; exact h.ex hm u
      · show (if u = t then Hold.none else s.hold u) = .shared ↔ (if u = t then false else s.lock.shared u) = true
        by_cases hu : u = t
        · rw [if_pos hu, if_pos hu]; simp
        · rw [if_neg hu, if_neg hu]; exact h.sh hm u
  | ub t c o fail ha hi ho =>
    exfalso
    have := hs c o hi
    subst this
    cases c with
    | construct =>
      have hl : s.lock.live = false := by rw [h.made]; exact ha
      simp [implShared, Lock.op, hl] at ho
    | destroy =>
      obtain ⟨hm, hn⟩ := ha
      have hl : s.lock.live = true := by rw [h.made, hm]
      simp only [implShared, Lock.op] at ho
      rw [if_pos ⟨hl, h.none hm hn⟩] at ho
      cases ho
    | tryAcquire =>
      simp only [implShared, Lock.op] at ho
      rw [if_neg (not_owned h ha)] at ho
      split at ho <;> cases ho
    | acquire =>
      simp only [implShared, Lock.op] at ho
      rw [if_neg (not_owned h ha)] at ho
      split at ho <;> cases ho
    | release =>
      have hl : s.lock.live = true := by rw [h.made, ha.1]
      simp only [implShared, Lock.op] at ho
      rw [if_pos ⟨hl, (h.ex ha.1 t).1 ha.2⟩] at ho
      cases ho
    | tryAcquireShared =>
      simp only [implShared, Lock.op] at ho
      rw [if_neg (not_owned h ha)] at ho
      split at ho <;> cases ho
    | acquireShared =>
      simp only [implShared, Lock.op] at ho
      rw [if_neg (not_owned h ha)] at ho
      split at ho <;> cases ho
    | releaseShared =>
      have hl : s.lock.live = true := by rw [h.made, ha.1]
      simp only [implShared, Lock.op] at ho
      rw [if_pos ⟨hl, (h.sh ha.1 t).1 ha.2⟩] at ho
      cases ho

theorem inv_reach {impl : Call → Option LockOp} (hs : Sub impl) {s : St T} (h : Reach impl s) : Inv s := by
  induction h with
  | init j k =>
    exact ⟨rfl, rfl, fun _ _ => rfl, fun h => (by cases h), fun h => (by cases h), fun h => (by cases h)⟩
  | step _ st ih => exact inv_step hs ih st

end CE.Mutex
