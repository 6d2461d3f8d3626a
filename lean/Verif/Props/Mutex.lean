import Verif.Proof.Mutex
/-!
# Mutex wrappers (C62)

The platform's locks are trusted to behave as documented; see Model/Mutex.lean.
-/
namespace CE.Mutex

variable {T : Type} [DecidableEq T]

/-- `thread_mutex`: no undefined behaviour, and at most one thread has acquired it. -/
theorem C62_mutex {s : St T} (h : Reach implMutex s) :
    s.bad = false ∧ (∀ t u, s.hold t = .excl → s.hold u = .excl → t = u) ∧ ∀ t, s.hold t ≠ .shared := by
  have hi := inv_reach sub_mutex h
  refine ⟨hi.ok, fun t u ht hu => ?_, ?_⟩
  · cases hm : s.made with
    | false => rw [hi.unmade hm] at ht; cases ht
    | true =>
      have h1 := (hi.ex hm t).1 ht
      rw [(hi.ex hm u).1 hu] at h1
      exact (Option.some.inj h1).symm
  · clear hi
    induction h with
    | init => intro t h; cases h
    | step _ st ih =>
      cases st with
      | done t c o fail l r ha hi ho =>
        intro u
        show (if u = t then holdAfter _ r c else _) ≠ Hold.shared
        split
        · cases c <;> simp only [implMutex, reduceCtorEq] at hi <;> simp only [holdAfter] <;>
            first | exact ih _ | (intro h; cases h; done) | (split <;> first | exact ih _ | (intro h; cases h))
        · exact ih u
      | ub => exact ih

/-- `thread_shared_mutex`: no undefined behaviour, and a thread that has acquired it exclusively is the only one that
has it in any way. -/
theorem C62_shared {s : St T} (h : Reach (fun c => some (implShared c)) s) :
    s.bad = false ∧ ∀ t u, s.hold t = .excl → s.hold u ≠ .none → t = u := by
  have hi := inv_reach sub_shared h
  refine ⟨hi.ok, fun t u ht hu => ?_⟩
  cases hm : s.made with
  | false => rw [hi.unmade hm] at ht; cases ht
  | true =>
    have h1 := (hi.ex hm t).1 ht
    cases hh : s.hold u with
    | none => exact absurd hh hu
    | excl =>
      rw [(hi.ex hm u).1 hh] at h1
      exact (Option.some.inj h1).symm
    | shared =>
      have := (hi.sh hm u).1 hh
      rw [hi.exc hm t u h1] at this; cases this

/-- Releases really free it: acquiring completes when nobody has it, acquiring shared completes when nobody has it
exclusively. -/
theorem C62_available {s : St T} (h : Reach (fun c => some (implShared c)) s) (hm : s.made = true) (t : T) :
    ((∀ u, s.hold u = .none) → ∃ l, s.lock.op t false (implShared .acquire) = .done l true) ∧
    ((∀ u, s.hold u ≠ .excl) → s.hold t = .none → ∃ l, s.lock.op t false (implShared .acquireShared) = .done l true) := by
  have hi := inv_reach sub_shared h
  constructor
  · intro hn
    have hf := hi.none hm hn
    simp only [implShared, Lock.op]
    rw [if_neg (not_owned hi ⟨hm, hn t⟩), if_pos hf]
    exact ⟨_, rfl⟩
  · intro hn ht
    have hf : s.lock.excl = none := by
      cases he : s.lock.excl with
      | none => rfl
      | some u => exact absurd ((hi.ex hm u).2 he) (hn u)
    simp only [implShared, Lock.op]
    rw [if_neg (not_owned hi ⟨hm, ht⟩), if_pos hf]
    exact ⟨_, rfl⟩

/-- two readers at once -/
example : ∃ s : St Bool, Reach (fun c => some (implShared c)) s ∧ s.hold true = .shared ∧ s.hold false = .shared := by
  have h0 : Reach (fun c => some (implShared c)) (⟨⟨false, none, fun _ => false⟩, false, fun _ => .none, false⟩ : St Bool) :=
    Reach.init _ _
  have h1 := Reach.step h0 (Step.done _ true .construct _ false _ _ rfl rfl rfl)
  have h2 := Reach.step h1 (Step.done _ true .acquireShared _ false _ _ ⟨rfl, rfl⟩ rfl rfl)
  have h3 := Reach.step h2 (Step.done _ false .tryAcquireShared _ false _ _ ⟨rfl, rfl⟩ rfl rfl)
  exact ⟨_, h3, rfl, rfl⟩

end CE.Mutex
