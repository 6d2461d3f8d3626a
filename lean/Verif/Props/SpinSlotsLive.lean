import Verif.Proof.SpinSlotsLive
import Verif.Props.SpinSlots
/-!
# All spin locks together: waiting ends (C92)
-/
namespace CE.SpinSlots
open CE.Linear CE.SpinLock

variable {S T A V : Type} {n : Nat} [DecidableEq S] [DecidableEq T] [DecidableEq A] {slot : A → S}

/-- C92.  As long as some call waits to take effect, sooner or later a call for the same slot takes effect, whatever happens at the
other slots. -/
theorem C92_slots_progress {d : A → Fin n → V} {σ : Nat → St S T A V n} (hr : Run slot d σ) (hf : Fair slot σ) {i : Nat} {t : T}
    {o : Op A V n} (hp : busyWith ((σ i).pc t) = some o) :
    ∃ j, i ≤ j ∧ effectsOn slot (slot o.obj) (σ i).tr < effectsOn slot (slot o.obj) (σ j).tr := progress hr hf hp

/-- C92.  If there are only finitely many calls for a slot, all of them return, even when there are calls for ever at others. -/
theorem C92_slots_returns {d : A → Fin n → V} {σ : Nat → St S T A V n} (hr : Run slot d σ) (hf : Fair slot σ) {i : Nat} {t : T}
    {o : Op A V n} (hp : busyWith ((σ i).pc t) = some o) {B : Nat} (hB : ∀ i, invokedOn slot (slot o.obj) (σ i).tr ≤ B) :
    ∃ j, i ≤ j ∧ (σ j).pc t = .idle := returns hr hf hp hB

/-! ## A run -/

/-- steps one after the other -/
inductive Steps (slot : A → S) : St S T A V n → St S T A V n → Prop
  | none (s) : Steps slot s s
  | next {s s' s''} : Step slot s s' → Steps slot s' s'' → Steps slot s s''

/-- steps to a state with nothing left to do, and then nothing, are a fair run -/
theorem Steps.run {d : A → Fin n → V} {s s' : St S T A V n} (h : Steps slot s s') (hs : Reach slot d s)
    (hq : ∀ t, s'.pc t = .idle ∧ s'.buf t = []) :
    ∃ σ, Run slot d σ ∧ Fair slot σ ∧ σ 0 = s ∧ (∃ N, ∀ k, N ≤ k → σ k = s') ∧
      ∀ g i, invokedOn slot g (σ i).tr ≤ invokedOn slot g s'.tr := by
  have mono : ∀ {a b : St S T A V n}, Step slot a b → ∀ g, invokedOn slot g a.tr ≤ invokedOn slot g b.tr := by
    intro a b h g
    cases h <;> first | exact Nat.le_refl _ | (show _ ≤ invokedOn slot g (a.tr ++ _); rw [invokedOn_append]; omega)
  have path : ∃ σ : Nat → St S T A V n, σ 0 = s ∧ (∀ i, σ (i + 1) = σ i ∨ Step slot (σ i) (σ (i + 1))) ∧ (∃ N, ∀ k, N ≤ k → σ k = s') ∧
      ∀ g i, invokedOn slot g (σ i).tr ≤ invokedOn slot g s'.tr := by
    clear hs
    induction h with
    | none s => exact ⟨fun _ => s, rfl, fun _ => .inl rfl, ⟨0, fun _ _ => rfl⟩, fun _ _ => Nat.le_refl _⟩
    | @next s s1 s2 h _ ih =>
      obtain ⟨σ, h0, h1, ⟨N, h2⟩, h3⟩ := ih hq
      refine ⟨fun i => if i = 0 then s else σ (i - 1), rfl, fun i => ?_, ⟨N + 1, fun k hk => ?_⟩, fun g i => ?_⟩
      · cases i with
        | zero => right; show Step slot s (σ 0); rw [h0]; exact h
        | succ i => exact h1 i
      · show (if k = 0 then s else σ (k - 1)) = s2
        rw [if_neg (by omega)]
        exact h2 _ (by omega)
      · cases i with
        | zero =>
          have := h3 g 0
          rw [h0] at this
          exact Nat.le_trans (mono h g) this
        | succ i => exact h3 g i
  obtain ⟨σ, h0, h1, ⟨N, h2⟩, h3⟩ := path
  refine ⟨σ, ⟨by rw [h0]; exact hs, h1⟩, fun t i => ⟨⟨i + N, by omega, .inr ?_⟩, ⟨i + N, by omega, .inr ?_⟩⟩, h0, ⟨N, h2⟩, h3⟩
  · rintro ⟨x, -, h, -⟩
    rw [h2 _ (by omega)] at h
    exact h (hq t).1
  · rintro ⟨x, -, h⟩
    rw [h2 _ (by omega), (hq t).2] at h
    exact absurd h (Nat.not_lt_zero _)

/-- one word -/
def one (v : Nat) : Fin 1 → Nat := fun _ => v

/-- The hypotheses are met: two threads in the sections of two slots at once, one of them with a release to another slot still in its
buffer when it begins, in a fair run. -/
example : ∃ σ : Nat → St Bool Bool Bool Nat 1, Run (fun a => a) (fun _ => one 0) σ ∧ Fair (fun a => a) σ ∧
    busyWith ((σ 0).pc true) = some (.store true (one 5)) ∧ busyWith ((σ 0).pc false) = some (.load false) ∧
    (σ 0).buf false = [.unlock true] ∧ ∀ g i, invokedOn (fun a => a) g (σ i).tr ≤ 2 := by
  have h0 : Reach (fun a => a) (fun _ => one 0)
      (⟨fun _ => false, fun _ => one 0, fun _ => [], fun _ => .idle, []⟩ : St Bool Bool Bool Nat 1) := Reach.init
  have h1 := Reach.step h0 (Step.call _ false (.load true) rfl)
  have h2 := Reach.step h1 (Step.lock _ false (.load true) (one 7) rfl rfl rfl)
  have h3 := Reach.step h2 (Step.copy _ false (.load true) 0 (one 7) (by decide) rfl)
  have h4 := Reach.step h3 (Step.copied _ false (.load true) 1 _ rfl (by decide))
  have h5 := Reach.step h4 (Step.leave _ false (.load true) _ rfl)
  have h6 := Reach.step h5 (Step.ret _ false _ rfl)
  have h7 := Reach.step h6 (Step.call _ false (.load false) rfl)
  have h8 := Reach.step h7 (Step.call _ true (.store true (one 5)) rfl)
  -- on from there
  have st : ∃ s s' : St Bool Bool Bool Nat 1, (Reach (fun a => a) (fun _ => one 0) s ∧
      busyWith (s.pc true) = some (.store true (one 5)) ∧ busyWith (s.pc false) = some (.load false) ∧ s.buf false = [.unlock true]) ∧
      Steps (fun a => a) s s' ∧ (∀ t, s'.pc t = .idle ∧ s'.buf t = []) ∧ ∀ g, invokedOn (fun a => a) g s'.tr ≤ 2 := by
    refine ⟨_, _, ⟨h8, rfl, rfl, rfl⟩, .next (Step.flush _ false (.unlock true) [] rfl) <| .next (Step.lock _ false (.load false) (one 7) rfl rfl rfl) <|
      .next (Step.lock _ true (.store true (one 5)) (one 7) rfl rfl rfl) <|
      .next (Step.copy _ false (.load false) 0 (one 7) (by decide) rfl) <|
      .next (Step.write _ true (.store true (one 5)) 0 (one 7) (one 5) (by decide) rfl) <|
      .next (Step.copied _ false (.load false) 1 _ rfl (by decide)) <|
      .next (Step.written _ true (.store true (one 5)) 1 (one 7) (one 5) rfl (by decide)) <|
      .next (Step.leave _ false (.load false) _ rfl) <| .next (Step.leave _ true (.store true (one 5)) _ rfl) <|
      .next (Step.ret _ false _ rfl) <| .next (Step.ret _ true _ rfl) <|
      .next (Step.flush _ false (.unlock false) [] rfl) <| .next (Step.flush _ true (.word true 0 5) [.unlock true] rfl) <|
      .next (Step.flush _ true (.unlock true) [] rfl) <| .none _, ?_, ?_⟩
    · intro t; cases t <;> exact ⟨rfl, rfl⟩
    · intro g; cases g <;> decide
  obtain ⟨s, s', ⟨h8, p1, p2, p3⟩, hs, hq, hi⟩ := st
  obtain ⟨σ, hr, hf, e, -, hB⟩ := hs.run h8 hq
  refine ⟨σ, hr, hf, ?_, ?_, ?_, fun g i => Nat.le_trans (hB g i) (hi g)⟩ <;> (rw [e]; assumption)

end CE.SpinSlots
