import Verif.Proof.SpinLive
/-!
# Spin lock: waiting ends (C92)
-/
namespace CE.SpinLock
open CE.Linear

variable {T A V : Type} {n : Nat} [DecidableEq T] [DecidableEq A]

/-- As long as some call waits to take effect, sooner or later a call takes effect. -/
theorem C92_progress {d : A → Fin n → V} {σ : Nat → St T A V n} (hr : Run d σ) (hf : Fair σ) {i : Nat} {t : T}
    (hp : Pending (σ i) t) : ∃ j, i ≤ j ∧ effects (σ i).tr < effects (σ j).tr := progress hr hf hp

/-- If there are only finitely many calls, all of them return. -/
theorem C92_returns {d : A → Fin n → V} {σ : Nat → St T A V n} (hr : Run d σ) (hf : Fair σ) {B : Nat}
    (hB : ∀ i, invoked (σ i).tr ≤ B) (i : Nat) (t : T) : ∃ j, i ≤ j ∧ (σ j).pc t = .idle := returns hr hf hB i t

/-! ## One thread kept waiting for ever -/

/-- one word, 0 -/
def zero : Fin 1 → Nat := fun _ => 0

/-- what the lucky thread does over and over: `atomic_load` -/
def lucky : Nat → Pc Unit Nat 1
  | 1 => .spin (.load ())
  | 2 => .copy (.load ()) 0 zero
  | 3 => .copy (.load ()) 1 zero
  | 4 => .leave (.load ()) zero
  | 5 => .fin (some zero)
  | _ => .idle

/-- its buffer -/
def luckyBuf : Nat → List (Ent Unit Nat 1)
  | 5 => [.unlock]
  | 6 => [.unlock]
  | _ => []

/-- the events -/
def luckyEv : Nat → List (Ev Bool (Op Unit Nat 1) (Res Nat 1))
  | 0 => [.inv false (.load ())]
  | 4 => [.lin false (.load ()) (some zero)]
  | 5 => [.ret false (some zero)]
  | _ => []

/-- the first round: the unlucky thread finds the lock taken -/
def firstTr : List (Ev Bool (Op Unit Nat 1) (Res Nat 1)) :=
  [.inv false (.load ()), .inv true (.load ()), .lin false (.load ()) (some zero), .ret false (some zero)]

/-- the history -/
def luckyTr : Nat → List (Ev Bool (Op Unit Nat 1) (Res Nat 1))
  | 0 => firstTr
  | k + 1 => luckyTr k ++ luckyEv (k % 7)

/-- the run: thread `false` takes the lock in time every time, thread `true` waits -/
def unfair (k : Nat) : St Bool Unit Nat 1 :=
  ⟨decide (2 ≤ k % 7), fun _ => zero, fun t => if t then [] else luckyBuf (k % 7),
    fun t => if t then .pause (.load ()) else lucky (k % 7), luckyTr k⟩

theorem set_false {X : Type} (f : Bool → X) (x : X) : set f false x = fun t => if t then f true else x := by
  funext t; cases t <;> rfl

theorem unfair_reach : Reach false (fun _ => zero) (unfair 0) := by
  have h0 : Reach false (fun _ => zero) (⟨false, fun _ => zero, fun _ => [], fun _ => .idle, []⟩ : St Bool Unit Nat 1) :=
    Reach.init
  have h1 := Reach.step h0 (Step.call _ false (.load ()) rfl)
  have h2 := Reach.step h1 (Step.call _ true (.load ()) rfl)
  have h3 := Reach.step h2 (Step.lock _ false (.load ()) zero rfl rfl rfl (fun h => by cases h))
  have h4 := Reach.step h3 (Step.busy _ true (.load ()) rfl rfl rfl)
  have h5 := Reach.step h4 (Step.copy _ false (.load ()) 0 zero (by decide) rfl)
  have h6 := Reach.step h5 (Step.copied _ false (.load ()) 1 _ rfl (by decide))
  have h7 := Reach.step h6 (Step.leave _ false (.load ()) _ rfl)
  have h8 := Reach.step h7 (Step.ret _ false _ rfl)
  have h9 := Reach.step h8 (Step.flush _ false .unlock [] rfl)
  have hz : (fun i : Fin 1 => if i = ⟨0, by decide⟩ then zero ⟨0, by decide⟩ else zero i) = zero := by
    funext i; unfold zero; split <;> rfl
  refine cast (congrArg (Reach false _) ?_) h9
  show (⟨_, _, _, _, _⟩ : St Bool Unit Nat 1) = ⟨_, _, _, _, _⟩
  congr 1
  · funext t; cases t <;> rfl
  · funext t; cases t <;> rfl
  · exact congrArg (fun z => [Ev.inv false (Op.load ()), .inv true (.load ()), .lin false (.load ()) (some z), .ret false (some z)]) hz

theorem unfair_step (k : Nat) : Step false (unfair k) (unfair (k + 1)) := by
  have hlt : k % 7 < 7 := Nat.mod_lt _ (by decide)
  have mk : ∀ (r r' : Nat), k % 7 = r → (k + 1) % 7 = r' →
      unfair k = ⟨decide (2 ≤ r), fun _ => zero, fun t => if t then [] else luckyBuf r,
        fun t => if t then .pause (.load ()) else lucky r, luckyTr k⟩ ∧
      unfair (k + 1) = ⟨decide (2 ≤ r'), fun _ => zero, fun t => if t then [] else luckyBuf r',
        fun t => if t then .pause (.load ()) else lucky r', luckyTr k ++ luckyEv r⟩ := by
    intro r r' h h'
    subst h h'
    exact ⟨rfl, rfl⟩
  have done : ∀ {s' : St Bool Unit Nat 1} (r r' : Nat), k % 7 = r → (k + 1) % 7 = r' →
      Step false ⟨decide (2 ≤ r), fun _ => zero, fun t => if t then [] else luckyBuf r,
        fun t => if t then .pause (.load ()) else lucky r, luckyTr k⟩ s' →
      s' = ⟨decide (2 ≤ r'), fun _ => zero, fun t => if t then [] else luckyBuf r',
        fun t => if t then .pause (.load ()) else lucky r', luckyTr k ++ luckyEv r⟩ → Step false (unfair k) (unfair (k + 1)) := by
    intro s' r r' h h' hs e
    rw [(mk r r' h h').1, (mk r r' h h').2, ← e]
    exact hs
  have hz : (fun i : Fin 1 => if i = ⟨0, by decide⟩ then zero ⟨0, by decide⟩ else zero i) = zero := by
    funext i; unfold zero; split <;> rfl
  obtain h | h | h | h | h | h | h : k % 7 = 0 ∨ k % 7 = 1 ∨ k % 7 = 2 ∨ k % 7 = 3 ∨ k % 7 = 4 ∨ k % 7 = 5 ∨ k % 7 = 6 := by omega
  · refine done 0 1 h (by omega) (Step.call _ false (.load ()) rfl) ?_
    rw [set_false]; rfl
  · refine done 1 2 h (by omega) (Step.lock _ false (.load ()) zero rfl rfl rfl (fun h => by cases h)) ?_
    rw [set_false]
    show (⟨_, _, _, _, _⟩ : St Bool Unit Nat 1) = ⟨_, _, _, _, _⟩
    congr 1
    exact (List.append_nil _).symm
  · refine done 2 3 h (by omega) (Step.copy _ false (.load ()) 0 zero (by decide) rfl) ?_
    rw [set_false]
    show (⟨_, _, _, _, _⟩ : St Bool Unit Nat 1) = ⟨_, _, _, _, _⟩
    congr 1
    · funext t
      cases t
      · exact congrArg (fun z => Pc.copy (.load ()) 1 z) hz
      · rfl
    · exact (List.append_nil _).symm
  · refine done 3 4 h (by omega) (Step.copied _ false (.load ()) 1 zero rfl (by decide)) ?_
    rw [set_false]
    show (⟨_, _, _, _, _⟩ : St Bool Unit Nat 1) = ⟨_, _, _, _, _⟩
    congr 1
    exact (List.append_nil _).symm
  · refine done 4 5 h (by omega) (Step.leave _ false (.load ()) zero rfl) ?_
    rw [set_false, set_false]; rfl
  · refine done 5 6 h (by omega) (Step.ret _ false (some zero) rfl) ?_
    rw [set_false]; rfl
  · refine done 6 0 h (by omega) (Step.flush _ false .unlock [] rfl) ?_
    rw [set_false]
    show (⟨_, _, _, _, _⟩ : St Bool Unit Nat 1) = ⟨_, _, _, _, _⟩
    congr 1
    exact (List.append_nil _).symm

theorem unfair_run : Run (fun _ => zero) unfair := ⟨unfair_reach, fun i => Or.inr (unfair_step i)⟩

theorem unfair_fair : Fair unfair := by
  intro t i
  cases t with
  | true =>
    refine ⟨⟨7 * i + 2, by omega, Or.inr ?_⟩, ⟨i, Nat.le_refl _, Or.inr ?_⟩⟩
    · rintro ⟨s', hs, -, hne⟩
      have hl : viewLk (unfair (7 * i + 2)).lk ((unfair (7 * i + 2)).buf true) = true := by
        show decide (2 ≤ (7 * i + 2) % 7) = true
        rw [decide_eq_true_eq]; omega
      have hp : (unfair (7 * i + 2)).pc true = .pause (.load ()) := rfl
      obtain ⟨-, h⟩ := step_pc hs true
      rcases h with h | ⟨h, -⟩ | ⟨o, h, -⟩ | ⟨o, -, -, h⟩ | ⟨o, h, -⟩ | ⟨h, -⟩ | ⟨h, -⟩ | ⟨r, h, -⟩
      · exact hne h
      · rw [hp] at h; cases h
      · rw [hp] at h; cases h
      · rw [hl] at h; cases h
      · rw [hp] at h; cases h
      · rw [hp] at h; cases h
      · rw [hp] at h; cases h
      · rw [hp] at h; cases h
    · rintro ⟨s', -, h⟩
      exact absurd h (Nat.not_lt_zero _)
  | false =>
    refine ⟨⟨7 * i + 1, by omega, Or.inl ⟨unfair_step _, ?_, ?_⟩⟩, ⟨7 * i, by omega, Or.inr ?_⟩⟩
    · show lucky ((7 * i + 1) % 7) ≠ _
      rw [show (7 * i + 1) % 7 = 1 by omega]
      intro h; cases h
    · show lucky ((7 * i + 1 + 1) % 7) ≠ lucky ((7 * i + 1) % 7)
      rw [show (7 * i + 1) % 7 = 1 by omega, show (7 * i + 1 + 1) % 7 = 2 by omega]
      intro h; cases h
    · rintro ⟨s', -, h⟩
      have : (unfair (7 * i)).buf false = luckyBuf ((7 * i) % 7) := rfl
      rw [this, show (7 * i) % 7 = 0 by omega] at h
      exact absurd h (Nat.not_lt_zero _)

/-- A single call may wait for ever: in a fair run one thread waits while another completes call after call. -/
theorem C92_starvation_false : ∃ σ : Nat → St Bool Unit Nat 1, Run (fun _ => zero) σ ∧ Fair σ ∧
    (∀ i, Pending (σ i) true) ∧ ∀ N, ∃ i, N ≤ effects (σ i).tr := by
  refine ⟨unfair, unfair_run, unfair_fair, fun i => ⟨fun r h => (by cases h), fun h => by cases h⟩, fun N => ?_⟩
  induction N with
  | zero => exact ⟨0, Nat.zero_le _⟩
  | succ N ih =>
    obtain ⟨i, hi⟩ := ih
    obtain ⟨j, -, hj⟩ := C92_progress unfair_run unfair_fair (i := i) (t := true) ⟨fun r h => (by cases h), fun h => by cases h⟩
    exact ⟨j, by omega⟩

/-- the hypotheses of `C92_progress` are met by that run -/
example : Run (fun _ => zero) unfair ∧ Fair unfair ∧ Pending (unfair 3) true ∧ Pending (unfair 3) false :=
  ⟨unfair_run, unfair_fair, ⟨fun r h => (by cases h), fun h => by cases h⟩, ⟨fun r h => (by cases h), fun h => by cases h⟩⟩

/-- a run of one call, `atomic_store` of 5 -/
def short : Nat → St Bool Unit Nat 1
  | 0 => ⟨false, fun _ => zero, fun _ => [], fun _ => .idle, []⟩
  | 1 => { short 0 with pc := set (short 0).pc true (.spin (.store () fun _ => 5)), tr := [.inv true (.store () fun _ => 5)] }
  | 2 => { short 1 with lk := true, pc := set (short 1).pc true (.write (.store () fun _ => 5) 0 zero fun _ => 5) }
  | 3 => { short 2 with pc := set (short 2).pc true (.write (.store () fun _ => 5) 1 zero fun _ => 5),
                        buf := set (short 2).buf true [.word () 0 5] }
  | 4 => { short 3 with pc := set (short 3).pc true (.leave (.store () fun _ => 5) zero) }
  | 5 => { short 4 with pc := set (short 4).pc true (.fin none), buf := set (short 4).buf true [.word () 0 5, .unlock],
                        tr := [.inv true (.store () fun _ => 5), .lin true (.store () fun _ => 5) none] }
  | 6 => { short 5 with data := (Ent.word () 0 5).put (short 5).data, buf := set (short 5).buf true [.unlock] }
  | 7 => { short 6 with lk := false, buf := set (short 6).buf true [] }
  | 8 => { short 7 with pc := set (short 7).pc true .idle,
                        tr := [.inv true (.store () fun _ => 5), .lin true (.store () fun _ => 5) none, .ret true none] }
  | k + 9 => short (k + 8)

theorem short_end (k : Nat) : short (k + 8) = short 8 := by
  induction k with
  | zero => rfl
  | succ k ih => rw [show k + 1 + 8 = k + 9 from rfl, short.eq_def]; exact ih

/-- the hypotheses of `C92_returns` are met by a run in which the call does return -/
example : Run (fun _ => zero) short ∧ Fair short ∧ (∀ i, invoked (short i).tr ≤ 1) ∧ (short 1).pc true ≠ .idle ∧
    (short 8).pc true = .idle ∧ (short 8).data () 0 = 5 := by
  refine ⟨⟨Reach.init, fun i => ?_⟩, fun t i => ?_, fun i => ?_, ?_, rfl, rfl⟩
  · match i with
    | 0 => exact Or.inr (Step.call (short 0) true (.store () fun _ => 5) rfl)
    | 1 => exact Or.inr (Step.lock (short 1) true (.store () fun _ => 5) zero rfl rfl rfl (fun h => by cases h))
    | 2 => exact Or.inr (Step.write (short 2) true (.store () fun _ => 5) 0 zero (fun _ => 5) (by decide) rfl)
    | 3 => exact Or.inr (Step.written (short 3) true (.store () fun _ => 5) 1 zero (fun _ => 5) rfl (by decide))
    | 4 => exact Or.inr (Step.leave (short 4) true (.store () fun _ => 5) zero rfl)
    | 5 => exact Or.inr (Step.flush (short 5) true (.word () 0 5) [.unlock] rfl)
    | 6 => exact Or.inr (Step.flush (short 6) true .unlock [] rfl)
    | 7 => exact Or.inr (Step.ret (short 7) true none rfl)
    | k + 8 => exact Or.inl (by exact (short_end (k + 1)).trans (short_end k).symm)
  · refine ⟨⟨i + 8, by omega, Or.inr ?_⟩, ⟨i + 8, by omega, Or.inr ?_⟩⟩
    · rintro ⟨s', -, h, -⟩
      rw [short_end] at h
      cases t <;> exact h rfl
    · rintro ⟨s', -, h⟩
      rw [short_end] at h
      cases t <;> exact absurd h (Nat.not_lt_zero _)
  · match i with
    | 0 => exact Nat.zero_le _
    | 1 => exact Nat.le_refl _
    | 2 => exact Nat.le_refl _
    | 3 => exact Nat.le_refl _
    | 4 => exact Nat.le_refl _
    | 5 => exact Nat.le_refl _
    | 6 => exact Nat.le_refl _
    | 7 => exact Nat.le_refl _
    | k + 8 => rw [short_end]; exact Nat.le_refl _
  · intro h; cases h

end CE.SpinLock
