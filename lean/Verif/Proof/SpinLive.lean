import Verif.Proof.SpinLock
import Verif.Spec.SpinLock
/-!
# Spin lock: progress
-/
namespace CE.SpinLock
open CE.Linear

variable {T A V : Type} {n : Nat} [DecidableEq T] [DecidableEq A]

theorem effects_append (a b : List (Ev T (Op A V n) (Res V n))) : effects (a ++ b) = effects a + effects b := by
  induction a with
  | nil => simp [effects]
  | cons e a ih => cases e <;> simp [effects, ih] <;> omega

/-- rounds left inside -/
def left : Pc A V n → Nat
  | .copy _ k _ => (n - k) + n + 3
  | .write _ k _ _ => (n - k) + 2
  | .leave _ _ => 1
  | _ => 0

/-- what a step does to the threads -/
theorem step_pc {s s' : St T A V n} (hs : Step false s s') (t : T) :
    effects s.tr ≤ effects s'.tr ∧
    (s'.pc t = s.pc t ∨
     (s.pc t = .idle ∧ ∃ o, s'.pc t = .spin o) ∨
     (∃ o, s.pc t = .spin o ∧ s'.pc t = .pause o ∧ s.lk = true) ∨
     (∃ o, s.pc t = .pause o ∧ s'.pc t = .spin o ∧ viewLk s.lk (s.buf t) = false) ∨
     (∃ o, s.pc t = .spin o ∧ (s'.pc t).inside = true ∧ s.lk = false) ∨
     ((s.pc t).inside = true ∧ (s'.pc t).inside = true ∧ left (s'.pc t) < left (s.pc t)) ∨
     ((s.pc t).inside = true ∧ effects s.tr < effects s'.tr) ∨
     (∃ r, s.pc t = .fin r ∧ s'.pc t = .idle)) := by
  have key : ∀ {u : T} {p : Pc A V n}, u ≠ t → set s.pc u p t = s.pc t := fun h => set_other _ _ (Ne.symm h)
  cases hs with
  | call u o hp =>
    refine ⟨by rw [effects_append]; omega, ?_⟩
    by_cases hu : u = t
    · subst hu; right; left; exact ⟨hp, o, set_same ..⟩
    · left; exact key hu
  | lock u o junk hp hb hl _ =>
    refine ⟨Nat.le_refl _, ?_⟩
    by_cases hu : u = t
    · subst hu; right; right; right; right; left
      refine ⟨o, hp, ?_, hl⟩
      show (set s.pc u (o.enter junk) u).inside = true
      rw [set_same]
      unfold Op.enter; split
      · rfl
      · split <;> rfl
    · left; exact key hu
  | busy u o hp hb hl =>
    refine ⟨Nat.le_refl _, ?_⟩
    by_cases hu : u = t
    · subst hu; right; right; left; exact ⟨o, hp, set_same .., hl⟩
    · left; exact key hu
  | waiting u o hp hv => exact ⟨Nat.le_refl _, Or.inl rfl⟩
  | retry u o hp hv =>
    refine ⟨Nat.le_refl _, ?_⟩
    by_cases hu : u = t
    · subst hu; right; right; right; left; exact ⟨o, hp, set_same .., hv⟩
    · left; exact key hu
  | copy u o k v hk hp =>
    refine ⟨Nat.le_refl _, ?_⟩
    by_cases hu : u = t
    · subst hu; right; right; right; right; right; left
      show _ ∧ (set s.pc u _ u).inside = true ∧ left (set s.pc u _ u) < _
      rw [set_same, hp]
      refine ⟨rfl, rfl, ?_⟩
      show (n - (k + 1)) + n + 3 < (n - k) + n + 3
      omega
    · left; exact key hu
  | copied u o k v hp hk =>
    refine ⟨Nat.le_refl _, ?_⟩
    by_cases hu : u = t
    · subst hu; right; right; right; right; right; left
      show _ ∧ (set s.pc u _ u).inside = true ∧ left (set s.pc u _ u) < _
      rw [set_same, hp]
      refine ⟨rfl, ?_, ?_⟩
      · unfold Op.copied; split <;> rfl
      · unfold Op.copied; split
        · show 1 < (n - k) + n + 3; omega
        · show (n - 0) + 2 < (n - k) + n + 3; omega
    · left; exact key hu
  | write u o k v w hk hp =>
    refine ⟨Nat.le_refl _, ?_⟩
    by_cases hu : u = t
    · subst hu; right; right; right; right; right; left
      show _ ∧ (set s.pc u _ u).inside = true ∧ left (set s.pc u _ u) < _
      rw [set_same, hp]
      refine ⟨rfl, rfl, ?_⟩
      show (n - (k + 1)) + 2 < (n - k) + 2
      omega
    · left; exact key hu
  | written u o k v w hp hk =>
    refine ⟨Nat.le_refl _, ?_⟩
    by_cases hu : u = t
    · subst hu; right; right; right; right; right; left
      show _ ∧ (set s.pc u _ u).inside = true ∧ left (set s.pc u _ u) < _
      rw [set_same, hp]
      refine ⟨rfl, rfl, ?_⟩
      show 1 < (n - k) + 2
      omega
    · left; exact key hu
  | leave u o v hp =>
    have he : effects s.tr < effects (s.tr ++ [Ev.lin u o (o.res v)]) := by
      rw [effects_append]; show _ < _ + (1 + 0); omega
    refine ⟨Nat.le_of_lt he, ?_⟩
    by_cases hu : u = t
    · subst hu; right; right; right; right; right; right; left
      exact ⟨by rw [hp]; rfl, he⟩
    · left; exact key hu
  | ret u r hp =>
    refine ⟨by rw [effects_append]; omega, ?_⟩
    by_cases hu : u = t
    · subst hu; right; right; right; right; right; right; right
      exact ⟨r, hp, set_same ..⟩
    · left; exact key hu
  | flush u e b hb => exact ⟨Nat.le_refl _, Or.inl rfl⟩
  | interlocked u o w hsm => cases hsm

theorem step_thread {s s' : St T A V n} (hs : Step false s s') : Nonempty T := by
  cases hs <;> exact ⟨by assumption⟩

section
variable {d : A → Fin n → V} {σ : Nat → St T A V n}

theorem run_reach (hr : Run d σ) (i : Nat) : Reach false d (σ i) := by
  induction i with
  | zero => exact hr.1
  | succ i ih =>
    rcases hr.2 i with h | h
    · rw [h]; exact ih
    · exact Reach.step ih h

theorem run_effects (hr : Run d σ) {i j : Nat} (h : i ≤ j) : effects (σ i).tr ≤ effects (σ j).tr := by
  induction h with
  | refl => exact Nat.le_refl _
  | @step j _ ih =>
    rcases hr.2 j with e | e
    · rw [e]; exact ih
    · -- some thread; the count does not depend on which
      by_cases hT : Nonempty T
      · obtain ⟨t⟩ := hT
        exact Nat.le_trans ih (step_pc e t).1
      · exfalso
        exact hT (step_thread e)

/-- what is always enabled while the program counter stays happens: it changes -/
theorem changes (hr : Run d σ) (hf : Fair σ) {t : T} {i : Nat}
    (en : ∀ j, i ≤ j → (σ j).pc t = (σ i).pc t → ∃ s', Goes t (σ j) s') :
    ∃ j, i ≤ j ∧ (σ j).pc t = (σ i).pc t ∧ (σ (j + 1)).pc t ≠ (σ j).pc t ∧ Step false (σ j) (σ (j + 1)) := by
  by_contra hc
  have stay : ∀ j, i ≤ j → (σ j).pc t = (σ i).pc t := by
    intro j hj
    induction hj with
    | refl => rfl
    | @step j hj ih =>
      by_contra hne
      rcases hr.2 j with e | e
      · rw [e] at hne; exact hne ih
      · exact hc ⟨j, hj, ih, by rw [ih]; exact hne, e⟩
  obtain ⟨j, hj, h⟩ := (hf t i).1
  rcases h with h | h
  · exact h.2.2 ((stay (j + 1) (by omega)).trans (stay j hj).symm)
  · exact h (en j hj (stay j hj))

/-- a thread inside can go on -/
theorem inside_goes {s : St T A V n} {t : T} (h : (s.pc t).inside = true) : ∃ s', Goes t s s' := by
  cases hp : s.pc t with
  | idle => rw [hp] at h; cases h
  | spin o => rw [hp] at h; cases h
  | pause o => rw [hp] at h; cases h
  | fin r => rw [hp] at h; cases h
  | copy o k u =>
    by_cases hk : k < n
    · refine ⟨_, Step.copy s t o k u hk hp, by rw [hp]; exact (by intro h; cases h), ?_⟩
      show set s.pc t _ t ≠ s.pc t
      rw [set_same, hp]; intro h; injection h with _ h _; omega
    · refine ⟨_, Step.copied s t o k u hp hk, by rw [hp]; exact (by intro h; cases h), ?_⟩
      show set s.pc t _ t ≠ s.pc t
      rw [set_same, hp]; unfold Op.copied; split <;> (intro h; cases h)
  | write o k u w =>
    by_cases hk : k < n
    · refine ⟨_, Step.write s t o k u w hk hp, by rw [hp]; exact (by intro h; cases h), ?_⟩
      show set s.pc t _ t ≠ s.pc t
      rw [set_same, hp]; intro h; injection h with _ h _; omega
    · refine ⟨_, Step.written s t o k u w hp hk, by rw [hp]; exact (by intro h; cases h), ?_⟩
      show set s.pc t _ t ≠ s.pc t
      rw [set_same, hp]; intro h; cases h
  | leave o u =>
    refine ⟨_, Step.leave s t o u hp, by rw [hp]; exact (by intro h; cases h), ?_⟩
    show set s.pc t _ t ≠ s.pc t
    rw [set_same, hp]; intro h; cases h

/-- a thread inside gets out -/
theorem inside_done (hr : Run d σ) (hf : Fair σ) {t : T} : ∀ (m i : Nat), left ((σ i).pc t) = m → ((σ i).pc t).inside = true →
    ∃ j, i ≤ j ∧ effects (σ i).tr < effects (σ j).tr := by
  intro m
  induction m using Nat.strongRecOn with
  | _ m ih =>
    intro i hm hin
    obtain ⟨j, hj, h1, h2, h3⟩ := changes hr hf (t := t) (i := i) (fun j _ e => inside_goes (by rw [e]; exact hin))
    have hin' : ((σ j).pc t).inside = true := by rw [h1]; exact hin
    obtain ⟨-, h⟩ := step_pc h3 t
    have no : ∀ {p : Pc A V n}, (σ j).pc t = p → p.inside = false → False := by
      intro p e h; rw [e, h] at hin'; cases hin'
    rcases h with h | ⟨h, -⟩ | ⟨o, h, -⟩ | ⟨o, h, -⟩ | ⟨o, h, -⟩ | ⟨-, h, h'⟩ | ⟨-, h⟩ | ⟨r, h, -⟩
    · exact absurd h h2
    · exact (no h rfl).elim
    · exact (no h rfl).elim
    · exact (no h rfl).elim
    · exact (no h rfl).elim
    · obtain ⟨j', hj', h''⟩ := ih (left ((σ (j + 1)).pc t)) (by rw [h1, hm] at h'; exact h') (j + 1) rfl h
      exact ⟨j', by omega, Nat.lt_of_le_of_lt (run_effects hr (by omega)) h''⟩
    · exact ⟨j + 1, by omega, Nat.lt_of_le_of_lt (run_effects hr hj) h⟩
    · exact (no h rfl).elim

/-- a buffer whose owner is outside only shrinks -/
theorem step_buf {s s' : St T A V n} (hs : Step false s s') (t : T) :
    s'.buf t = s.buf t ∨ (∃ e, s.buf t = e :: s'.buf t) ∨ (s.pc t).inside = true := by
  have key : ∀ {u : T} {b}, u ≠ t → set s.buf u b t = s.buf t := fun h => set_other _ _ (Ne.symm h)
  cases hs with
  | write u o k v w hk hp =>
    by_cases hu : u = t
    · subst hu; right; right; rw [hp]; rfl
    · left; exact key hu
  | leave u o v hp =>
    by_cases hu : u = t
    · subst hu; right; right; rw [hp]; rfl
    · left; exact key hu
  | flush u e b hb =>
    by_cases hu : u = t
    · subst hu; right; left; refine ⟨e, ?_⟩
      show _ = e :: set s.buf u b u
      rw [set_same]; exact hb
    · left; exact key hu
  | interlocked u o w hsm => cases hsm
  | _ => left; rfl

/-- locked or not: who -/
theorem lock_cases {s : St T A V n} (h : Reach false d s) :
    (s.lk = false ∧ (∀ t, Quiet s t)) ∨ (∃ t, (s.pc t).inside = true) ∨
    (s.lk = true ∧ ∃ o, (∀ t, t ≠ o → Quiet s t) ∧ (s.pc o).inside = false ∧ s.buf o ≠ []) := by
  obtain ⟨-, abs, -, h⟩ := inv_reach h
  rcases h with ⟨h1, h2, -⟩ | ⟨h1, o, h2, h3⟩
  · exact Or.inl ⟨h1, h2⟩
  · by_cases hin : (s.pc o).inside = true
    · exact Or.inr (Or.inl ⟨o, hin⟩)
    · have hin : (s.pc o).inside = false := by simpa using hin
      obtain ⟨ws, e, -, -⟩ := (Own.outside hin).1 h3
      exact Or.inr (Or.inr ⟨h1, o, h2, hin, by rw [e]; simp⟩)

theorem step_lk {s s' : St T A V n} (h : Reach false d s) (hs : Step false s s') (hl : s.lk = false) :
    s'.lk = false ∨ ∃ t, (s'.pc t).inside = true := by
  cases hs with
  | lock u o junk hp hb _ _ =>
    right
    refine ⟨u, ?_⟩
    show (set s.pc u _ u).inside = true
    rw [set_same]; unfold Op.enter; split
    · rfl
    · split <;> rfl
  | flush u e b hb =>
    left
    cases e with
    | unlock => rfl
    | word a i v => exact hl
  | interlocked u o w hsm => cases hsm
  | _ => left; exact hl

/-- while locked nobody enters -/
theorem step_enter {s s' : St T A V n} (hs : Step false s s') (hl : s.lk = true) (t : T) (h0 : (s.pc t).inside = false) :
    (s'.pc t).inside = false := by
  obtain ⟨-, h⟩ := step_pc hs t
  rcases h with h | ⟨-, o, h⟩ | ⟨o, -, h, -⟩ | ⟨o, -, h, -⟩ | ⟨o, -, -, h⟩ | ⟨h, -⟩ | ⟨h, -⟩ | ⟨r, -, h⟩
  · rw [h]; exact h0
  · rw [h]; rfl
  · rw [h]; rfl
  · rw [h]; rfl
  · rw [h] at hl; cases hl
  · rw [h] at h0; cases h0
  · rw [h] at h0; cases h0
  · rw [h]; rfl

/-- a release reaches memory -/
theorem released (hr : Run d σ) (hf : Fair σ) : ∀ (m i : Nat) (o : T), ((σ i).buf o).length = m →
    (σ i).lk = true → (∀ t, t ≠ o → Quiet (σ i) t) → ((σ i).pc o).inside = false →
    ∃ j, i ≤ j ∧ (σ j).lk = false := by
  intro m
  induction m using Nat.strongRecOn with
  | _ m ih =>
    intro i o hm hl hq hin
    by_contra hc
    have hlk : ∀ j, i ≤ j → (σ j).lk = true := by
      intro j hj
      by_contra h
      exact hc ⟨j, hj, by simpa using h⟩
    have hout : ∀ j, i ≤ j → ∀ t, ((σ j).pc t).inside = false := by
      intro j hj
      induction hj with
      | refl =>
        intro t
        by_cases ht : t = o
        · rw [ht]; exact hin
        · exact (hq t ht).2
      | @step j hj ih' =>
        intro t
        rcases hr.2 j with e | e
        · rw [e]; exact ih' t
        · exact step_enter e (hlk j hj) t (ih' t)
    have hbuf : ∀ j, i ≤ j → ((σ j).buf o = (σ i).buf o ∨ ((σ j).buf o).length < m) ∧ ∀ t, t ≠ o → (σ j).buf t = [] := by
      intro j hj
      induction hj with
      | refl => exact ⟨Or.inl rfl, fun t ht => (hq t ht).1⟩
      | @step j hj ih' =>
        rcases hr.2 j with e | e
        · rw [e]; exact ih'
        · refine ⟨?_, fun t ht => ?_⟩
          · rcases step_buf e o with h | ⟨x, h⟩ | h
            · rw [h]; exact ih'.1
            · right
              rcases ih'.1 with h' | h'
              · rw [← hm, ← h', h]; simp
              · rw [h, List.length_cons] at h'; exact Nat.lt_of_succ_lt h'
            · rw [hout j hj o] at h; cases h
          · rcases step_buf e t with h | ⟨x, h⟩ | h
            · rw [h]; exact ih'.2 t ht
            · rw [ih'.2 t ht] at h; cases h
            · rw [hout j hj t] at h; cases h
    -- the buffer is drained by fairness
    have hne : ∀ j, i ≤ j → (σ j).buf o ≠ [] := by
      intro j hj hb
      rcases lock_cases (run_reach hr j) with ⟨h, -⟩ | ⟨t, h⟩ | ⟨-, o', h1, -, h3⟩
      · rw [hlk j hj] at h; cases h
      · rw [hout j hj t] at h; cases h
      · by_cases e : o' = o
        · rw [e] at h3; exact h3 hb
        · exact h3 ((hbuf j hj).2 o' e)
    obtain ⟨j, hj, h⟩ := (hf o i).2
    rcases h with ⟨hs, hlt⟩ | h
    · have h1 := (hbuf j hj).1
      have hlt' : ((σ (j + 1)).buf o).length < m := by
        rcases h1 with h1 | h1
        · rw [h1, hm] at hlt; exact hlt
        · omega
      obtain ⟨j', hj', h'⟩ := ih _ hlt' (j + 1) o rfl (hlk _ (by omega))
        (fun t ht => ⟨(hbuf (j + 1) (by omega)).2 t ht, hout _ (by omega) t⟩) (hout _ (by omega) o)
      exact hc ⟨j', by omega, h'⟩
    · refine h ?_
      cases hb : (σ j).buf o with
      | nil => exact absurd hb (hne j hj)
      | cons e b =>
        refine ⟨_, Step.flush _ o e b hb, ?_⟩
        show (set (σ j).buf o b o).length < ((σ j).buf o).length
        rw [set_same, hb]; simp

/-- a free lock is taken as long as somebody waits -/
theorem taken (hr : Run d σ) (hf : Fair σ) {i : Nat} {t : T} (hl : (σ i).lk = false)
    (hp : (∃ o, (σ i).pc t = .spin o) ∨ ∃ o, (σ i).pc t = .pause o) : ∃ j u, i ≤ j ∧ ((σ j).pc u).inside = true := by
  by_contra hc
  have hout : ∀ j, i ≤ j → ∀ u, ((σ j).pc u).inside = false := by
    intro j hj u
    by_contra h
    exact hc ⟨j, u, hj, by simpa using h⟩
  have hlk : ∀ j, i ≤ j → (σ j).lk = false := by
    intro j hj
    induction hj with
    | refl => exact hl
    | @step j hj ih =>
      rcases hr.2 j with e | e
      · rw [e]; exact ih
      · rcases step_lk (run_reach hr j) e ih with h | ⟨u, h⟩
        · exact h
        · rw [hout (j + 1) (Nat.le_succ_of_le hj) u] at h; cases h
  have hbuf : ∀ j, i ≤ j → (σ j).buf t = [] := by
    intro j hj
    rcases lock_cases (run_reach hr j) with ⟨-, h⟩ | ⟨u, h⟩ | ⟨h, -⟩
    · exact (h t).1
    · rw [hout j hj u] at h; cases h
    · rw [hlk j hj] at h; cases h
  have spin : ∀ j, i ≤ j → ∀ o, (σ j).pc t = .spin o → False := by
    intro j hj o hp
    obtain ⟨k, hk, h1, h2, h3⟩ := changes hr hf (t := t) (i := j) (fun k hk e => by
      refine ⟨_, Step.lock (σ k) t o (fun i => (σ k).data o.obj i) (by rw [e, hp]) (hbuf k (by omega)) (hlk k (by omega)) (fun h => by cases h), ?_, ?_⟩
      · rw [e, hp]; intro h; cases h
      · show set (σ k).pc t _ t ≠ (σ k).pc t
        rw [set_same, e, hp]; unfold Op.enter; split
        · intro h; cases h
        · split <;> (intro h; cases h))
    obtain ⟨-, h⟩ := step_pc h3 t
    rw [hp] at h1
    rcases h with h | ⟨h, -⟩ | ⟨o, -, -, h⟩ | ⟨o, h, -⟩ | ⟨o, -, h, -⟩ | ⟨h, -⟩ | ⟨h, -⟩ | ⟨r, h, -⟩
    · exact h2 h
    · rw [h1] at h; cases h
    · rw [hlk k (by omega)] at h; cases h
    · rw [h1] at h; cases h
    · rw [hout (k + 1) (by omega) t] at h; cases h
    · rw [h1] at h; cases h
    · rw [h1] at h; cases h
    · rw [h1] at h; cases h
  rcases hp with ⟨o, hp⟩ | ⟨o, hp⟩
  · exact spin i (Nat.le_refl _) o hp
  · obtain ⟨k, hk, h1, h2, h3⟩ := changes hr hf (t := t) (i := i) (fun k hk e => by
      refine ⟨_, Step.retry (σ k) t o (by rw [e, hp]) (by rw [hbuf k hk]; exact hlk k hk), ?_, ?_⟩
      · rw [e, hp]; intro h; cases h
      · show set (σ k).pc t _ t ≠ (σ k).pc t
        rw [set_same, e, hp]; intro h; cases h)
    obtain ⟨-, h⟩ := step_pc h3 t
    rw [hp] at h1
    rcases h with h | ⟨h, -⟩ | ⟨o, h, -⟩ | ⟨o, -, h, -⟩ | ⟨o, h, -⟩ | ⟨h, -⟩ | ⟨h, -⟩ | ⟨r, h, -⟩
    · exact h2 h
    · rw [h1] at h; cases h
    · rw [h1] at h; cases h
    · exact spin (k + 1) (by omega) o h
    · rw [h1] at h; cases h
    · rw [h1] at h; cases h
    · rw [h1] at h; cases h
    · rw [h1] at h; cases h

/-- outside, a waiting thread keeps waiting until it is inside -/
theorem waits (hr : Run d σ) {i : Nat} {t : T} (hp : (∃ o, (σ i).pc t = .spin o) ∨ ∃ o, (σ i).pc t = .pause o) {j : Nat} (hj : i ≤ j) :
    (∃ k, i ≤ k ∧ ((σ k).pc t).inside = true) ∨ (∃ o, (σ j).pc t = .spin o) ∨ ∃ o, (σ j).pc t = .pause o := by
  induction hj with
  | refl => exact Or.inr hp
  | @step j hj ih =>
    rcases ih with ih | ih
    · exact Or.inl ih
    rcases hr.2 j with e | e
    · rw [e]; exact Or.inr ih
    · obtain ⟨-, h⟩ := step_pc e t
      rcases h with h | ⟨-, o, h⟩ | ⟨o, -, h, -⟩ | ⟨o, -, h, -⟩ | ⟨o, -, h, -⟩ | ⟨h, -⟩ | ⟨h, -⟩ | ⟨r, h, -⟩
      · rw [h]; exact Or.inr ih
      · exact Or.inr (Or.inl ⟨o, h⟩)
      · exact Or.inr (Or.inr ⟨o, h⟩)
      · exact Or.inr (Or.inl ⟨o, h⟩)
      · exact Or.inl ⟨j + 1, Nat.le_succ_of_le hj, h⟩
      · exact Or.inl ⟨j, hj, h⟩
      · exact Or.inl ⟨j, hj, h⟩
      · rcases ih with ⟨o, ih⟩ | ⟨o, ih⟩ <;> (rw [ih] at h; cases h)

theorem progress (hr : Run d σ) (hf : Fair σ) {i : Nat} {t : T} (hp : Pending (σ i) t) :
    ∃ j, i ≤ j ∧ effects (σ i).tr < effects (σ j).tr := by
  have fin : ∀ {k : Nat} {u : T}, i ≤ k → ((σ k).pc u).inside = true → ∃ j, i ≤ j ∧ effects (σ i).tr < effects (σ j).tr := by
    intro k u hk hin
    obtain ⟨j, hj, h⟩ := inside_done hr hf _ k rfl hin
    exact ⟨j, by omega, Nat.lt_of_le_of_lt (run_effects hr hk) h⟩
  have free : ∀ {k : Nat}, i ≤ k → (σ k).lk = false → ((∃ o, (σ i).pc t = .spin o) ∨ ∃ o, (σ i).pc t = .pause o) →
      ∃ j, i ≤ j ∧ effects (σ i).tr < effects (σ j).tr := by
    intro k hk hl hp
    rcases waits hr hp hk with ⟨k', hk', h⟩ | h
    · exact fin hk' h
    · obtain ⟨j, u, hj, h⟩ := taken hr hf hl h
      exact fin (by omega) h
  by_cases hin : ((σ i).pc t).inside = true
  · exact fin (Nat.le_refl _) hin
  have hw : (∃ o, (σ i).pc t = .spin o) ∨ ∃ o, (σ i).pc t = .pause o := by
    cases e : (σ i).pc t with
    | idle => exact absurd e hp.2
    | spin o => exact Or.inl ⟨o, rfl⟩
    | pause o => exact Or.inr ⟨o, rfl⟩
    | copy => rw [e] at hin; exact absurd rfl hin
    | write => rw [e] at hin; exact absurd rfl hin
    | leave => rw [e] at hin; exact absurd rfl hin
    | fin r => exact absurd e (hp.1 r)
  rcases lock_cases (run_reach hr i) with ⟨h, -⟩ | ⟨u, h⟩ | ⟨h, o, h1, h2, -⟩
  · exact free (Nat.le_refl _) h hw
  · exact fin (Nat.le_refl _) h
  · obtain ⟨j, hj, h'⟩ := released hr hf _ i o rfl h h1 h2
    exact free hj h' hw

/-- who has to take effect was called -/
theorem effects_invoked {s : St T A V n} (h : Reach false d s) :
    ∃ P : List T, P.Nodup ∧ (∀ t, t ∈ P ↔ Pending s t) ∧ effects s.tr + P.length = invoked s.tr := by
  have app : ∀ a b : List (Ev T (Op A V n) (Res V n)), invoked (a ++ b) = invoked a + invoked b := by
    intro a b
    induction a with
    | nil => simp [invoked]
    | cons e a ih => cases e <;> simp [invoked, ih] <;> omega
  induction h with
  | init => exact ⟨[], List.nodup_nil, fun t => ⟨fun h => (by cases h), fun h => absurd rfl h.2⟩, rfl⟩
  | @step s s' _ hs ih =>
    obtain ⟨P, hn, hP, he⟩ := ih
    -- a step that keeps who is pending
    have keep : ∀ {s' : St T A V n} (u : T) (p : Pc A V n), s'.pc = set s.pc u p → (Pending s u ↔ ((∀ r, p ≠ .fin r) ∧ p ≠ .idle)) →
        effects s'.tr = effects s.tr → invoked s'.tr = invoked s.tr →
        ∃ P : List T, P.Nodup ∧ (∀ t, t ∈ P ↔ Pending s' t) ∧ effects s'.tr + P.length = invoked s'.tr := by
      intro s' u p h1 h2 h3 h4
      refine ⟨P, hn, fun t => ?_, by rw [h3, h4]; exact he⟩
      rw [hP]
      unfold Pending
      rw [h1]
      by_cases hu : t = u
      · subst hu; rw [set_same]; exact h2
      · rw [set_other _ _ hu]
    have yes : ∀ {u : T}, ((∃ o, s.pc u = .spin o) ∨ (∃ o, s.pc u = .pause o) ∨ (s.pc u).inside = true) → Pending s u := by
      intro u h
      rcases h with ⟨o, h⟩ | ⟨o, h⟩ | h
      · exact ⟨fun r e => (by rw [h] at e; cases e), fun e => by rw [h] at e; cases e⟩
      · exact ⟨fun r e => (by rw [h] at e; cases e), fun e => by rw [h] at e; cases e⟩
      · exact ⟨fun r e => (by rw [e] at h; cases h), fun e => by rw [e] at h; cases h⟩
    cases hs with
    | call u o hp =>
      have hu : u ∉ P := fun h => ((hP u).1 h).2 hp
      refine ⟨u :: P, List.nodup_cons.2 ⟨hu, hn⟩, fun t => ?_, ?_⟩
      · rw [List.mem_cons, hP]
        by_cases hut : t = u
        · subst hut
          refine ⟨fun _ => ⟨fun r e => ?_, fun e => ?_⟩, fun _ => Or.inl rfl⟩
          · have e : set s.pc t (Pc.spin o) t = _ := e
            rw [set_same] at e; cases e
          · have e : set s.pc t (Pc.spin o) t = _ := e
            rw [set_same] at e; cases e
        · have e : set s.pc u (Pc.spin o) t = s.pc t := set_other _ _ hut
          show _ ↔ (∀ r, set s.pc u (Pc.spin o) t ≠ _) ∧ set s.pc u (Pc.spin o) t ≠ _
          rw [e]
          exact ⟨fun h => h.resolve_left hut, Or.inr⟩
      · show effects (s.tr ++ _) + _ = invoked (s.tr ++ _)
        rw [effects_append, app, List.length_cons]
        show _ + 0 + _ = _ + (1 + 0)
        omega
    | lock u o junk hp hb hl _ =>
      refine keep u (o.enter junk) rfl ⟨fun _ => ?_, fun _ => yes (Or.inl ⟨o, hp⟩)⟩ rfl rfl
      unfold Op.enter; split
      · exact ⟨fun r e => (by cases e), fun e => by cases e⟩
      · split <;> exact ⟨fun r e => (by cases e), fun e => by cases e⟩
    | busy u o hp hb hl =>
      exact keep u (.pause o) rfl ⟨fun _ => ⟨fun r e => (by cases e), fun e => by cases e⟩, fun _ => yes (Or.inl ⟨o, hp⟩)⟩ rfl rfl
    | waiting u o hp hv => exact ⟨P, hn, hP, he⟩
    | retry u o hp hv =>
      exact keep u (.spin o) rfl ⟨fun _ => ⟨fun r e => (by cases e), fun e => by cases e⟩, fun _ => yes (Or.inr (Or.inl ⟨o, hp⟩))⟩ rfl rfl
    | copy u o k v hk hp =>
      exact keep u _ rfl ⟨fun _ => ⟨fun r e => (by cases e), fun e => by cases e⟩, fun _ => yes (Or.inr (Or.inr (by rw [hp]; rfl)))⟩ rfl rfl
    | copied u o k v hp hk =>
      refine keep u (o.copied v) rfl ⟨fun _ => ?_, fun _ => yes (Or.inr (Or.inr (by rw [hp]; rfl)))⟩ rfl rfl
      unfold Op.copied; split <;> exact ⟨fun r e => (by cases e), fun e => by cases e⟩
    | write u o k v w hk hp =>
      exact keep u _ rfl ⟨fun _ => ⟨fun r e => (by cases e), fun e => by cases e⟩, fun _ => yes (Or.inr (Or.inr (by rw [hp]; rfl)))⟩ rfl rfl
    | written u o k v w hp hk =>
      exact keep u _ rfl ⟨fun _ => ⟨fun r e => (by cases e), fun e => by cases e⟩, fun _ => yes (Or.inr (Or.inr (by rw [hp]; rfl)))⟩ rfl rfl
    | leave u o v hp =>
      have hu : u ∈ P := (hP u).2 (yes (Or.inr (Or.inr (by rw [hp]; rfl))))
      refine ⟨P.erase u, hn.erase _, fun t => ?_, ?_⟩
      · rw [hn.mem_erase_iff, hP]
        show _ ↔ (∀ r, set s.pc u (Pc.fin (o.res v)) t ≠ _) ∧ set s.pc u (Pc.fin (o.res v)) t ≠ _
        by_cases hut : t = u
        · subst hut
          rw [set_same]
          exact ⟨fun h => absurd rfl h.1, fun h => absurd rfl (h.1 _)⟩
        · rw [set_other _ _ hut]
          exact ⟨fun h => h.2, fun h => ⟨hut, h⟩⟩
      · show effects (s.tr ++ _) + _ = invoked (s.tr ++ _)
        have hpos := List.length_pos_of_mem hu
        rw [effects_append, app, List.length_erase_of_mem hu]
        show _ + (1 + 0) + _ = _ + 0
        omega
    | ret u r hp =>
      refine keep u .idle rfl ⟨fun h => absurd hp (h.1 r), fun h => absurd rfl h.2⟩ ?_ ?_
      · show effects (s.tr ++ _) = _
        rw [effects_append]; rfl
      · show invoked (s.tr ++ _) = _
        rw [app]; rfl
    | flush u e b hb => exact ⟨P, hn, hP, he⟩
    | interlocked u o w hsm => cases hsm

/-- with finitely many calls everybody returns -/
theorem returns (hr : Run d σ) (hf : Fair σ) {B : Nat} (hB : ∀ i, invoked (σ i).tr ≤ B) (i : Nat) (t : T) :
    ∃ j, i ≤ j ∧ (σ j).pc t = .idle := by
  by_contra hc
  have hne : ∀ j, i ≤ j → (σ j).pc t ≠ .idle := fun j hj h => hc ⟨j, hj, h⟩
  -- never finished
  have hfin : ∀ j, i ≤ j → ∀ r, (σ j).pc t ≠ .fin r := by
    intro j hj r hp
    obtain ⟨k, hk, h1, h2, h3⟩ := changes hr hf (t := t) (i := j) (fun k hk e => by
      refine ⟨_, Step.ret (σ k) t r (by rw [e, hp]), hne k (by omega), ?_⟩
      show set (σ k).pc t _ t ≠ (σ k).pc t
      rw [set_same, e, hp]; intro h; cases h)
    rw [hp] at h1
    obtain ⟨-, h⟩ := step_pc h3 t
    rcases h with h | ⟨h, -⟩ | ⟨o, h, -⟩ | ⟨o, h, -⟩ | ⟨o, h, -⟩ | ⟨h, -⟩ | ⟨h, -⟩ | ⟨r, -, h⟩
    · exact h2 h
    · rw [h1] at h; cases h
    · rw [h1] at h; cases h
    · rw [h1] at h; cases h
    · rw [h1] at h; cases h
    · rw [h1] at h; cases h
    · rw [h1] at h; cases h
    · exact hne (k + 1) (by omega) h
  have grow : ∀ m, ∃ j, i ≤ j ∧ m ≤ effects (σ j).tr := by
    intro m
    induction m with
    | zero => exact ⟨i, Nat.le_refl _, Nat.zero_le _⟩
    | succ m ih =>
      obtain ⟨j, hj, h⟩ := ih
      obtain ⟨k, hk, h'⟩ := progress hr hf (i := j) (t := t) ⟨hfin j hj, hne j hj⟩
      exact ⟨k, by omega, by omega⟩
  obtain ⟨j, -, h⟩ := grow (B + 1)
  obtain ⟨P, -, -, he⟩ := effects_invoked (run_reach hr j)
  have := hB j
  omega
end

end CE.SpinLock
