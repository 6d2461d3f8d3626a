import Verif.Proof.SpinSlots
import Verif.Proof.SpinLive
import Verif.Spec.SpinSlots
/-!
# All spin locks together: progress
-/
namespace CE.SpinSlots
open CE.Linear CE.SpinLock

variable {S T A V : Type} {n : Nat} [DecidableEq S] [DecidableEq T] [DecidableEq A] {slot : A → S}

omit [DecidableEq T] [DecidableEq A] in
theorem effectsOn_append (g : S) (a b : List (Ev T (Op A V n) (Res V n))) :
    effectsOn slot g (a ++ b) = effectsOn slot g a + effectsOn slot g b := by
  induction a with
  | nil => simp [effectsOn]
  | cons e a ih => cases e <;> simp [effectsOn, ih] <;> omega

omit [DecidableEq T] [DecidableEq A] in
theorem invokedOn_append (g : S) (a b : List (Ev T (Op A V n) (Res V n))) :
    invokedOn slot g (a ++ b) = invokedOn slot g a + invokedOn slot g b := by
  induction a with
  | nil => simp [invokedOn]
  | cons e a ih => cases e <;> simp [invokedOn, ih] <;> omega

omit [DecidableEq S] [DecidableEq A] in
theorem within_enter (o : Op A V n) (junk) : within slot (o.enter junk) = some (slot o.obj) := by
  unfold Op.enter; split
  · rfl
  · split <;> rfl

omit [DecidableEq S] [DecidableEq A] in
theorem busy_enter (o : Op A V n) (junk) : busyWith (o.enter junk) = some o := by
  unfold Op.enter; split
  · rfl
  · split <;> rfl

omit [DecidableEq S] [DecidableEq A] in
theorem within_copied (o : Op A V n) (u) : within slot (o.copied u) = some (slot o.obj) := by
  unfold Op.copied; split <;> rfl

omit [DecidableEq S] [DecidableEq A] in
theorem busy_copied (o : Op A V n) (u) : busyWith (o.copied u) = some o := by
  unfold Op.copied; split <;> rfl

/-- what a step does to the threads -/
theorem step_pc {s s' : St S T A V n} (hs : Step slot s s') (t : T) :
    (∀ g, effectsOn slot g s.tr ≤ effectsOn slot g s'.tr) ∧
    (s'.pc t = s.pc t ∨
     (s.pc t = .idle ∧ ∃ o, s'.pc t = .spin o) ∨
     (∃ o, s.pc t = .spin o ∧ s'.pc t = .pause o ∧ s.lk (slot o.obj) = true) ∨
     (∃ o, s.pc t = .pause o ∧ s'.pc t = .spin o) ∨
     (∃ o, s.pc t = .spin o ∧ within slot (s'.pc t) = some (slot o.obj) ∧ busyWith (s'.pc t) = some o ∧ s.lk (slot o.obj) = false ∧ s.buf t = []) ∨
     (∃ g, within slot (s.pc t) = some g ∧ within slot (s'.pc t) = some g ∧ busyWith (s'.pc t) = busyWith (s.pc t) ∧
       SpinLock.left (s'.pc t) < SpinLock.left (s.pc t)) ∨
     (∃ g r, within slot (s.pc t) = some g ∧ s'.pc t = .fin r ∧ effectsOn slot g s.tr < effectsOn slot g s'.tr) ∨
     (∃ r, s.pc t = .fin r ∧ s'.pc t = .idle)) := by
  have key : ∀ {u : T} {p : Pc A V n}, u ≠ t → set s.pc u p t = s.pc t := fun h => set_other _ _ (Ne.symm h)
  have ap : ∀ (e : List (Ev T (Op A V n) (Res V n))) (g : S), effectsOn slot g s.tr ≤ effectsOn slot g (s.tr ++ e) := by
    intro e g; rw [effectsOn_append]; omega
  cases hs with
  | call u o hp =>
    refine ⟨ap _, ?_⟩
    by_cases hu : u = t
    · subst hu; right; left; exact ⟨hp, o, set_same ..⟩
    · left; exact key hu
  | lock u o junk hp hb hl =>
    refine ⟨fun _ => Nat.le_refl _, ?_⟩
    by_cases hu : u = t
    · subst hu; right; right; right; right; left
      refine ⟨o, hp, ?_, ?_, hl, hb⟩
      · show within slot (set s.pc u (o.enter junk) u) = _
        rw [set_same]; exact within_enter o junk
      · show busyWith (set s.pc u (o.enter junk) u) = _
        rw [set_same]; exact busy_enter o junk
    · left; exact key hu
  | busy u o hp hb hl =>
    refine ⟨fun _ => Nat.le_refl _, ?_⟩
    by_cases hu : u = t
    · subst hu; right; right; left; exact ⟨o, hp, set_same .., hl⟩
    · left; exact key hu
  | waiting u o hp hv => exact ⟨fun _ => Nat.le_refl _, Or.inl rfl⟩
  | retry u o hp hv =>
    refine ⟨fun _ => Nat.le_refl _, ?_⟩
    by_cases hu : u = t
    · subst hu; right; right; right; left; exact ⟨o, hp, set_same ..⟩
    · left; exact key hu
  | copy u o k v hk hp =>
    refine ⟨fun _ => Nat.le_refl _, ?_⟩
    by_cases hu : u = t
    · subst hu; right; right; right; right; right; left
      refine ⟨slot o.obj, ?_⟩
      show _ ∧ within slot (set s.pc u _ u) = _ ∧ busyWith (set s.pc u _ u) = _ ∧ SpinLock.left (set s.pc u _ u) < _
      rw [set_same, hp]
      refine ⟨rfl, rfl, rfl, ?_⟩
      show (n - (k + 1)) + n + 3 < (n - k) + n + 3
      omega
    · left; exact key hu
  | copied u o k v hp hk =>
    refine ⟨fun _ => Nat.le_refl _, ?_⟩
    by_cases hu : u = t
    · subst hu; right; right; right; right; right; left
      refine ⟨slot o.obj, ?_⟩
      show _ ∧ within slot (set s.pc u _ u) = _ ∧ busyWith (set s.pc u _ u) = _ ∧ SpinLock.left (set s.pc u _ u) < _
      rw [set_same, hp]
      refine ⟨rfl, within_copied o v, busy_copied o v, ?_⟩
      unfold Op.copied; split
      · show 1 < (n - k) + n + 3; omega
      · show (n - 0) + 2 < (n - k) + n + 3; omega
    · left; exact key hu
  | write u o k v w hk hp =>
    refine ⟨fun _ => Nat.le_refl _, ?_⟩
    by_cases hu : u = t
    · subst hu; right; right; right; right; right; left
      refine ⟨slot o.obj, ?_⟩
      show _ ∧ within slot (set s.pc u _ u) = _ ∧ busyWith (set s.pc u _ u) = _ ∧ SpinLock.left (set s.pc u _ u) < _
      rw [set_same, hp]
      refine ⟨rfl, rfl, rfl, ?_⟩
      show (n - (k + 1)) + 2 < (n - k) + 2
      omega
    · left; exact key hu
  | written u o k v w hp hk =>
    refine ⟨fun _ => Nat.le_refl _, ?_⟩
    by_cases hu : u = t
    · subst hu; right; right; right; right; right; left
      refine ⟨slot o.obj, ?_⟩
      show _ ∧ within slot (set s.pc u _ u) = _ ∧ busyWith (set s.pc u _ u) = _ ∧ SpinLock.left (set s.pc u _ u) < _
      rw [set_same, hp]
      refine ⟨rfl, rfl, rfl, ?_⟩
      show 1 < (n - k) + 2
      omega
    · left; exact key hu
  | leave u o v hp =>
    refine ⟨ap _, ?_⟩
    by_cases hu : u = t
    · subst hu; right; right; right; right; right; right; left
      refine ⟨slot o.obj, o.res v, by rw [hp]; rfl, set_same .., ?_⟩
      show _ < effectsOn slot (slot o.obj) (s.tr ++ [Ev.lin u o (o.res v)])
      rw [effectsOn_append]
      show _ < _ + ((if slot o.obj = slot o.obj then 1 else 0) + 0)
      rw [if_pos rfl]; omega
    · left; exact key hu
  | ret u r hp =>
    refine ⟨ap _, ?_⟩
    by_cases hu : u = t
    · subst hu; right; right; right; right; right; right; right
      exact ⟨r, hp, set_same ..⟩
    · left; exact key hu
  | flush u e b hb => exact ⟨fun _ => Nat.le_refl _, Or.inl rfl⟩

theorem step_thread {s s' : St S T A V n} (hs : Step slot s s') : Nonempty T := by
  cases hs <;> exact ⟨by assumption⟩

omit [DecidableEq S] [DecidableEq A] in
theorem within_busy {p : Pc A V n} {g : S} (h : within slot p = some g) : ∃ o, busyWith p = some o ∧ slot o.obj = g := by
  cases p <;> first | exact ⟨_, rfl, Option.some.inj h⟩ | cases h

section
variable {d : A → Fin n → V} {σ : Nat → St S T A V n}

theorem run_reach (hr : Run slot d σ) (i : Nat) : Reach slot d (σ i) := by
  induction i with
  | zero => exact hr.1
  | succ i ih =>
    rcases hr.2 i with h | h
    · rw [h]; exact ih
    · exact Reach.step ih h

theorem run_effects (hr : Run slot d σ) (g : S) {i j : Nat} (h : i ≤ j) : effectsOn slot g (σ i).tr ≤ effectsOn slot g (σ j).tr := by
  induction h with
  | refl => exact Nat.le_refl _
  | @step j _ ih =>
    rcases hr.2 j with e | e
    · rw [e]; exact ih
    · obtain ⟨t⟩ := step_thread e
      exact Nat.le_trans ih ((step_pc e t).1 g)

/-- what is always enabled while the program counter stays happens: it changes -/
theorem changes (hr : Run slot d σ) (hf : Fair slot σ) {t : T} {i : Nat}
    (en : ∀ j, i ≤ j → (σ j).pc t = (σ i).pc t → ∃ s', Goes slot t (σ j) s') :
    ∃ j, i ≤ j ∧ (σ j).pc t = (σ i).pc t ∧ (σ (j + 1)).pc t ≠ (σ j).pc t ∧ Step slot (σ j) (σ (j + 1)) := by
  by_contra hc
  have stay : ∀ j, i ≤ j → (σ j).pc t = (σ i).pc t := by
    intro j hj
    induction hj with
    | refl => rfl
    | @step j hj ih =>
      by_contra hne
      rcases hr.2 j with e | e
      · rw [e] at hne; exact hne ih
      · exact hc ⟨j, hj, ih, by rw [ih]; exact hne, e⟩
  obtain ⟨j, hj, h⟩ := (hf t i).1
  rcases h with h | h
  · exact h.2.2 ((stay (j + 1) (by omega)).trans (stay j hj).symm)
  · exact h (en j hj (stay j hj))

/-- a thread inside can go on -/
theorem inside_goes {s : St S T A V n} {t : T} {g : S} (h : within slot (s.pc t) = some g) : ∃ s', Goes slot t s s' := by
  cases hp : s.pc t with
  | idle => rw [hp] at h; cases h
  | spin o => rw [hp] at h; cases h
  | pause o => rw [hp] at h; cases h
  | fin r => rw [hp] at h; cases h
  | copy o k u =>
    by_cases hk : k < n
    · refine ⟨_, Step.copy s t o k u hk hp, by rw [hp]; exact (by intro h; cases h), ?_⟩
      show set s.pc t _ t ≠ s.pc t
      rw [set_same, hp]; intro h; injection h with _ h _; omega
    · refine ⟨_, Step.copied s t o k u hp hk, by rw [hp]; exact (by intro h; cases h), ?_⟩
      show set s.pc t _ t ≠ s.pc t
      rw [set_same, hp]; unfold Op.copied; split <;> (intro h; cases h)
  | write o k u w =>
    by_cases hk : k < n
    · refine ⟨_, Step.write s t o k u w hk hp, by rw [hp]; exact (by intro h; cases h), ?_⟩
      show set s.pc t _ t ≠ s.pc t
      rw [set_same, hp]; intro h; injection h with _ h _; omega
    · refine ⟨_, Step.written s t o k u w hp hk, by rw [hp]; exact (by intro h; cases h), ?_⟩
      show set s.pc t _ t ≠ s.pc t
      rw [set_same, hp]; intro h; cases h
  | leave o u =>
    refine ⟨_, Step.leave s t o u hp, by rw [hp]; exact (by intro h; cases h), ?_⟩
    show set s.pc t _ t ≠ s.pc t
    rw [set_same, hp]; intro h; cases h

/-- a thread inside gets out -/
theorem inside_done (hr : Run slot d σ) (hf : Fair slot σ) {t : T} {g : S} : ∀ (m i : Nat), SpinLock.left ((σ i).pc t) = m →
    within slot ((σ i).pc t) = some g → ∃ j, i ≤ j ∧ effectsOn slot g (σ i).tr < effectsOn slot g (σ j).tr := by
  intro m
  induction m using Nat.strongRecOn with
  | _ m ih =>
    intro i hm hin
    obtain ⟨j, hj, h1, h2, h3⟩ := changes hr hf (t := t) (i := i) (fun j _ e => inside_goes (g := g) (by rw [e]; exact hin))
    have hin' : within slot ((σ j).pc t) = some g := by rw [h1]; exact hin
    obtain ⟨-, h⟩ := step_pc h3 t
    have no : ∀ {p : Pc A V n}, (σ j).pc t = p → within slot p = none → False := by
      intro p e h; rw [e, h] at hin'; cases hin'
    rcases h with h | ⟨h, -⟩ | ⟨o, h, -⟩ | ⟨o, h, -⟩ | ⟨o, h, -⟩ | ⟨g', h0, h, -, h'⟩ | ⟨g', r, h0, -, h⟩ | ⟨r, h, -⟩
    · exact absurd h h2
    · exact (no h rfl).elim
    · exact (no h rfl).elim
    · exact (no h rfl).elim
    · exact (no h rfl).elim
    · rw [hin'] at h0; injection h0 with h0; subst h0
      obtain ⟨j', hj', h''⟩ := ih (SpinLock.left ((σ (j + 1)).pc t)) (by rw [h1, hm] at h'; exact h') (j + 1) rfl h
      exact ⟨j', by omega, Nat.lt_of_le_of_lt (run_effects hr g (by omega)) h''⟩
    · rw [hin'] at h0; injection h0 with h0; subst h0
      exact ⟨j + 1, by omega, Nat.lt_of_le_of_lt (run_effects hr g hj) h⟩
    · exact (no h rfl).elim

/-- a buffer whose owner is outside only shrinks -/
theorem step_buf {s s' : St S T A V n} (hs : Step slot s s') (t : T) (hout : within slot (s.pc t) = none) :
    s'.buf t = s.buf t ∨ ∃ e, s.buf t = e :: s'.buf t ∧ s'.lk = e.putLk s.lk := by
  have key : ∀ {u : T} {b}, u ≠ t → set s.buf u b t = s.buf t := fun h => set_other _ _ (Ne.symm h)
  cases hs with
  | write u o k v w hk hp =>
    by_cases hu : u = t
    · subst hu; rw [hp] at hout; cases hout
    · left; exact key hu
  | leave u o v hp =>
    by_cases hu : u = t
    · subst hu; rw [hp] at hout; cases hout
    · left; exact key hu
  | flush u e b hb =>
    by_cases hu : u = t
    · subst hu; right; refine ⟨e, ?_, rfl⟩
      show _ = e :: set s.buf u b u
      rw [set_same]; exact hb
    · left; exact key hu
  | _ => left; rfl

/-- the buffer of a thread that stays outside runs empty -/
theorem drained (hr : Run slot d σ) (hf : Fair slot σ) {t : T} : ∀ (m i : Nat), ((σ i).buf t).length = m →
    (∀ j, i ≤ j → within slot ((σ j).pc t) = none) → ∃ j, i ≤ j ∧ ∀ k, j ≤ k → (σ k).buf t = [] := by
  intro m
  induction m using Nat.strongRecOn with
  | _ m ih =>
    intro i hm hout
    have shrink : ∀ j, i ≤ j → (σ (j + 1)).buf t = (σ j).buf t ∨ ((σ (j + 1)).buf t).length < ((σ j).buf t).length := by
      intro j hj
      rcases hr.2 j with e | e
      · left; rw [e]
      · rcases step_buf e t (hout j hj) with h | ⟨x, h, -⟩
        · exact .inl h
        · right; rw [h]; simp
    have le : ∀ j, i ≤ j → (σ j).buf t = (σ i).buf t ∨ ((σ j).buf t).length < m := by
      intro j hj
      induction hj with
      | refl => exact .inl rfl
      | @step j hj ih' =>
        rcases shrink j hj with h | h
        · rw [h]; exact ih'
        · right
          rcases ih' with h' | h'
          · rw [h', hm] at h; exact h
          · exact Nat.lt_trans h h'
    by_cases hs : ∃ j, i ≤ j ∧ ((σ j).buf t).length < m
    · obtain ⟨j, hj, h⟩ := hs
      obtain ⟨k, hk, h'⟩ := ih _ h j rfl (fun k hk => hout k (by omega))
      exact ⟨k, by omega, h'⟩
    have same : ∀ j, i ≤ j → (σ j).buf t = (σ i).buf t := fun j hj =>
      (le j hj).resolve_right fun h => hs ⟨j, hj, h⟩
    obtain ⟨j, hj, h⟩ := (hf t i).2
    rcases h with ⟨-, hlt⟩ | h
    · exfalso
      rw [same j hj, same (j + 1) (by omega)] at hlt
      omega
    · refine ⟨i, Nat.le_refl _, fun k hk => ?_⟩
      rw [same k hk]
      cases hb : (σ j).buf t with
      | nil => rw [← same j hj]; exact hb
      | cons e b =>
        exfalso
        refine h ⟨_, Step.flush _ t e b hb, ?_⟩
        show (set (σ j).buf t b t).length < ((σ j).buf t).length
        rw [set_same, hb]; simp

/-- a release reaches memory -/
theorem released (hr : Run slot d σ) (hf : Fair slot σ) {i : Nat} {o : T} {g : S} (hu : Ent.unlock g ∈ (σ i).buf o)
    (hin : within slot ((σ i).pc o) = none) : ∃ j, i ≤ j ∧ (σ j).lk g = false := by
  by_contra hc
  have hlk : ∀ j, i ≤ j → (σ j).lk g = true := by
    intro j hj
    by_contra h
    exact hc ⟨j, hj, by simpa using h⟩
  have key : ∀ j, i ≤ j → Ent.unlock g ∈ (σ j).buf o ∧ within slot ((σ j).pc o) = none := by
    intro j hj
    induction hj with
    | refl => exact ⟨hu, hin⟩
    | @step j hj ih =>
      rcases hr.2 j with e | e
      · rw [e]; exact ih
      · refine ⟨?_, ?_⟩
        · rcases step_buf e o ih.2 with h | ⟨x, h, hl⟩
          · rw [h]; exact ih.1
          · have h0 := ih.1
            rw [h] at h0
            rcases List.mem_cons.1 h0 with h0 | h0
            · exfalso
              have h1 := hlk (j + 1) (Nat.le_succ_of_le hj)
              rw [hl, ← h0] at h1
              have : (if g = g then false else (σ j).lk g) = true := h1
              rw [if_pos rfl] at this
              cases this
            · exact h0
        · obtain ⟨-, h⟩ := step_pc e o
          rcases h with h | ⟨-, o', h⟩ | ⟨o', -, h, -⟩ | ⟨o', -, h⟩ | ⟨o', -, -, -, -, h⟩ | ⟨g', h, -⟩ | ⟨g', r, h, -⟩ | ⟨r, -, h⟩
          · rw [h]; exact ih.2
          · rw [h]; rfl
          · rw [h]; rfl
          · rw [h]; rfl
          · rw [h] at ih; cases ih.1
          · rw [ih.2] at h; cases h
          · rw [ih.2] at h; cases h
          · rw [h]; rfl
  obtain ⟨j, hj, h⟩ := drained hr hf _ i rfl (fun j hj => (key j hj).2)
  have := (key j hj).1
  rw [h j (Nat.le_refl _)] at this
  cases this

/-- a slot that is taken has somebody inside or a release on its way -/
theorem lock_cases {s : St S T A V n} (h : Reach slot d s) (g : S) :
    s.lk g = false ∨ (∃ t, within slot (s.pc t) = some g) ∨ ∃ t, within slot (s.pc t) = none ∧ Ent.unlock g ∈ s.buf t := by
  obtain ⟨-, abs, -, h⟩ := inv_reach h
  rcases h g with ⟨h1, -, -⟩ | ⟨-, o, -, h3⟩
  · exact .inl h1
  · obtain ⟨-, h4, h5⟩ := h3.place
    rcases h4 with h4 | h4
    · exact .inr (.inr ⟨o, h4, h5 h4⟩)
    · exact .inr (.inl ⟨o, h4⟩)

theorem step_lk {s s' : St S T A V n} (hs : Step slot s s') {g : S} (hl : s.lk g = false) :
    s'.lk g = false ∨ ∃ t, within slot (s'.pc t) = some g := by
  cases hs with
  | lock u o junk hp hb _ =>
    by_cases e : g = slot o.obj
    · right
      refine ⟨u, ?_⟩
      show within slot (set s.pc u _ u) = some g
      rw [set_same, within_enter, e]
    · left
      show (if g = slot o.obj then true else s.lk g) = false
      rw [if_neg e]; exact hl
  | flush u e b hb =>
    left
    cases e with
    | unlock g' =>
      show (if g = g' then false else s.lk g) = false
      split
      · rfl
      · exact hl
    | word a i v => exact hl
  | _ => left; exact hl

/-- waiting with operation `o` -/
def Waits (p : Pc A V n) (o : Op A V n) : Prop := p = .spin o ∨ p = .pause o

/-- outside, a waiting thread keeps waiting until it is inside -/
theorem waits (hr : Run slot d σ) {i : Nat} {t : T} {o : Op A V n} (hp : Waits ((σ i).pc t) o) {j : Nat} (hj : i ≤ j) :
    (∃ k, i ≤ k ∧ within slot ((σ k).pc t) = some (slot o.obj)) ∨ Waits ((σ j).pc t) o := by
  induction hj with
  | refl => exact Or.inr hp
  | @step j hj ih =>
    rcases ih with ih | ih
    · exact Or.inl ih
    rcases hr.2 j with e | e
    · rw [e]; exact Or.inr ih
    · obtain ⟨-, h⟩ := step_pc e t
      have inj : ∀ {p : Pc A V n}, (σ j).pc t = p → p = .spin o ∨ p = .pause o := fun e => by rw [← e]; exact ih
      rcases h with h | ⟨h, -⟩ | ⟨o', h0, h, -⟩ | ⟨o', h0, h⟩ | ⟨o', h0, h, -⟩ | ⟨g, h, -⟩ | ⟨g, r, h, -⟩ | ⟨r, h, -⟩
      · rw [h]; exact Or.inr ih
      · rcases inj h with h | h <;> cases h
      · rcases inj h0 with h1 | h1 <;> cases h1
        exact Or.inr (Or.inr h)
      · rcases inj h0 with h1 | h1 <;> cases h1
        exact Or.inr (Or.inl h)
      · rcases inj h0 with h1 | h1 <;> cases h1
        exact Or.inl ⟨j + 1, Nat.le_succ_of_le hj, h⟩
      · rcases ih with ih | ih <;> (rw [ih] at h; cases h)
      · rcases ih with ih | ih <;> (rw [ih] at h; cases h)
      · rcases inj h with h | h <;> cases h

/-- a free slot is taken as long as somebody waits for it -/
theorem taken (hr : Run slot d σ) (hf : Fair slot σ) {i : Nat} {t : T} {o : Op A V n} (hl : (σ i).lk (slot o.obj) = false)
    (hp : Waits ((σ i).pc t) o) : ∃ j u, i ≤ j ∧ within slot ((σ j).pc u) = some (slot o.obj) := by
  by_contra hc
  have hout : ∀ j, i ≤ j → ∀ u, within slot ((σ j).pc u) ≠ some (slot o.obj) := by
    intro j hj u h
    exact hc ⟨j, u, hj, h⟩
  have hlk : ∀ j, i ≤ j → (σ j).lk (slot o.obj) = false := by
    intro j hj
    induction hj with
    | refl => exact hl
    | @step j hj ih =>
      rcases hr.2 j with e | e
      · rw [e]; exact ih
      · rcases step_lk e ih with h | ⟨u, h⟩
        · exact h
        · exact absurd h (hout (j + 1) (Nat.le_succ_of_le hj) u)
  have hw : ∀ j, i ≤ j → Waits ((σ j).pc t) o := by
    intro j hj
    rcases waits hr hp hj with ⟨k, hk, h⟩ | h
    · exact absurd h (hout k hk t)
    · exact h
  obtain ⟨i', hi', hbuf⟩ := drained hr hf (t := t) _ i rfl (fun j hj => by
    rcases hw j hj with h | h <;> (rw [h]; rfl))
  have spin : ∀ j, i' ≤ j → (σ j).pc t = .spin o → False := by
    intro j hj hp
    obtain ⟨k, hk, h1, h2, h3⟩ := changes hr hf (t := t) (i := j) (fun k hk e => by
      refine ⟨_, Step.lock (σ k) t o (fun i => (σ k).data o.obj i) (by rw [e, hp]) (hbuf k (by omega)) (hlk k (by omega)), ?_, ?_⟩
      · rw [e, hp]; intro h; cases h
      · show set (σ k).pc t _ t ≠ (σ k).pc t
        rw [set_same, e, hp]; unfold Op.enter; split
        · intro h; cases h
        · split <;> (intro h; cases h))
    obtain ⟨-, h⟩ := step_pc h3 t
    rw [hp] at h1
    rcases h with h | ⟨h, -⟩ | ⟨o', h0, -, h⟩ | ⟨o', h, -⟩ | ⟨o', h0, h, -⟩ | ⟨g, h, -⟩ | ⟨g, r, h, -⟩ | ⟨r, h, -⟩
    · exact h2 h
    · rw [h1] at h; cases h
    · rw [h1] at h0; cases h0; rw [hlk k (by omega)] at h; cases h
    · rw [h1] at h; cases h
    · rw [h1] at h0; cases h0; exact hout (k + 1) (by omega) t h
    · rw [h1] at h; cases h
    · rw [h1] at h; cases h
    · rw [h1] at h; cases h
  rcases hw i' hi' with hp | hp
  · exact spin i' (Nat.le_refl _) hp
  · obtain ⟨k, hk, h1, h2, h3⟩ := changes hr hf (t := t) (i := i') (fun k hk e => by
      refine ⟨_, Step.retry (σ k) t o (by rw [e, hp]) (by rw [hbuf k hk]; exact hlk k (by omega)), ?_, ?_⟩
      · rw [e, hp]; intro h; cases h
      · show set (σ k).pc t _ t ≠ (σ k).pc t
        rw [set_same, e, hp]; intro h; cases h)
    rw [hp] at h1
    rcases hw (k + 1) (by omega) with h | h
    · exact spin (k + 1) (by omega) h
    · exact h2 (h.trans h1.symm)

theorem progress (hr : Run slot d σ) (hf : Fair slot σ) {i : Nat} {t : T} {o : Op A V n} (hp : busyWith ((σ i).pc t) = some o) :
    ∃ j, i ≤ j ∧ effectsOn slot (slot o.obj) (σ i).tr < effectsOn slot (slot o.obj) (σ j).tr := by
  have fin : ∀ {k : Nat} {u : T}, i ≤ k → within slot ((σ k).pc u) = some (slot o.obj) →
      ∃ j, i ≤ j ∧ effectsOn slot (slot o.obj) (σ i).tr < effectsOn slot (slot o.obj) (σ j).tr := by
    intro k u hk hin
    obtain ⟨j, hj, h⟩ := inside_done hr hf _ k rfl hin
    exact ⟨j, by omega, Nat.lt_of_le_of_lt (run_effects hr _ hk) h⟩
  have free : ∀ {k : Nat}, i ≤ k → (σ k).lk (slot o.obj) = false → Waits ((σ i).pc t) o →
      ∃ j, i ≤ j ∧ effectsOn slot (slot o.obj) (σ i).tr < effectsOn slot (slot o.obj) (σ j).tr := by
    intro k hk hl hp
    rcases waits hr hp hk with ⟨k', hk', h⟩ | h
    · exact fin hk' h
    · obtain ⟨j, u, hj, h⟩ := taken hr hf hl h
      exact fin (by omega) h
  have go : Waits ((σ i).pc t) o → ∃ j, i ≤ j ∧ effectsOn slot (slot o.obj) (σ i).tr < effectsOn slot (slot o.obj) (σ j).tr := by
    intro hw
    rcases lock_cases (run_reach hr i) (slot o.obj) with h | ⟨u, h⟩ | ⟨u, h1, h2⟩
    · exact free (Nat.le_refl _) h hw
    · exact fin (Nat.le_refl _) h
    · obtain ⟨j, hj, h'⟩ := released hr hf h2 h1
      exact free hj h' hw
  cases e : (σ i).pc t with
  | idle => rw [e] at hp; cases hp
  | fin r => rw [e] at hp; cases hp
  | spin o' => rw [e] at hp; cases hp; exact go (.inl e)
  | pause o' => rw [e] at hp; cases hp; exact go (.inr e)
  | copy o' k u => rw [e] at hp; cases hp; exact fin (u := t) (Nat.le_refl _) (by rw [e]; rfl)
  | write o' k u w => rw [e] at hp; cases hp; exact fin (u := t) (Nat.le_refl _) (by rw [e]; rfl)
  | leave o' u => rw [e] at hp; cases hp; exact fin (u := t) (Nat.le_refl _) (by rw [e]; rfl)

/-- busy with an object of slot `g` -/
def On (slot : A → S) (g : S) (p : Pc A V n) : Prop := ∃ o, busyWith p = some o ∧ slot o.obj = g

/-- who has to take effect was called -/
theorem effects_invoked (g : S) {s : St S T A V n} (h : Reach slot d s) :
    ∃ P : List T, P.Nodup ∧ (∀ t, t ∈ P ↔ On slot g (s.pc t)) ∧ effectsOn slot g s.tr + P.length = invokedOn slot g s.tr := by
  induction h with
  | init => exact ⟨[], List.nodup_nil, fun t => ⟨fun h => (by cases h), fun ⟨o, h, _⟩ => by cases h⟩, rfl⟩
  | @step s s' _ hs ih =>
    obtain ⟨P, hn, hP, he⟩ := ih
    -- a step that keeps who is busy
    have keep : ∀ {s' : St S T A V n} (u : T) (p : Pc A V n), s'.pc = set s.pc u p → (On slot g (s.pc u) ↔ On slot g p) →
        effectsOn slot g s'.tr = effectsOn slot g s.tr → invokedOn slot g s'.tr = invokedOn slot g s.tr →
        ∃ P : List T, P.Nodup ∧ (∀ t, t ∈ P ↔ On slot g (s'.pc t)) ∧ effectsOn slot g s'.tr + P.length = invokedOn slot g s'.tr := by
      intro s' u p h1 h2 h3 h4
      refine ⟨P, hn, fun t => ?_, by rw [h3, h4]; exact he⟩
      rw [hP, h1]
      by_cases hu : t = u
      · subst hu; rw [set_same]; exact h2
      · rw [set_other _ _ hu]
    -- by what it is busy with
    have same : ∀ {p q : Pc A V n}, busyWith p = busyWith q → (On slot g p ↔ On slot g q) := by
      intro p q h
      unfold On; rw [h]
    cases hs with
    | call u o hp =>
      have hu : u ∉ P := fun h => by
        obtain ⟨o, h, -⟩ := (hP u).1 h
        rw [hp] at h; cases h
      have ef : effectsOn slot g (s.tr ++ [.inv u o]) = effectsOn slot g s.tr := by
        rw [effectsOn_append]; rfl
      have iv : invokedOn slot g (s.tr ++ [.inv u o]) = invokedOn slot g s.tr + ((if slot o.obj = g then 1 else 0) + 0) := by
        rw [invokedOn_append]; rfl
      by_cases hg : slot o.obj = g
      · refine ⟨u :: P, List.nodup_cons.2 ⟨hu, hn⟩, fun t => ?_, ?_⟩
        · show _ ↔ On slot g (set s.pc u (Pc.spin o) t)
          rw [List.mem_cons, hP]
          by_cases hut : t = u
          · subst hut
            rw [set_same]
            exact ⟨fun _ => ⟨o, rfl, hg⟩, fun _ => Or.inl rfl⟩
          · rw [set_other _ _ hut]
            exact ⟨fun h => h.resolve_left hut, Or.inr⟩
        · show effectsOn slot g (s.tr ++ [.inv u o]) + _ = invokedOn slot g (s.tr ++ [.inv u o])
          rw [ef, iv, if_pos hg, List.length_cons]
          omega
      · refine keep u (.spin o) rfl ?_ ef (by rw [if_neg hg] at iv; exact iv)
        rw [hp]
        constructor
        · rintro ⟨o', h, -⟩; cases h
        · rintro ⟨o', h, h'⟩
          cases h
          exact absurd h' hg
    | lock u o junk hp hb hl => exact keep u (o.enter junk) rfl (same (by rw [hp, busy_enter]; rfl)) rfl rfl
    | busy u o hp hb hl => exact keep u (.pause o) rfl (same (by rw [hp]; rfl)) rfl rfl
    | waiting u o hp hv => exact ⟨P, hn, hP, he⟩
    | retry u o hp hv => exact keep u (.spin o) rfl (same (by rw [hp]; rfl)) rfl rfl
    | copy u o k v hk hp => exact keep u _ rfl (same (by rw [hp]; rfl)) rfl rfl
    | copied u o k v hp hk => exact keep u (o.copied v) rfl (same (by rw [hp, busy_copied]; rfl)) rfl rfl
    | write u o k v w hk hp => exact keep u _ rfl (same (by rw [hp]; rfl)) rfl rfl
    | written u o k v w hp hk => exact keep u _ rfl (same (by rw [hp]; rfl)) rfl rfl
    | leave u o v hp =>
      have ef : effectsOn slot g (s.tr ++ [.lin u o (o.res v)]) = effectsOn slot g s.tr + ((if slot o.obj = g then 1 else 0) + 0) := by
        rw [effectsOn_append]; rfl
      have iv : invokedOn slot g (s.tr ++ [.lin u o (o.res v)]) = invokedOn slot g s.tr := by
        rw [invokedOn_append]; rfl
      by_cases hg : slot o.obj = g
      · have hu : u ∈ P := (hP u).2 ⟨o, by rw [hp]; rfl, hg⟩
        refine ⟨P.erase u, hn.erase _, fun t => ?_, ?_⟩
        · rw [hn.mem_erase_iff, hP]
          show _ ↔ On slot g (set s.pc u (Pc.fin (o.res v)) t)
          by_cases hut : t = u
          · subst hut
            rw [set_same]
            refine ⟨fun h => absurd rfl h.1, ?_⟩
            rintro ⟨o', h, -⟩; cases h
          · rw [set_other _ _ hut]
            exact ⟨fun h => h.2, fun h => ⟨hut, h⟩⟩
        · show effectsOn slot g (s.tr ++ [.lin u o (o.res v)]) + _ = invokedOn slot g (s.tr ++ [.lin u o (o.res v)])
          have hpos := List.length_pos_of_mem hu
          rw [ef, iv, if_pos hg, List.length_erase_of_mem hu]
          omega
      · refine keep u (.fin (o.res v)) rfl ?_ (by rw [if_neg hg] at ef; exact ef) iv
        rw [hp]
        constructor
        · rintro ⟨o', h, h'⟩
          cases h
          exact absurd h' hg
        · rintro ⟨o', h, -⟩; cases h
    | ret u r hp =>
      refine keep u .idle rfl (same (by rw [hp]; rfl)) ?_ ?_
      · show effectsOn slot g (s.tr ++ _) = _
        rw [effectsOn_append]; rfl
      · show invokedOn slot g (s.tr ++ _) = _
        rw [invokedOn_append]; rfl
    | flush u e b hb => exact ⟨P, hn, hP, he⟩

/-- with finitely many calls for a slot every one of them returns -/
theorem returns (hr : Run slot d σ) (hf : Fair slot σ) {i : Nat} {t : T} {o : Op A V n} (hp : busyWith ((σ i).pc t) = some o) {B : Nat}
    (hB : ∀ i, invokedOn slot (slot o.obj) (σ i).tr ≤ B) : ∃ j, i ≤ j ∧ (σ j).pc t = .idle := by
  by_contra hc
  have hne : ∀ j, i ≤ j → (σ j).pc t ≠ .idle := fun j hj h => hc ⟨j, hj, h⟩
  -- never finished
  have hfin : ∀ j, i ≤ j → ∀ r, (σ j).pc t ≠ .fin r := by
    intro j hj r hp
    obtain ⟨k, hk, h1, h2, h3⟩ := changes hr hf (t := t) (i := j) (fun k hk e => by
      refine ⟨_, Step.ret (σ k) t r (by rw [e, hp]), hne k (by omega), ?_⟩
      show set (σ k).pc t _ t ≠ (σ k).pc t
      rw [set_same, e, hp]; intro h; cases h)
    rw [hp] at h1
    obtain ⟨-, h⟩ := step_pc h3 t
    rcases h with h | ⟨h, -⟩ | ⟨o, h, -⟩ | ⟨o, h, -⟩ | ⟨o, h, -⟩ | ⟨g, h, -⟩ | ⟨g, r, h, -⟩ | ⟨r, -, h⟩
    · exact h2 h
    · rw [h1] at h; cases h
    · rw [h1] at h; cases h
    · rw [h1] at h; cases h
    · rw [h1] at h; cases h
    · rw [h1] at h; cases h
    · rw [h1] at h; cases h
    · exact hne (k + 1) (by omega) h
  have still : ∀ j, i ≤ j → busyWith ((σ j).pc t) = some o := by
    intro j hj
    induction hj with
    | refl => exact hp
    | @step j hj ih =>
      rcases hr.2 j with e | e
      · rw [e]; exact ih
      · obtain ⟨-, h⟩ := step_pc e t
        rcases h with h | ⟨h, -⟩ | ⟨o', h0, h, -⟩ | ⟨o', h0, h⟩ | ⟨o', h0, -, h, -⟩ | ⟨g, -, -, h, -⟩ | ⟨g, r, -, h, -⟩ | ⟨r, h, -⟩
        · rw [h]; exact ih
        · rw [h] at ih; cases ih
        · rw [h]; rw [h0] at ih; exact ih
        · rw [h]; rw [h0] at ih; exact ih
        · rw [h]; rw [h0] at ih; exact ih
        · rw [h]; exact ih
        · exact absurd h (hfin (j + 1) (Nat.le_succ_of_le hj) r)
        · rw [h] at ih; cases ih
  have grow : ∀ m, ∃ j, i ≤ j ∧ m ≤ effectsOn slot (slot o.obj) (σ j).tr := by
    intro m
    induction m with
    | zero => exact ⟨i, Nat.le_refl _, Nat.zero_le _⟩
    | succ m ih =>
      obtain ⟨j, hj, h⟩ := ih
      obtain ⟨k, hk, h'⟩ := progress hr hf (i := j) (t := t) (still j hj)
      exact ⟨k, by omega, by omega⟩
  obtain ⟨j, -, h⟩ := grow (B + 1)
  obtain ⟨P, -, -, he⟩ := effects_invoked (slot o.obj) (run_reach hr j)
  have := hB j
  omega
end

end CE.SpinSlots
