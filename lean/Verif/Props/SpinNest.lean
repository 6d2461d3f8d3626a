import Verif.Spec.SpinNest
import Verif.Props.SpinSlots
import Mathlib.Algebra.BigOperators.Group.Finset.Basic
import Mathlib.Algebra.Order.BigOperators.Group.Finset
import Mathlib.Data.Fintype.Basic
/-!
# Atomics used inside the operators of atomics (C131)
-/
namespace CE.SpinNest
open CE.SpinSlots (index)

variable {S T : Type} [DecidableEq S] [DecidableEq T]

/-- who has what: inside, or with the release on its way -/
def Inv (may : S → S → Prop) (s : St S T) : Prop :=
  ∃ held : T → List S, (∀ t, Nested may (held t) (s.code t)) ∧ (∀ t, (held t ++ s.buf t).Nodup) ∧
    (∀ t u g, g ∈ held t ++ s.buf t → g ∈ held u ++ s.buf u → t = u) ∧ ∀ g, s.lk g = true ↔ ∃ t, g ∈ held t ++ s.buf t

omit [DecidableEq S] in
theorem Nested.take_inv {may : S → S → Prop} {held : List S} {g p} (h : Nested may held (.take g :: p)) :
    (∀ h ∈ held, may h g) ∧ Nested may (g :: held) p := by
  cases h with
  | take a b => exact ⟨a, b⟩

omit [DecidableEq S] in
theorem Nested.give_inv {may : S → S → Prop} {held : List S} {g p} (h : Nested may held (.give g :: p)) :
    ∃ held', held = g :: held' ∧ Nested may held' p := by
  cases h with
  | give b => exact ⟨_, rfl, b⟩

theorem inv_step {may : S → S → Prop} {s s' : St S T} (h : Inv may s) (hs : Step s s') : Inv may s' := by
  obtain ⟨held, h1, h2, h3, h4⟩ := h
  cases hs with
  | take t g p hc hb hl =>
    have free : ∀ u, g ∉ held u ++ s.buf u := fun u hu => by
      have := (h4 g).2 ⟨u, hu⟩
      rw [hl] at this; cases this
    have hn := h1 t
    rw [hc] at hn
    obtain ⟨-, hn⟩ := hn.take_inv
    have mem : ∀ u x, x ∈ (if u = t then g :: held t else held u) ++ s.buf u ↔ (u = t ∧ x = g) ∨ x ∈ held u ++ s.buf u := by
      intro u x
      by_cases e : u = t
      · subst e; rw [if_pos rfl]; simp
      · rw [if_neg e]; simp [e]
    refine ⟨fun u => if u = t then g :: held t else held u, fun u => ?_, fun u => ?_, fun u v x hu hv => ?_, fun x => ?_⟩
    · by_cases e : u = t
      · simp only [e, if_true]; exact hn
      · simp only [e, if_false]; exact h1 u
    · by_cases e : u = t
      · subst e; simp only [if_true]; exact List.nodup_cons.2 ⟨free u, h2 u⟩
      · simp only [e, if_false]; exact h2 u
    · rcases (mem u x).1 hu with ⟨e, f⟩ | hu <;> rcases (mem v x).1 hv with ⟨e', f'⟩ | hv
      · rw [e, e']
      · rw [f] at hv; exact absurd hv (free v)
      · rw [f'] at hu; exact absurd hu (free u)
      · exact h3 _ _ _ hu hv
    · show (if x = g then true else s.lk x) = true ↔ ∃ u, x ∈ (if u = t then g :: held t else held u) ++ s.buf u
      by_cases e : x = g
      · rw [if_pos e]
        exact ⟨fun _ => ⟨t, (mem t x).2 (.inl ⟨rfl, e⟩)⟩, fun _ => rfl⟩
      · rw [if_neg e, h4 x]
        constructor
        · rintro ⟨u, hu⟩
          exact ⟨u, (mem u x).2 (.inr hu)⟩
        · rintro ⟨u, hu⟩
          rcases (mem u x).1 hu with ⟨-, f⟩ | hu
          · exact absurd f e
          · exact ⟨u, hu⟩
  | give t g p hc =>
    have hn := h1 t
    rw [hc] at hn
    obtain ⟨held', hh, hn⟩ := hn.give_inv
    have mem : ∀ u x, x ∈ (if u = t then held' else held u) ++ (if u = t then s.buf t ++ [g] else s.buf u) ↔ x ∈ held u ++ s.buf u := by
      intro u x
      by_cases e : u = t
      · subst e; rw [if_pos rfl, if_pos rfl, hh]
        simp only [List.mem_append, List.mem_cons, List.not_mem_nil, or_false]
        tauto
      · rw [if_neg e, if_neg e]
    refine ⟨fun u => if u = t then held' else held u, fun u => ?_, fun u => ?_, fun u v x hu hv => ?_, fun x => ?_⟩
    · by_cases e : u = t
      · simp only [e, if_true]; exact hn
      · simp only [e, if_false]; exact h1 u
    · by_cases e : u = t
      · subst e
        simp only [if_true]
        have := h2 u
        rw [hh] at this
        have perm : (held' ++ (s.buf u ++ [g])).Perm (g :: held' ++ s.buf u) := by
          rw [← List.append_assoc]
          exact List.perm_append_singleton g _
        exact perm.nodup_iff.2 this
      · simp only [e, if_false]; exact h2 u
    · exact h3 _ _ _ ((mem u x).1 hu) ((mem v x).1 hv)
    · show s.lk x = true ↔ ∃ u, x ∈ (if u = t then held' else held u) ++ (if u = t then s.buf t ++ [g] else s.buf u)
      rw [h4 x]
      exact exists_congr fun u => (mem u x).symm
  | flush t g b hb =>
    have nd := h2 t
    rw [hb] at nd
    have out : g ∉ held t ++ b := by
      have : (g :: (held t ++ b)).Nodup := List.perm_middle.nodup_iff.1 nd
      exact (List.nodup_cons.1 this).1
    have sub : ∀ u x, x ∈ held u ++ (if u = t then b else s.buf u) → x ∈ held u ++ s.buf u := by
      intro u x hx
      by_cases e : u = t
      · subst e
        rw [if_pos rfl] at hx
        rw [hb]
        rcases List.mem_append.1 hx with hx | hx
        · exact List.mem_append_left _ hx
        · exact List.mem_append_right _ (List.mem_cons_of_mem _ hx)
      · rwa [if_neg e] at hx
    have gt : g ∈ held t ++ s.buf t := by rw [hb]; simp
    refine ⟨held, h1, fun u => ?_, fun u v x hu hv => h3 _ _ _ (sub u x hu) (sub v x hv), fun x => ?_⟩
    · show (held u ++ (if u = t then b else s.buf u)).Nodup
      by_cases e : u = t
      · subst e
        rw [if_pos rfl]
        have : (g :: (held u ++ b)).Nodup := List.perm_middle.nodup_iff.1 nd
        exact (List.nodup_cons.1 this).2
      · rw [if_neg e]; exact h2 u
    · show (if x = g then false else s.lk x) = true ↔ ∃ u, x ∈ held u ++ (if u = t then b else s.buf u)
      by_cases e : x = g
      · rw [if_pos e]
        refine ⟨fun h => (by cases h), ?_⟩
        rintro ⟨u, hu⟩
        exfalso
        rw [e] at hu
        have ut := h3 _ _ _ (sub u g hu) gt
        subst ut
        rw [if_pos rfl] at hu
        exact out hu
      · rw [if_neg e, h4 x]
        constructor
        · rintro ⟨u, hu⟩
          refine ⟨u, ?_⟩
          by_cases f : u = t
          · subst f
            rw [if_pos rfl]
            rw [hb] at hu
            simp only [List.mem_append, List.mem_cons, e, false_or] at hu ⊢
            exact hu
          · rwa [if_neg f]
        · rintro ⟨u, hu⟩
          exact ⟨u, sub u x hu⟩

theorem inv_reach {may : S → S → Prop} {prog : T → List (Ins S)} (hp : ∀ t, Nested may [] (prog t)) {s : St S T}
    (h : Reach prog s) : Inv may s := by
  induction h with
  | init => exact ⟨fun _ => [], hp, fun _ => List.nodup_nil, fun t u g h => (by cases h), fun g => ⟨fun h => (by cases h), fun ⟨_, h⟩ => by cases h⟩⟩
  | step _ hs ih => exact inv_step ih hs

omit [DecidableEq S] in
theorem Nested.nil_inv {may : S → S → Prop} {held : List S} (h : Nested may held []) : held = [] := by
  cases h; rfl

/-- C131.  Whatever the operators do: a slot is given back, and its release reaches memory, only while it is taken, by the one thread
that has it; and when all threads are done and their stores are in memory every slot is free. -/
theorem C131_free {prog : T → List (Ins S)} (hp : ∀ t, Nested (fun _ _ => True) [] (prog t)) {s : St S T} (h : Reach prog s) :
    (∀ t g p, s.code t = .give g :: p → s.lk g = true ∧ ∀ u, g ∉ s.buf u) ∧
    (∀ t g, g ∈ s.buf t → s.lk g = true ∧ (s.buf t).count g = 1 ∧ ∀ u, g ∈ s.buf u → u = t) ∧
    ((∀ t, s.code t = [] ∧ s.buf t = []) → ∀ g, s.lk g = false) := by
  obtain ⟨held, h1, h2, h3, h4⟩ := inv_reach hp h
  refine ⟨fun t g p hc => ?_, fun t g hg => ⟨(h4 g).2 ⟨t, List.mem_append_right _ hg⟩, ?_, fun u hu => ?_⟩, fun hd g => ?_⟩
  · have hn := h1 t
    rw [hc] at hn
    obtain ⟨held', hh, -⟩ := hn.give_inv
    have hm : g ∈ held t ++ s.buf t := by rw [hh]; simp
    refine ⟨(h4 g).2 ⟨t, hm⟩, fun u hu => ?_⟩
    have e := h3 u t g (List.mem_append_right _ hu) hm
    subst e
    have nd := h2 u
    rw [hh] at nd
    exact (List.nodup_cons.1 nd).1 (List.mem_append_right _ hu)
  · exact List.count_eq_one_of_mem (List.Nodup.of_append_right (h2 t)) hg
  · exact h3 u t g (List.mem_append_right _ hu) (List.mem_append_right _ hg)
  · by_contra hl
    obtain ⟨t, ht⟩ := (h4 g).1 (by simpa using hl)
    have hn := h1 t
    rw [(hd t).1] at hn
    rw [(hd t).2, hn.nil_inv] at ht
    cases ht

/-- C131.  When the slots are taken in ascending order there is no deadlock: as long as a thread is not done, some thread or store
buffer gets on. -/
theorem C131_ordered_partial {prog : T → List (Ins (Fin 256))} (hp : ∀ t, Nested (· < ·) [] (prog t)) {s : St (Fin 256) T}
    (h : Reach prog s) {t : T} (ht : s.code t ≠ []) : ∃ s', Step s s' := by
  obtain ⟨held, h1, -, -, h4⟩ := inv_reach hp h
  -- a buffer with something in it
  have drain : ∀ u, s.buf u ≠ [] → ∃ s', Step s s' := by
    intro u hu
    cases hb : s.buf u with
    | nil => exact absurd hb hu
    | cons g b => exact ⟨_, .flush s u g b hb⟩
  -- a thread that waits for `g`, by induction on the slots above
  have wait : ∀ k (g : Fin 256) (t : T) p, 256 - g.1 ≤ k → s.code t = .take g :: p → ∃ s', Step s s' := by
    intro k
    induction k with
    | zero => intro g _ _ hk; have := g.2; omega
    | succ k ih =>
      intro g t p hk hc
      by_cases hb : s.buf t = []
      · by_cases hl : s.lk g = false
        · exact ⟨_, .take s t g p hc hb hl⟩
        · obtain ⟨u, hu⟩ := (h4 g).1 (by simpa using hl)
          rcases List.mem_append.1 hu with hu | hu
          · have hn := h1 u
            cases hcu : s.code u with
            | nil =>
              rw [hcu] at hn
              rw [hn.nil_inv] at hu
              cases hu
            | cons i q =>
              rw [hcu] at hn
              cases i with
              | give g' => exact ⟨_, .give s u g' q hcu⟩
              | take g' =>
                have : g < g' := hn.take_inv.1 g hu
                have : g.1 < g'.1 := this
                exact ih g' u q (by omega) hcu
          · exact drain u fun e => by rw [e] at hu; cases hu
      · exact drain t hb
  cases hc : s.code t with
  | nil => exact absurd hc ht
  | cons i p =>
    cases i with
    | give g => exact ⟨_, .give s t g p hc⟩
    | take g => exact wait _ g t p (le_refl _) hc

/-- how much is left to do -/
def left [Fintype T] (s : St S T) : Nat := ∑ t, (2 * (s.code t).length + (s.buf t).length)

omit [DecidableEq S] in
theorem left_change [Fintype T] {s s' : St S T} (t : T) (ho : ∀ u, u ≠ t → s'.code u = s.code u ∧ s'.buf u = s.buf u)
    (ht : 2 * (s'.code t).length + (s'.buf t).length < 2 * (s.code t).length + (s.buf t).length) : left s' < left s := by
  unfold left
  rw [← Finset.add_sum_erase _ _ (Finset.mem_univ t), ← Finset.add_sum_erase _ (fun u => 2 * (s.code u).length + (s.buf u).length) (Finset.mem_univ t)]
  have e : ∑ u ∈ Finset.univ.erase t, (2 * (s'.code u).length + (s'.buf u).length) =
      ∑ u ∈ Finset.univ.erase t, (2 * (s.code u).length + (s.buf u).length) := by
    refine Finset.sum_congr rfl fun u hu => ?_
    rw [(ho u (Finset.ne_of_mem_erase hu)).1, (ho u (Finset.ne_of_mem_erase hu)).2]
  rw [e]
  exact Nat.add_lt_add_right ht _

theorem left_step [Fintype T] {s s' : St S T} (h : Step s s') : left s' < left s := by
  cases h with
  | take t g p hc hb _ =>
    refine left_change t (fun u hu => ⟨if_neg hu, rfl⟩) ?_
    show 2 * (if t = t then p else s.code t).length + (s.buf t).length < _
    rw [if_pos rfl, hc, List.length_cons]
    omega
  | give t g p hc =>
    refine left_change t (fun u hu => ⟨if_neg hu, if_neg hu⟩) ?_
    show 2 * (if t = t then p else s.code t).length + (if t = t then s.buf t ++ [g] else s.buf t).length < _
    rw [if_pos rfl, if_pos rfl, hc, List.length_cons, List.length_append, List.length_singleton]
    omega
  | flush t g b hb =>
    refine left_change t (fun u hu => ⟨rfl, if_neg hu⟩) ?_
    show 2 * (s.code t).length + (if t = t then b else s.buf t).length < _
    rw [if_pos rfl, hb, List.length_cons]
    omega

/-- C131.  So with finitely many threads every run comes to its end, and there all threads are done and all slots free. -/
theorem C131_ends_partial [Fintype T] {prog : T → List (Ins (Fin 256))} (hp : ∀ t, Nested (· < ·) [] (prog t)) :
    (¬ ∃ σ : Nat → St (Fin 256) T, Reach prog (σ 0) ∧ ∀ i, Step (σ i) (σ (i + 1))) ∧
    ∀ s, Reach prog s → (¬ ∃ s', Step s s') → (∀ t, s.code t = [] ∧ s.buf t = []) ∧ ∀ g, s.lk g = false := by
  constructor
  · rintro ⟨σ, -, h⟩
    have : ∀ i, left (σ i) + i ≤ left (σ 0) := by
      intro i
      induction i with
      | zero => exact le_refl _
      | succ i ih => have := left_step (h i); omega
    have := this (left (σ 0) + 1)
    omega
  · intro s hr hn
    have hd : ∀ t, s.code t = [] ∧ s.buf t = [] := by
      intro t
      constructor
      · by_contra hc
        exact hn (C131_ordered_partial hp hr hc)
      · cases hb : s.buf t with
        | nil => rfl
        | cons g b => exact absurd ⟨_, .flush s t g b hb⟩ hn
    refine ⟨hd, (C131_free (fun t => ?_) hr).2.2 hd⟩
    have mono : ∀ {held : List (Fin 256)} {p}, Nested (· < ·) held p → Nested (fun _ _ => True) held p := by
      intro held p h
      induction h with
      | done => exact .done
      | take _ _ ih => exact .take (fun _ _ => trivial) ih
      | give _ ih => exact .give ih
    exact mono (hp t)

/-- C131 is false of the code: an operator that uses an atomic 2048 bytes away waits for ever for the lock its own thread has. -/
theorem C131_self_false (a : Nat) : index 8 a = index 8 (a + 2048) ∧
    ∃ s : St Nat Unit, Reach (fun _ => [.take (index 8 a), .take (index 8 (a + 2048)), .give (index 8 (a + 2048)), .give (index 8 a)]) s ∧
      s.code () ≠ [] ∧ ¬ ∃ s', Step s s' := by
  have e : index 8 a = index 8 (a + 2048) := (CE.SpinSlots.C60_index 8 a (a + 2048)).2.2 (by omega)
  rw [← e]
  refine ⟨rfl, _, Reach.init.step (.take _ () (index 8 a) _ rfl rfl rfl), by simp, ?_⟩
  rintro ⟨s', h⟩
  cases h with
  | take t g p hc hb hl =>
    simp only [if_true, List.cons.injEq, Ins.take.injEq] at hc
    rw [← hc.1] at hl
    simp at hl
  | give t g p hc => simp at hc
  | flush t g b hb => simp at hb

/-- C131 is false of the code: two threads whose operators use each other's slot wait for each other for ever. -/
theorem C131_cross_false : ∃ s : St (Fin 256) Bool,
    Reach (fun t => if t then [.take 0, .take 1, .give 1, .give 0] else [.take 1, .take 0, .give 0, .give 1]) s ∧
      (∀ t, s.code t ≠ []) ∧ ¬ ∃ s', Step s s' := by
  refine ⟨_, (Reach.init.step (.take _ true 0 _ rfl rfl rfl)).step (.take _ false 1 _ rfl rfl rfl), by simp, ?_⟩
  rintro ⟨s', h⟩
  cases h with
  | take t g p hc hb hl =>
    cases t
    · simp only [if_true, List.cons.injEq, Ins.take.injEq] at hc
      rw [← hc.1] at hl
      simp at hl
    · simp only [reduceCtorEq, if_false, if_true, List.cons.injEq, Ins.take.injEq] at hc
      rw [← hc.1] at hl
      simp at hl
  | give t g p hc => cases t <;> simp at hc
  | flush t g b hb => simp at hb

/-- two threads with a section inside a section, in order -/
example : ∀ t : Bool, Nested (· < ·) [] (if t then [Ins.take (0 : Fin 256), .take 1, .give 1, .give 0] else [.take 1, .take 2, .give 2, .give 1]) := by
  intro t
  cases t
  · exact .take (by simp) (.take (by simp) (.give (.give .done)))
  · exact .take (by simp) (.take (by simp) (.give (.give .done)))

end CE.SpinNest
