import Verif.Spec.Atomic
import Mathlib.Tactic.Ring
/-!
# Atomic operations: invariants
-/
namespace CE.Atomic
open CE.Linear

section
variable {T A V L : Type} [DecidableEq T] [DecidableEq A] [DecidableEq V] [DecidableEq L]

theorem calls_append (a b : List (Lab T A V L)) : calls (a ++ b) = calls a ++ calls b := by
  induction a with
  | nil => rfl
  | cons e a ih => cases e <;> simp [calls, ih]

theorem vain_append (t : T) (a b : List (Lab T A V L)) : vain t (a ++ b) = vain t a + vain t b := by
  induction a with
  | nil => simp [vain]
  | cons e a ih => cases e <;> simp [vain, ih] <;> omega

theorem others_append (t : T) (a b : List (Lab T A V L)) : others t (a ++ b) = others t a + others t b := by
  induction a with
  | nil => simp [others]
  | cons e a ih =>
    cases e with
    | op e => cases e <;> simp [others, ih] <;> omega
    | _ => simp [others, ih]

/-- the phase of a thread -/
def phase : Pc A V → Phase (Op A V) (Res V)
  | .idle => .idle
  | .start o => .called o
  | .loop a f _ => .called (.fetch a f)
  | .fin r => .done r

/-- invariant -/
def Inv (d : A → V) (l : List (Lab T A V L)) (s : St T A V L) : Prop :=
  Replay meaning d (calls l) s.at' ∧ ∀ t, Proto t (calls l) (phase (s.pc t))

theorem single_eq (o : Op A V) (c : A → V) :
    meaning o c = (put c o.obj (single o (c o.obj)).1, (single o (c o.obj)).2) := by
  cases o with
  | load a =>
    simp only [meaning, single, Op.obj, Prod.mk.injEq, and_true]
    funext b; unfold put; split
    · next h => rw [h]
    · rfl
  | store a v => rfl
  | exchange a v => rfl
  | fetch a f => rfl
  | cas a e v =>
    by_cases h : c a = e
    · have h1 : meaning (.cas a e v) c = (fun b => if b = a then v else c b, .cas true e) := if_pos h
      have h2 : single (.cas a e v) (c a) = (v, .cas true e) := by simp [single, cmpxchg, h]
      rw [h1]; show _ = (put c a (single (.cas a e v) (c a)).1, (single (.cas a e v) (c a)).2)
      rw [h2]; rfl
    · have h1 : meaning (.cas a e v) c = (c, .cas false (c a)) := if_neg h
      have h2 : single (.cas a e v) (c a) = (c a, .cas false (c a)) := by simp [single, cmpxchg, h]
      rw [h1]; show _ = (put c a (single (.cas a e v) (c a)).1, (single (.cas a e v) (c a)).2)
      rw [h2]
      simp only [Prod.mk.injEq, and_true]
      funext b; unfold put; split
      · next h => rw [h]
      · rfl

theorem phase_put {s : St T A V L} {t : T} {p : Pc A V} {t' : T} (h : t' ≠ t) : put s.pc t p t' = s.pc t' := by
  simp [put, h]

theorem phase_same {s : St T A V L} {t : T} {p : Pc A V} : put s.pc t p t = p := by simp [put]

theorem inv_step {d : A → V} {l : List (Lab T A V L)} {s s' : St T A V L} {e : Lab T A V L} (h : Inv d l s)
    (hs : Step s e s') : Inv d (l ++ [e]) s' := by
  unfold Inv
  rw [calls_append]
  cases hs with
  | write t x v hp => exact ⟨by simpa [calls] using h.1, fun t' => by simpa [calls] using h.2 t'⟩
  | read t x hp => exact ⟨by simpa [calls] using h.1, fun t' => by simpa [calls] using h.2 t'⟩
  | flush t e b hb => exact ⟨by simpa [calls] using h.1, fun t' => by simpa [calls] using h.2 t'⟩
  | call t o hp =>
    refine ⟨Replay.inv h.1, fun t' => ?_⟩
    by_cases ht : t' = t
    · subst ht
      show Proto t' _ (phase (put s.pc t' _ t'))
      rw [phase_same]
      have := h.2 t'; rw [hp] at this
      exact Proto.inv this
    · show Proto t' _ (phase (put s.pc t _ t'))
      rw [phase_put ht]; exact Proto.other (fun h => ht h.symm) (h.2 t')
  | single t o hp hb =>
    refine ⟨?_, fun t' => ?_⟩
    · have := Replay.lin (t := t) (o := o) h.1
      rw [single_eq] at this
      exact this
    by_cases ht : t' = t
    · subst ht
      show Proto t' _ (phase (put s.pc t' _ t'))
      rw [phase_same]
      have := h.2 t'; rw [hp] at this
      exact Proto.lin this
    · show Proto t' _ (phase (put s.pc t _ t'))
      rw [phase_put ht]; exact Proto.other (fun h => ht h.symm) (h.2 t')
  | enter t a f hp =>
    refine ⟨by simpa [calls] using h.1, fun t' => ?_⟩
    simp only [calls, List.append_nil]
    by_cases ht : t' = t
    · subst ht
      rw [phase_same]
      have := h.2 t'; rw [hp] at this
      exact this
    · rw [phase_put ht]; exact h.2 t'
  | done t a f b hp hb hc =>
    have e : s.at' a = b := hc
    refine ⟨?_, fun t' => ?_⟩
    · have := Replay.lin (t := t) (o := .fetch a f) h.1
      simp only [cmpxchg, e, if_true, calls]
      rw [single_eq] at this
      simpa [single, Op.obj, e] using this
    by_cases ht : t' = t
    · subst ht
      show Proto t' _ (phase (put s.pc t' _ t'))
      rw [phase_same]
      have := h.2 t'; rw [hp] at this
      exact Proto.lin this
    · show Proto t' _ (phase (put s.pc t _ t'))
      rw [phase_put ht]; exact Proto.other (fun h => ht h.symm) (h.2 t')
  | again t a f b hp hb hc =>
    have e : ¬ s.at' a = b := hc
    have e' : put s.at' a (cmpxchg (s.at' a) (f b) b).2 = s.at' := by
      funext b'
      simp only [cmpxchg, if_neg e, put]; split
      · next h => rw [h]
      · rfl
    refine ⟨by simpa [calls, e'] using h.1, fun t' => ?_⟩
    simp only [calls, List.append_nil]
    by_cases ht : t' = t
    · subst ht
      rw [phase_same]
      have := h.2 t'; rw [hp] at this
      exact this
    · rw [phase_put ht]; exact h.2 t'
  | ret t r hp =>
    refine ⟨Replay.ret h.1, fun t' => ?_⟩
    by_cases ht : t' = t
    · subst ht
      show Proto t' _ (phase (put s.pc t' _ t'))
      rw [phase_same]
      have := h.2 t'; rw [hp] at this
      exact Proto.ret this
    · show Proto t' _ (phase (put s.pc t _ t'))
      rw [phase_put ht]; exact Proto.other (fun h => ht h.symm) (h.2 t')

theorem inv_exec {d : A → V} {m : L → V} {l : List (Lab T A V L)} {s : St T A V L}
    (h : Exec (St.init d m) l s) : Inv d l s := by
  induction h with
  | nil => exact ⟨Replay.nil, fun t => Proto.nil⟩
  | snoc _ hs ih => exact inv_step ih hs

/-! ## rounds in vain -/

/-- thread `t` is in a loop and will fail -/
def lost (s : St T A V L) (t : T) : Nat :=
  match s.pc t with
  | .loop a _ b => if s.at' a = b then 0 else 1
  | _ => 0

theorem lost_le (s : St T A V L) (t : T) : lost s t ≤ 1 := by
  unfold lost; split
  · split <;> omega
  · omega

theorem lost_step {s s' : St T A V L} {e : Lab T A V L} (hs : Step s e s') (t : T) :
    vain t [e] + lost s' t ≤ others t [e] + lost s t := by
  have key : ∀ {u : T} {p : Pc A V}, u ≠ t → put s.pc u p t = s.pc t := fun h => by simp [put, Ne.symm h]
  cases hs with
  | write u x v hp => exact Nat.le_refl _
  | read u x hp => simp [vain, others]
  | flush u e b hb => exact Nat.le_refl _
  | call u o hp =>
    simp only [vain, others, lost]
    by_cases hu : u = t
    · subst hu; simp [put]
    · rw [key hu]
  | single u o hp hb =>
    by_cases hu : u = t
    · subst hu; simp [vain, others, lost, put]
    · have := lost_le { s with at' := put s.at' o.obj (single o (s.at' o.obj)).1, pc := put s.pc u (.fin (single o (s.at' o.obj)).2) } t
      simp only [vain, others, if_neg hu]; omega
  | enter u a f hp =>
    simp only [vain, others, lost]
    by_cases hu : u = t
    · subst hu; simp [put]
    · rw [key hu]
  | done u a f b hp hb hc =>
    by_cases hu : u = t
    · subst hu; simp [vain, others, lost, put]
    · have := lost_le { s with at' := put s.at' a (cmpxchg (s.at' a) (f b) b).2,
                               pc := put s.pc u (.fin (.val (cmpxchg (s.at' a) (f b) b).1)) } t
      simp only [vain, others, if_neg hu]; omega
  | again u a f b hp hb hc =>
    have e : ¬ s.at' a = b := hc
    by_cases hu : u = t
    · subst hu
      simp [vain, others, lost, put, hp, e, cmpxchg]
    · simp only [vain, others, lost, if_neg hu, key hu]
      have e' : put s.at' a (cmpxchg (s.at' a) (f b) b).2 = s.at' := by
        funext b'
        simp only [cmpxchg, if_neg e, put]; split
        · next h => rw [h]
        · rfl
      rw [e']
  | ret u r hp =>
    simp only [vain, others, lost]
    by_cases hu : u = t
    · subst hu; simp [put]
    · rw [key hu]

theorem lost_exec {s s' : St T A V L} {l : List (Lab T A V L)} (h : Exec s l s') (t : T) :
    vain t l + lost s' t ≤ others t l + lost s t := by
  induction h with
  | nil => exact Nat.le_refl _
  | snoc _ hs ih =>
    rw [vain_append, others_append]
    have := lost_step hs t
    omega

/-! ## plain variables -/

theorem Exec.trans {s s' s'' : St T A V L} {l l' : List (Lab T A V L)} (h : Exec s l s') (h' : Exec s' l' s'') :
    Exec s (l ++ l') s'' := by
  induction h' with
  | nil => simpa using h
  | snoc _ hs ih => rw [← List.append_assoc]; exact Exec.snoc ih hs

theorem Exec.split {s s'' : St T A V L} {l l' : List (Lab T A V L)} (h : Exec s (l ++ l') s'') :
    ∃ s', Exec s l s' ∧ Exec s' l' s'' := by
  generalize hL : l ++ l' = L' at h
  induction h generalizing l' with
  | nil =>
    obtain ⟨rfl, rfl⟩ := List.append_eq_nil_iff.1 hL
    exact ⟨_, Exec.nil, Exec.nil⟩
  | @snoc k s1 e s2 h hs ih =>
    rcases List.eq_nil_or_concat l' with rfl | ⟨r, b, rfl⟩
    · exact ⟨_, by rw [List.append_nil] at hL; rw [hL]; exact Exec.snoc h hs, Exec.nil⟩
    · rw [List.concat_eq_append, ← List.append_assoc] at hL
      rw [List.concat_eq_append]
      obtain ⟨h1, h2⟩ := List.append_inj' hL rfl
      obtain ⟨s', a, b'⟩ := ih h1
      cases h2
      exact ⟨s', a, Exec.snoc b' hs⟩

theorem Exec.one {s s' : St T A V L} {e : Lab T A V L} (h : Exec s [e] s') : Step s e s' := by
  generalize hl : [e] = l at h
  cases h with
  | nil => cases hl
  | @snoc k s1 e' _ h hs =>
    cases k with
    | nil =>
      cases hl
      generalize hn : ([] : List (Lab T A V L)) = n at h
      cases h with
      | nil => exact hs
      | @snoc k _ _ _ _ _ => cases k <;> cases hn
    | cons a k => cases k <;> cases hl

/-- the values of a variable in a buffer -/
def pend (x : L) (b : List (L × V)) : List V := (b.filter (fun e => e.1 = x)).map (·.2)

theorem pend_append (x : L) (a b : List (L × V)) : pend x (a ++ b) = pend x a ++ pend x b := by simp [pend]

theorem view_not {x : L} {b : List (L × V)} : ∀ {mem : L → V}, view mem b x = (mem x :: pend x b).getLast (by simp) := by
  induction b with
  | nil => intro mem; rfl
  | cons e b ih =>
    intro mem
    have : view mem (e :: b) = view (put mem e.1 e.2) b := rfl
    rw [this, ih]
    by_cases h : e.1 = x
    · simp [pend, put, h]
    · simp [pend, put, h, Ne.symm h]

/-- all that threads other than `t` have in their buffers leaves `x` alone, and what is in memory or in the buffer of `t`
for `x` is in `S` -/
structure Held (S : V → Prop) (t : T) (x : L) (s : St T A V L) : Prop where
  others : ∀ u, u ≠ t → pend x (s.buf u) = []
  mem : S (s.mem x)
  mine : ∀ v ∈ pend x (s.buf t), S v

theorem held_step {S : V → Prop} {t : T} {x : L} {s s' : St T A V L} {e : Lab T A V L} (h : Held S t x s)
    (hs : Step s e s') (hw : ∀ u v, e = .write u x v → u = t ∧ S v) : Held S t x s' := by
  cases hs with
  | write u y v hp =>
    by_cases hy : y = x
    · subst hy
      obtain ⟨rfl, hv⟩ := hw u v rfl
      refine ⟨fun u' hu' => ?_, h.mem, ?_⟩
      · simpa [put, hu'] using h.others u' hu'
      · intro v' hv'
        simp only [put, if_true, pend_append, List.mem_append] at hv'
        rcases hv' with hv' | hv'
        · exact h.mine v' hv'
        · simp only [pend, List.filter_cons, decide_true, if_true, List.filter_nil, List.map_cons, List.map_nil,
            List.mem_singleton] at hv'
          rw [hv']; exact hv
    · have e' : ∀ u', pend x (put s.buf u (s.buf u ++ [(y, v)]) u') = pend x (s.buf u') := by
        intro u'
        by_cases hu : u' = u
        · subst hu; simp [put, pend_append]; simp [pend, hy]
        · simp [put, hu]
      exact ⟨fun u' hu' => by rw [e']; exact h.others u' hu', h.mem, fun v' hv' => h.mine v' (by rwa [e'] at hv')⟩
  | read u y hp => exact h
  | flush u e b hb =>
    by_cases hx : e.1 = x
    · have hu : u = t := by
        by_contra hc
        have := h.others u hc
        rw [hb] at this; simp [pend, hx] at this
      subst hu
      refine ⟨fun u' hu' => ?_, ?_, fun v' hv' => ?_⟩
      · simpa [put, hu'] using h.others u' hu'
      · simp only [put, hx, if_true]
        exact h.mine e.2 (by rw [hb]; simp [pend, hx])
      · simp only [put, if_true] at hv'
        exact h.mine v' (by rw [hb]; simp only [pend, List.filter_cons, hx, decide_true, if_true, List.map_cons]; exact List.mem_cons_of_mem _ hv')
    · have e' : ∀ u', pend x (put s.buf u b u') = pend x (s.buf u') := by
        intro u'
        by_cases hu : u' = u
        · subst hu; rw [hb]; simp [put, pend, hx]
        · simp [put, hu]
      exact ⟨fun u' hu' => by rw [e']; exact h.others u' hu', by simpa [put, Ne.symm hx] using h.mem,
        fun v' hv' => h.mine v' (by rwa [e'] at hv')⟩
  | call => exact ⟨h.others, h.mem, h.mine⟩
  | single => exact ⟨h.others, h.mem, h.mine⟩
  | enter => exact ⟨h.others, h.mem, h.mine⟩
  | done => exact ⟨h.others, h.mem, h.mine⟩
  | again => exact ⟨h.others, h.mem, h.mine⟩
  | ret => exact ⟨h.others, h.mem, h.mine⟩

theorem held_exec {S : V → Prop} {t : T} {x : L} {s s' : St T A V L} {l : List (Lab T A V L)} (h : Held S t x s)
    (hs : Exec s l s') (hw : ∀ u v, Lab.write u x v ∈ l → u = t ∧ S v) : Held S t x s' := by
  induction hs with
  | nil => exact h
  | snoc _ hs ih =>
    refine held_step (ih (fun u v hm => hw u v (by simp [hm]))) hs (fun u v he => hw u v (by simp [he]))

/-- what a read of `x` yields is in `S` -/
theorem held_view {S : V → Prop} {t : T} {x : L} {s : St T A V L} (h : Held S t x s) (u : T) :
    S (view s.mem (s.buf u) x) := by
  rw [view_not]
  by_cases hu : u = t
  · subst hu
    have := List.getLast_mem (l := s.mem x :: pend x (s.buf u)) (by simp)
    rcases List.mem_cons.1 this with e | e
    · rw [e]; exact h.mem
    · exact h.mine _ e
  · have e := h.others u hu
    simp only [e, List.getLast_singleton]
    exact h.mem

/-- in which order the stores of `x` happen: after all of memory come those in the buffer of `t`; the newest is `S` -/
theorem newest_step {S : V → Prop} {t : T} {x : L} {s s' : St T A V L} {e : Lab T A V L}
    (hn : S ((s.mem x :: pend x (s.buf t)).getLast (by simp))) (ho : ∀ u, u ≠ t → pend x (s.buf u) = [])
    (hs : Step s e s') (hw : ∀ u v, e = .write u x v → u = t ∧ S v) :
    S ((s'.mem x :: pend x (s'.buf t)).getLast (by simp)) ∧ ∀ u, u ≠ t → pend x (s'.buf u) = [] := by
  have ho' : ∀ u, u ≠ t → pend x (s'.buf u) = [] := by
    have := held_step (S := fun _ => True) ⟨ho, trivial, fun _ _ => trivial⟩ hs (fun u v h => ⟨(hw u v h).1, trivial⟩)
    exact this.others
  refine ⟨?_, ho'⟩
  rw [← view_not] at hn ⊢
  cases hs with
  | write u y v hp =>
    show S (view s.mem (put s.buf u (s.buf u ++ [(y, v)]) t) x)
    by_cases hy : y = x
    · subst hy
      obtain ⟨rfl, hv⟩ := hw u v rfl
      simpa [put, view] using hv
    · by_cases hu : u = t
      · subst hu
        simp only [put, if_true, view, List.foldl_append, List.foldl_cons, List.foldl_nil, Ne.symm hy, if_false]
        exact hn
      · simpa [put, Ne.symm hu] using hn
  | read => exact hn
  | flush u e b hb =>
    show S (view (put s.mem e.1 e.2) (put s.buf u b t) x)
    by_cases hu : u = t
    · subst hu
      simp only [put, if_true]
      rw [hb] at hn; exact hn
    · have hx : e.1 ≠ x := by
        intro hx
        have := ho u hu
        rw [hb] at this; simp [pend, hx] at this
      have e1 : put s.buf u b t = s.buf t := by simp [put, Ne.symm hu]
      rw [e1]
      rw [view_not] at hn ⊢
      simpa [put, Ne.symm hx] using hn
  | call => exact hn
  | single => exact hn
  | enter => exact hn
  | done => exact hn
  | again => exact hn
  | ret => exact hn

theorem newest_exec {S : V → Prop} {t : T} {x : L} {s s' : St T A V L} {l : List (Lab T A V L)}
    (hn : S ((s.mem x :: pend x (s.buf t)).getLast (by simp))) (ho : ∀ u, u ≠ t → pend x (s.buf u) = [])
    (hs : Exec s l s') (hw : ∀ u v, Lab.write u x v ∈ l → u = t ∧ S v) :
    S ((s'.mem x :: pend x (s'.buf t)).getLast (by simp)) ∧ ∀ u, u ≠ t → pend x (s'.buf u) = [] := by
  induction hs with
  | nil => exact ⟨hn, ho⟩
  | snoc _ hs ih =>
    obtain ⟨h1, h2⟩ := ih (fun u v hm => hw u v (by simp [hm]))
    exact newest_step h1 h2 hs (fun u v he => hw u v (by simp [he]))
end

end CE.Atomic
