import Verif.Model.SpinLock
import Mathlib.Tactic.ByContra
/-!
# Spin lock: invariant
-/
namespace CE.SpinLock
open CE.Linear

variable {T A V : Type} {n : Nat} [DecidableEq T] [DecidableEq A]

/-- sequential meaning: new objects and result -/
def seqApply (o : Op A V n) (s : A → Fin n → V) : (A → Fin n → V) × Res V n :=
  match o with
  | .load a => (s, some (s a))
  | .store a b => (fun c => if c = a then b else s c, none)
  | .exchange a b => (fun c => if c = a then b else s c, some (s a))
  | .fetch a f => (fun c => if c = a then f (s a) else s c, some (s a))

/-- phase of a thread -/
def phase : Pc A V n → Phase (Op A V n) (Res V n)
  | .idle => .idle
  | .spin o => .called o
  | .pause o => .called o
  | .copy o _ _ => .called o
  | .write o _ _ _ => .called o
  | .leave o _ => .called o
  | .fin r => .done r

/-- buffered words only -/
def Words (b : List (Ent A V n)) : Prop := ∀ e ∈ b, e ≠ Ent.unlock

/-- not involved with the lock -/
def Quiet (s : St T A V n) (t : T) : Prop := s.buf t = [] ∧ (s.pc t).inside = false

/-- the thread that has the lock, or has released it with the release still in its buffer -/
def Own (data abs : A → Fin n → V) (b : List (Ent A V n)) : Pc A V n → Prop
  | .copy o k u => b = [] ∧ data = abs ∧ o.reads = true ∧ ∀ i : Fin n, i.1 < k → u i = abs o.obj i
  | .write o k u w => Words b ∧ o.new (abs o.obj) = some w ∧ o.res u = o.res (abs o.obj) ∧
      ∀ c i, view data b c i = if c = o.obj ∧ i.1 < k then w i else abs c i
  | .leave o u => Words b ∧ o.res u = (seqApply o abs).2 ∧ view data b = (seqApply o abs).1
  | _ => ∃ ws, b = ws ++ [.unlock] ∧ Words ws ∧ view data ws = abs

/-- invariant -/
def Inv (d : A → Fin n → V) (s : St T A V n) : Prop :=
  (∀ t, Proto t s.tr (phase (s.pc t))) ∧
  ∃ abs, Replay seqApply d s.tr abs ∧
    ((s.lk = false ∧ (∀ t, Quiet s t) ∧ s.data = abs) ∨
     (s.lk = true ∧ ∃ o, (∀ t, t ≠ o → Quiet s t) ∧ Own s.data abs (s.buf o) (s.pc o)))

@[simp] theorem set_same {X : Type} (f : T → X) (t : T) (x : X) : set f t x t = x := if_pos rfl
theorem set_other {X : Type} (f : T → X) {t u : T} (x : X) (h : u ≠ t) : set f t x u = f u := if_neg h

theorem proto_same {pc : T → Pc A V n} {tr} (h : ∀ t, Proto t tr (phase (pc t))) {t : T} {p : Pc A V n}
    (hp : phase p = phase (pc t)) : ∀ t', Proto t' tr (phase (set pc t p t')) := by
  intro t'
  by_cases ht : t' = t
  · subst ht; rw [set_same, hp]; exact h t'
  · rw [set_other _ _ ht]; exact h t'

theorem proto_ev {pc : T → Pc A V n} {tr} (h : ∀ t, Proto t tr (phase (pc t))) {t : T} {p : Pc A V n}
    {e : Ev T (Op A V n) (Res V n)} (he : e.tid = t) (hp : Proto t (tr ++ [e]) (phase p)) :
    ∀ t', Proto t' (tr ++ [e]) (phase (set pc t p t')) := by
  intro t'
  by_cases ht : t' = t
  · subst ht; rw [set_same]; exact hp
  · rw [set_other _ _ ht]; exact Proto.other (fun h => ht (by rw [← h, he])) (h t')

theorem view_append (d : A → Fin n → V) (b c : List (Ent A V n)) : view d (b ++ c) = view (view d b) c := by
  unfold view; rw [List.foldl_append]

theorem new_seq {o : Op A V n} {abs : A → Fin n → V} {w} (h : o.new (abs o.obj) = some w) :
    (seqApply o abs).1 = fun c => if c = o.obj then w else abs c := by
  cases o <;> simp only [Op.new, Option.some.injEq, Op.obj] at h <;> (try cases h) <;> first | rfl | skip

theorem new_none {o : Op A V n} {abs : A → Fin n → V} {u} (h : o.new u = none) :
    (seqApply o abs).1 = abs := by
  cases o <;> simp only [Op.new] at h <;> first | rfl | cases h

theorem res_seq (o : Op A V n) (abs : A → Fin n → V) : o.res (abs o.obj) = (seqApply o abs).2 := by
  cases o <;> rfl

theorem Own.outside {data abs : A → Fin n → V} {b} {p : Pc A V n} (hp : p.inside = false) :
    Own data abs b p ↔ ∃ ws, b = ws ++ [.unlock] ∧ Words ws ∧ view data ws = abs := by
  cases p <;> first | exact Iff.rfl | cases hp

/-- changing the program counter of a thread outside -/
theorem quiet_pc {s : St T A V n} {t : T} {p : Pc A V n} (hp : p.inside = false) {u : T} (h : Quiet s u) (lk data tr) :
    Quiet (⟨lk, data, s.buf, set s.pc t p, tr⟩ : St T A V n) u := by
  refine ⟨h.1, ?_⟩
  show (set s.pc t p u).inside = false
  by_cases hu : u = t
  · subst hu; rw [set_same]; exact hp
  · rw [set_other _ _ hu]; exact h.2

/-- steps that stay outside and touch neither memory nor buffers -/
theorem inv_outside {d : A → Fin n → V} {s : St T A V n} (hi : Inv d s) {t : T} {p : Pc A V n} {tr'}
    (h0 : (s.pc t).inside = false) (hp : p.inside = false)
    (hproto : ∀ t', Proto t' tr' (phase (set s.pc t p t')))
    (hrep : ∀ abs, Replay seqApply d s.tr abs → Replay seqApply d tr' abs) :
    Inv d { s with pc := set s.pc t p, tr := tr' } := by
  obtain ⟨-, abs, hr, h⟩ := hi
  refine ⟨hproto, abs, hrep abs hr, ?_⟩
  rcases h with ⟨h1, h2, h3⟩ | ⟨h1, o, h2, h3⟩
  · exact Or.inl ⟨h1, fun u => quiet_pc hp (h2 u) _ _ _, h3⟩
  · refine Or.inr ⟨h1, o, fun u hu => quiet_pc hp (h2 u hu) _ _ _, ?_⟩
    show Own s.data abs (s.buf o) (set s.pc t p o)
    by_cases ho : o = t
    · subst ho
      rw [set_same, Own.outside hp]
      exact (Own.outside h0).1 h3
    · rw [set_other _ _ ho]; exact h3

/-- a thread inside is the owner -/
theorem owner_of {d : A → Fin n → V} {s : St T A V n} (hi : Inv d s) {t : T} (ht : (s.pc t).inside = true) :
    ∃ abs, Replay seqApply d s.tr abs ∧ s.lk = true ∧ (∀ u, u ≠ t → Quiet s u) ∧ Own s.data abs (s.buf t) (s.pc t) := by
  obtain ⟨-, abs, hr, h⟩ := hi
  rcases h with ⟨h1, h2, h3⟩ | ⟨h1, o, h2, h3⟩
  · have := (h2 t).2
    rw [ht] at this; cases this
  · by_cases ho : t = o
    · subst ho; exact ⟨abs, hr, h1, h2, h3⟩
    · have := (h2 t ho).2
      rw [ht] at this; cases this

theorem quiet_set {s : St T A V n} {t : T} (h : ∀ u, u ≠ t → Quiet s u) (p : Pc A V n) (b : List (Ent A V n)) (lk data tr) :
    ∀ u, u ≠ t → Quiet (⟨lk, data, set s.buf t b, set s.pc t p, tr⟩ : St T A V n) u := by
  intro u hu
  refine ⟨?_, ?_⟩
  · show set s.buf t b u = []
    rw [set_other _ _ hu]; exact (h u hu).1
  · show (set s.pc t p u).inside = false
    rw [set_other _ _ hu]; exact (h u hu).2

theorem quiet_set' {s : St T A V n} {t : T} (h : ∀ u, u ≠ t → Quiet s u) (p : Pc A V n) (lk data tr) :
    ∀ u, u ≠ t → Quiet (⟨lk, data, s.buf, set s.pc t p, tr⟩ : St T A V n) u := by
  intro u hu
  refine ⟨(h u hu).1, ?_⟩
  show (set s.pc t p u).inside = false
  rw [set_other _ _ hu]; exact (h u hu).2

theorem own_write_start {o : Op A V n} {data abs : A → Fin n → V} {u w} (hd : data = abs)
    (hw : o.new (abs o.obj) = some w) (hu : o.res u = o.res (abs o.obj)) : Own data abs [] (.write o 0 u w) := by
  refine ⟨fun e he => (by cases he), hw, hu, fun c i => ?_⟩
  rw [if_neg (by omega), hd]; rfl

theorem inv_step {d : A → Fin n → V} {s s' : St T A V n} (hi : Inv d s) (hs : Step false s s') : Inv d s' := by
  cases hs with
  | call t o hp =>
    refine inv_outside hi (by rw [hp]; rfl) rfl (proto_ev hi.1 rfl ?_) (fun abs h => Replay.inv h)
    have := hi.1 t; rw [hp] at this
    exact Proto.inv this
  | lock t o junk hp hb hl _ =>
    obtain ⟨hpr, abs, hr, h⟩ := hi
    rcases h with ⟨h1, h2, h3⟩ | ⟨h1, o', h2, h3⟩
    · refine ⟨proto_same hpr ?_, abs, hr, Or.inr ⟨rfl, t, quiet_set' (fun u _ => h2 u) _ _ _ _, ?_⟩⟩
      · rw [hp]; unfold Op.enter; split
        · rfl
        · split <;> rfl
      · show Own s.data abs (s.buf t) (set s.pc t (o.enter junk) t)
        rw [set_same, hb]
        cases o with
        | load a => exact ⟨rfl, h3, rfl, fun i hi => by omega⟩
        | store a b => exact own_write_start h3 rfl rfl
        | exchange a b => exact ⟨rfl, h3, rfl, fun i hi => by omega⟩
        | fetch a f => exact ⟨rfl, h3, rfl, fun i hi => by omega⟩
    · rw [h1] at hl; cases hl
  | busy t o hp hb hl =>
    refine inv_outside hi (by rw [hp]; rfl) rfl (proto_same hi.1 (by rw [hp]; rfl)) (fun abs h => h)
  | waiting t o hp hv => exact hi
  | retry t o hp hv =>
    refine inv_outside hi (by rw [hp]; rfl) rfl (proto_same hi.1 (by rw [hp]; rfl)) (fun abs h => h)
  | copy t o k u hk hp =>
    obtain ⟨abs, hr, hl, hq, ho⟩ := owner_of hi (t := t) (by rw [hp]; rfl)
    refine ⟨proto_same hi.1 (by rw [hp]; rfl), abs, hr, Or.inr ⟨hl, t, quiet_set' hq _ _ _ _, ?_⟩⟩
    show Own s.data abs (s.buf t) (set s.pc t _ t)
    rw [hp] at ho
    obtain ⟨h1, h2, h3, h4⟩ := ho
    rw [set_same]
    refine ⟨h1, h2, h3, fun i hik => ?_⟩
    show (if i = ⟨k, hk⟩ then view s.data (s.buf t) o.obj ⟨k, hk⟩ else u i) = _
    by_cases he : i = ⟨k, hk⟩
    · rw [if_pos he, he, h1, h2]; rfl
    · rw [if_neg he]
      refine h4 i ?_
      have : i.1 ≠ k := fun h => he (Fin.ext h)
      omega
  | copied t o k u hp hk =>
    obtain ⟨abs, hr, hl, hq, ho⟩ := owner_of hi (t := t) (by rw [hp]; rfl)
    rw [hp] at ho
    obtain ⟨h1, h2, h3, h4⟩ := ho
    have hu : u = abs o.obj := funext fun i => h4 i (by have := i.2; omega)
    refine ⟨proto_same hi.1 ?_, abs, hr, Or.inr ⟨hl, t, quiet_set' hq _ _ _ _, ?_⟩⟩
    · rw [hp]; unfold Op.copied; split <;> rfl
    · show Own s.data abs (s.buf t) (set s.pc t _ t)
      rw [set_same, h1]
      unfold Op.copied
      split
      · next hn =>
        refine ⟨fun e he => (by cases he), ?_, ?_⟩
        · rw [hu]; exact res_seq o abs
        · rw [new_none hn, ← h2]; rfl
      · next w hn =>
        rw [hu] at hn
        exact own_write_start h2 hn (by rw [hu])
  | write t o k u w hk hp =>
    obtain ⟨abs, hr, hl, hq, ho⟩ := owner_of hi (t := t) (by rw [hp]; rfl)
    rw [hp] at ho
    obtain ⟨h1, h2, h3, h4⟩ := ho
    refine ⟨proto_same hi.1 (by rw [hp]; rfl), abs, hr, Or.inr ⟨hl, t, quiet_set hq _ _ _ _ _, ?_⟩⟩
    show Own s.data abs (set s.buf t _ t) (set s.pc t _ t)
    rw [set_same, set_same]
    refine ⟨?_, h2, h3, fun c i => ?_⟩
    · intro e he
      rcases List.mem_append.1 he with he | he
      · exact h1 e he
      · rw [List.mem_singleton.1 he]; exact fun h => by cases h
    · rw [view_append]
      show (if c = o.obj ∧ i = ⟨k, hk⟩ then w ⟨k, hk⟩ else view s.data (s.buf t) c i) = _
      rw [h4]
      by_cases hc : c = o.obj
      · by_cases he : i = ⟨k, hk⟩
        · rw [if_pos ⟨hc, he⟩, if_pos ⟨hc, by rw [he]; exact Nat.lt_succ_self k⟩, he]
        · have hne : i.1 ≠ k := fun h => he (Fin.ext h)
          rw [if_neg (fun h => he h.2)]
          by_cases hlt : i.1 < k
          · rw [if_pos ⟨hc, hlt⟩, if_pos ⟨hc, by omega⟩]
          · rw [if_neg (fun h => hlt h.2), if_neg (fun h => by have := h.2; omega)]
      · rw [if_neg (fun h => hc h.1), if_neg (fun h => hc h.1), if_neg (fun h => hc h.1)]
  | written t o k u w hp hk =>
    obtain ⟨abs, hr, hl, hq, ho⟩ := owner_of hi (t := t) (by rw [hp]; rfl)
    rw [hp] at ho
    obtain ⟨h1, h2, h3, h4⟩ := ho
    refine ⟨proto_same hi.1 (by rw [hp]; rfl), abs, hr, Or.inr ⟨hl, t, quiet_set' hq _ _ _ _, ?_⟩⟩
    show Own s.data abs (s.buf t) (set s.pc t _ t)
    rw [set_same]
    refine ⟨h1, by rw [h3]; exact res_seq o abs, ?_⟩
    funext c i
    rw [h4, new_seq h2]
    show _ = (if c = o.obj then w else abs c) i
    by_cases hc : c = o.obj
    · rw [if_pos ⟨hc, by have := i.2; omega⟩, if_pos hc]
    · rw [if_neg (fun h => hc h.1), if_neg hc]
  | leave t o u hp =>
    obtain ⟨abs, hr, hl, hq, ho⟩ := owner_of hi (t := t) (by rw [hp]; rfl)
    rw [hp] at ho
    obtain ⟨h1, h2, h3⟩ := ho
    have hproto : Proto t (s.tr ++ [.lin t o (o.res u)]) (phase (Pc.fin (o.res u) : Pc A V n)) := by
      have := hi.1 t; rw [hp] at this
      exact Proto.lin this
    refine ⟨proto_ev hi.1 rfl hproto, (seqApply o abs).1, ?_, Or.inr ⟨hl, t, quiet_set hq _ _ _ _ _, ?_⟩⟩
    · show Replay seqApply d (s.tr ++ [.lin t o (o.res u)]) _
      rw [h2]; exact Replay.lin hr
    · show Own s.data _ (set s.buf t _ t) (set s.pc t _ t)
      rw [set_same, set_same]
      exact ⟨s.buf t, rfl, h1, h3⟩
  | ret t r hp =>
    refine inv_outside hi (by rw [hp]; rfl) rfl (proto_ev hi.1 rfl ?_) (fun abs h => Replay.ret h)
    have := hi.1 t; rw [hp] at this
    exact Proto.ret this
  | flush t e b hb =>
    obtain ⟨hpr, abs, hr, h⟩ := hi
    rcases h with ⟨h1, h2, h3⟩ | ⟨h1, o, h2, h3⟩
    · rw [(h2 t).1] at hb; cases hb
    · have hto : t = o := by
        by_contra hc
        rw [(h2 t hc).1] at hb; cases hb
      subst hto
      have hq : ∀ u, u ≠ t → Quiet (⟨e.putLk s.lk, e.put s.data, set s.buf t b, s.pc, s.tr⟩ : St T A V n) u := by
        intro u hu
        refine ⟨?_, (h2 u hu).2⟩
        show set s.buf t b u = []
        rw [set_other _ _ hu]; exact (h2 u hu).1
      rw [hb] at h3
      refine ⟨hpr, abs, hr, ?_⟩
      by_cases hin : (s.pc t).inside = true
      · refine Or.inr ?_
        have hw : e ≠ Ent.unlock := by
          cases hpc : s.pc t with
          | copy o k u => rw [hpc] at h3; cases h3.1
          | write o k u w => rw [hpc] at h3; exact h3.1 e (List.mem_cons_self ..)
          | leave o u => rw [hpc] at h3; exact h3.1 e (List.mem_cons_self ..)
          | idle => rw [hpc] at hin; cases hin
          | spin o => rw [hpc] at hin; cases hin
          | pause o => rw [hpc] at hin; cases hin
          | fin o => rw [hpc] at hin; cases hin
        have hlk : e.putLk s.lk = true := by
          cases e with
          | unlock => exact absurd rfl hw
          | word a i v => exact h1
        refine ⟨hlk, t, hq, ?_⟩
        show Own (e.put s.data) abs (set s.buf t b t) (s.pc t)
        rw [set_same]
        cases hpc : s.pc t with
        | copy o k u => rw [hpc] at h3; cases h3.1
        | write o k u w =>
          rw [hpc] at h3
          obtain ⟨a1, a2, a3, a4⟩ := h3
          exact ⟨fun x hx => a1 x (List.mem_cons_of_mem _ hx), a2, a3, a4⟩
        | leave o u =>
          rw [hpc] at h3
          obtain ⟨a1, a2, a3⟩ := h3
          exact ⟨fun x hx => a1 x (List.mem_cons_of_mem _ hx), a2, a3⟩
        | idle => rw [hpc] at hin; cases hin
        | spin o => rw [hpc] at hin; cases hin
        | pause o => rw [hpc] at hin; cases hin
        | fin o => rw [hpc] at hin; cases hin
      · have hin : (s.pc t).inside = false := by simpa using hin
        obtain ⟨ws, hws, hwords, hv⟩ := (Own.outside hin).1 h3
        cases ws with
        | nil =>
          injection hws with e1 e2
          subst e1; subst e2
          refine Or.inl ⟨rfl, fun u => ?_, hv⟩
          by_cases hu : u = t
          · subst hu
            exact ⟨by show set s.buf u [] u = []; rw [set_same], hin⟩
          · exact hq u hu
        | cons x ws =>
          injection hws with e1 e2
          subst e1; subst e2
          have hw : e ≠ Ent.unlock := hwords e (List.mem_cons_self ..)
          have hlk : e.putLk s.lk = true := by
            cases e with
            | unlock => exact absurd rfl hw
            | word a i v => exact h1
          refine Or.inr ⟨hlk, t, hq, ?_⟩
          show Own (e.put s.data) abs (set s.buf t _ t) (s.pc t)
          rw [set_same, Own.outside hin]
          exact ⟨ws, rfl, fun x hx => hwords x (List.mem_cons_of_mem _ hx), hv⟩
  | interlocked t o w hsm => cases hsm

theorem inv_reach {d : A → Fin n → V} {s : St T A V n} (h : Reach false d s) : Inv d s := by
  induction h with
  | init => exact ⟨fun t => Proto.nil, d, Replay.nil, Or.inl ⟨rfl, fun t => ⟨rfl, rfl⟩, rfl⟩⟩
  | step _ hs ih => exact inv_step ih hs

/-- what is returned took effect -/
theorem ret_lin {t : T} {tr : List (Ev T (Op A V n) (Res V n))} {ph} (h : Proto t tr ph) :
    (∀ r, ph = .done r → ∃ o, Ev.lin t o r ∈ tr) ∧ ∀ r, Ev.ret t r ∈ tr → ∃ o, Ev.lin t o r ∈ tr := by
  induction h with
  | nil => exact ⟨fun r h => (by cases h), fun r h => (by cases h)⟩
  | @inv tr o _ ih =>
    refine ⟨fun r h => (by cases h), fun r h => ?_⟩
    rcases List.mem_append.1 h with h | h
    · obtain ⟨o, ho⟩ := ih.2 r h
      exact ⟨o, List.mem_append_left _ ho⟩
    · cases List.mem_singleton.1 h
  | @lin tr o r' _ ih =>
    refine ⟨fun r h => ?_, fun r h => ?_⟩
    · cases h
      exact ⟨o, List.mem_append_right _ (List.mem_singleton.2 rfl)⟩
    · rcases List.mem_append.1 h with h | h
      · obtain ⟨o, ho⟩ := ih.2 r h
        exact ⟨o, List.mem_append_left _ ho⟩
      · cases List.mem_singleton.1 h
  | @ret tr r' _ ih =>
    refine ⟨fun r h => (by cases h), fun r h => ?_⟩
    rcases List.mem_append.1 h with h | h
    · obtain ⟨o, ho⟩ := ih.2 r h
      exact ⟨o, List.mem_append_left _ ho⟩
    · cases List.mem_singleton.1 h
      obtain ⟨o, ho⟩ := ih.1 _ rfl
      exact ⟨o, List.mem_append_left _ ho⟩
  | @other tr e ph he _ ih =>
    refine ⟨fun r h => ?_, fun r h => ?_⟩
    · obtain ⟨o, ho⟩ := ih.1 r h
      exact ⟨o, List.mem_append_left _ ho⟩
    · rcases List.mem_append.1 h with h | h
      · obtain ⟨o, ho⟩ := ih.2 r h
        exact ⟨o, List.mem_append_left _ ho⟩
      · rw [← List.mem_singleton.1 h] at he
        exact absurd rfl he

/-- where the values come from -/
theorem replay_values {d abs : A → Fin n → V} {tr : List (Ev T (Op A V n) (Res V n))} (h : Replay seqApply d tr abs)
    (hf : ∀ t a f r, Ev.lin t (.fetch a f) r ∉ tr) :
    (∀ a, abs a = d a ∨ ∃ t r, Ev.lin t (.store a (abs a)) r ∈ tr ∨ Ev.lin t (.exchange a (abs a)) r ∈ tr) ∧
    ∀ t o u, Ev.lin t o (some u) ∈ tr →
      u = d o.obj ∨ ∃ t r, Ev.lin t (.store o.obj u) r ∈ tr ∨ Ev.lin t (.exchange o.obj u) r ∈ tr := by
  induction h with
  | nil => exact ⟨fun a => Or.inl rfl, fun t o u h => by cases h⟩
  | @inv tr s' t o _ ih =>
    obtain ⟨i1, i2⟩ := ih (fun t a f r h => hf t a f r (List.mem_append_left _ h))
    refine ⟨fun a => (i1 a).imp id ?_, fun t o u h => ?_⟩
    · rintro ⟨t, r, h⟩
      exact ⟨t, r, h.imp (List.mem_append_left _) (List.mem_append_left _)⟩
    · rcases List.mem_append.1 h with h | h
      · refine (i2 t o u h).imp id ?_
        rintro ⟨t, r, h⟩
        exact ⟨t, r, h.imp (List.mem_append_left _) (List.mem_append_left _)⟩
      · cases List.mem_singleton.1 h
  | @ret tr s' t r _ ih =>
    obtain ⟨i1, i2⟩ := ih (fun t a f r h => hf t a f r (List.mem_append_left _ h))
    refine ⟨fun a => (i1 a).imp id ?_, fun t o u h => ?_⟩
    · rintro ⟨t, r, h⟩
      exact ⟨t, r, h.imp (List.mem_append_left _) (List.mem_append_left _)⟩
    · rcases List.mem_append.1 h with h | h
      · refine (i2 t o u h).imp id ?_
        rintro ⟨t, r, h⟩
        exact ⟨t, r, h.imp (List.mem_append_left _) (List.mem_append_left _)⟩
      · cases List.mem_singleton.1 h
  | @lin tr s' t' o' _ ih =>
    obtain ⟨i1, i2⟩ := ih (fun t a f r h => hf t a f r (List.mem_append_left _ h))
    have mono : ∀ {x : A} {v : Fin n → V},
        (∃ t r, Ev.lin t (.store x v) r ∈ tr ∨ Ev.lin t (.exchange x v) r ∈ tr) →
        ∃ t r, Ev.lin t (.store x v) r ∈ tr ++ [Ev.lin t' o' (seqApply o' s').2] ∨
          Ev.lin t (.exchange x v) r ∈ tr ++ [Ev.lin t' o' (seqApply o' s').2] := by
      rintro x v ⟨t, r, h⟩
      exact ⟨t, r, h.imp (List.mem_append_left _) (List.mem_append_left _)⟩
    refine ⟨fun a => ?_, fun t o u h => ?_⟩
    · cases o' with
      | load b => exact (i1 a).imp id mono
      | store b v =>
        by_cases hab : a = b
        · subst hab
          right
          have e : (seqApply (.store a v) s').1 a = v := if_pos rfl
          rw [e]
          exact ⟨t', _, Or.inl (List.mem_append_right _ (List.mem_singleton.2 rfl))⟩
        · have e : (seqApply (.store b v) s').1 a = s' a := if_neg hab
          rw [e]; exact (i1 a).imp id mono
      | exchange b v =>
        by_cases hab : a = b
        · subst hab
          right
          have e : (seqApply (.exchange a v) s').1 a = v := if_pos rfl
          rw [e]
          exact ⟨t', _, Or.inr (List.mem_append_right _ (List.mem_singleton.2 rfl))⟩
        · have e : (seqApply (.exchange b v) s').1 a = s' a := if_neg hab
          rw [e]; exact (i1 a).imp id mono
      | fetch b f => exact absurd (List.mem_append_right _ (List.mem_singleton.2 rfl)) (hf t' b f _)
    · rcases List.mem_append.1 h with h | h
      · exact (i2 t o u h).imp id mono
      · have h := List.mem_singleton.1 h
        injection h with e1 e2 e3
        subst e2
        have hu : u = s' o.obj := by
          cases o with
          | store b v => cases e3
          | load b => exact Option.some.inj e3
          | exchange b v => exact Option.some.inj e3
          | fetch b v => exact Option.some.inj e3
        rw [hu]
        exact (i1 o.obj).imp id mono

end CE.SpinLock
