import Verif.Model.SpinSlots
import Verif.Proof.SpinLock
/-!
# All spin locks together: invariant
-/
namespace CE.SpinSlots
open CE.Linear CE.SpinLock

variable {S T A V : Type} {n : Nat} [DecidableEq S] [DecidableEq T] [DecidableEq A]

/-- the slot an entry of a buffer belongs to -/
def Ent.at (slot : A → S) : Ent S A V n → S
  | .unlock g => g
  | .word a _ _ => slot a

/-- only words, of objects of slot `g` -/
def Words (slot : A → S) (g : S) (b : List (Ent S A V n)) : Prop := ∀ e ∈ b, ∃ a i v, e = .word a i v ∧ slot a = g

/-- not involved with slot `g` -/
def Quiet (slot : A → S) (s : St S T A V n) (g : S) (t : T) : Prop :=
  (∀ e ∈ s.buf t, e.at slot ≠ g) ∧ within slot (s.pc t) ≠ some g

/-- the thread that has slot `g`, or has released it with the release still in its buffer -/
def Own (slot : A → S) (g : S) (data abs : A → Fin n → V) (b : List (Ent S A V n)) : Pc A V n → Prop
  | .copy o k u => b = [] ∧ slot o.obj = g ∧ (∀ c, slot c = g → data c = abs c) ∧ o.reads = true ∧
      ∀ i : Fin n, i.1 < k → u i = abs o.obj i
  | .write o k u w => Words slot g b ∧ slot o.obj = g ∧ o.new (abs o.obj) = some w ∧ o.res u = o.res (abs o.obj) ∧
      ∀ c, slot c = g → ∀ i, view data b c i = if c = o.obj ∧ i.1 < k then w i else abs c i
  | .leave o u => Words slot g b ∧ slot o.obj = g ∧ o.res u = (seqApply o abs).2 ∧
      ∀ c, slot c = g → view data b c = (seqApply o abs).1 c
  | _ => ∃ ws, b = ws ++ [.unlock g] ∧ Words slot g ws ∧ ∀ c, slot c = g → view data ws c = abs c

/-- invariant for a slot -/
def At (slot : A → S) (s : St S T A V n) (abs : A → Fin n → V) (g : S) : Prop :=
  (s.lk g = false ∧ (∀ t, Quiet slot s g t) ∧ ∀ c, slot c = g → s.data c = abs c) ∨
  (s.lk g = true ∧ ∃ o, (∀ t, t ≠ o → Quiet slot s g t) ∧ Own slot g s.data abs (s.buf o) (s.pc o))

/-- invariant -/
def Inv (slot : A → S) (d : A → Fin n → V) (s : St S T A V n) : Prop :=
  (∀ t, Proto t s.tr (phase (s.pc t))) ∧ ∃ abs, Replay seqApply d s.tr abs ∧ ∀ g, At slot s abs g

variable {slot : A → S}

omit [DecidableEq S] in
theorem view_append (d : A → Fin n → V) (b c : List (Ent S A V n)) : view d (b ++ c) = view (view d b) c := by
  unfold view; rw [List.foldl_append]

omit [DecidableEq S] in
theorem view_congr {d d' : A → Fin n → V} (b : List (Ent S A V n)) {c : A} (h : d c = d' c) : view d b c = view d' b c := by
  induction b generalizing d d' with
  | nil => exact h
  | cons e b ih =>
    refine ih ?_
    cases e with
    | unlock g => exact h
    | word a i v => funext j; show (if _ then _ else _) = (if _ then _ else _); rw [h]

omit [DecidableEq S] [DecidableEq T] in
theorem Own.outside {g : S} {data abs : A → Fin n → V} {b} {p : Pc A V n} (hp : within slot p = none) :
    Own slot g data abs b p ↔ ∃ ws, b = ws ++ [.unlock g] ∧ Words slot g ws ∧ ∀ c, slot c = g → view data ws c = abs c := by
  cases p <;> first | exact Iff.rfl | cases hp

omit [DecidableEq S] [DecidableEq T] in
/-- the owner's buffer and place -/
theorem Own.place {g : S} {data abs : A → Fin n → V} {b} {p : Pc A V n} (h : Own slot g data abs b p) :
    (∀ e ∈ b, e.at slot = g) ∧ (within slot p = none ∨ within slot p = some g) ∧
      (within slot p = none → Ent.unlock g ∈ b) := by
  have w : ∀ {ws}, Words slot g ws → ∀ e ∈ ws, Ent.at (n := n) (V := V) slot e = g := by
    intro ws h e he
    obtain ⟨a, i, v, rfl, ha⟩ := h e he
    exact ha
  have out : (∃ ws, b = ws ++ [.unlock g] ∧ Words slot g ws ∧ ∀ c, slot c = g → view data ws c = abs c) →
      (∀ e ∈ b, e.at slot = g) ∧ Ent.unlock g ∈ b := by
    rintro ⟨ws, rfl, hw, -⟩
    refine ⟨fun e he => ?_, by simp⟩
    rcases List.mem_append.1 he with he | he
    · exact w hw e he
    · rw [List.mem_singleton.1 he]; rfl
  cases p with
  | copy o k u =>
    refine ⟨?_, .inr (congrArg some h.2.1), fun h => by cases h⟩
    rw [h.1]; exact fun e he => by cases he
  | write o k u w' => exact ⟨w h.1, .inr (congrArg some h.2.1), fun h => by cases h⟩
  | leave o u => exact ⟨w h.1, .inr (congrArg some h.2.1), fun h => by cases h⟩
  | idle => exact ⟨(out h).1, .inl rfl, fun _ => (out h).2⟩
  | spin o => exact ⟨(out h).1, .inl rfl, fun _ => (out h).2⟩
  | pause o => exact ⟨(out h).1, .inl rfl, fun _ => (out h).2⟩
  | fin o => exact ⟨(out h).1, .inl rfl, fun _ => (out h).2⟩

omit [DecidableEq S] [DecidableEq T] in
theorem Own.not_quiet {g : S} {data abs : A → Fin n → V} {s : St S T A V n} {t : T}
    (h : Own slot g data abs (s.buf t) (s.pc t)) : ¬ Quiet slot s g t := by
  intro q
  obtain ⟨-, h2, h3⟩ := h.place
  rcases h2 with h2 | h2
  · exact q.1 _ (h3 h2) rfl
  · exact q.2 h2

omit [DecidableEq S] in
theorem seq_agree {o : Op A V n} {abs abs' : A → Fin n → V} {g : S} (ho : slot o.obj = g)
    (h : ∀ c, slot c = g → abs c = abs' c) : (seqApply o abs).2 = (seqApply o abs').2 ∧
      ∀ c, slot c = g → (seqApply o abs).1 c = (seqApply o abs').1 c := by
  have h0 := h _ ho
  cases o with
  | load a => exact ⟨congrArg some h0, h⟩
  | store a b =>
    refine ⟨rfl, fun c hc => ?_⟩
    show (if _ then _ else _) = (if _ then _ else _); rw [h c hc]
  | exchange a b =>
    refine ⟨congrArg some h0, fun c hc => ?_⟩
    show (if _ then _ else _) = (if _ then _ else _); rw [h c hc]
  | fetch a f =>
    refine ⟨congrArg some h0, fun c hc => ?_⟩
    show (if _ then _ else _) = (if _ then _ else _)
    have : abs a = abs' a := h0
    rw [h c hc, this]

omit [DecidableEq S] [DecidableEq T] in
/-- only the objects of the slot matter -/
theorem Own.congr {g : S} {data abs data' abs' : A → Fin n → V} {b} {p : Pc A V n} (h : Own slot g data abs b p)
    (hd : ∀ c, slot c = g → data c = data' c) (ha : ∀ c, slot c = g → abs c = abs' c) : Own slot g data' abs' b p := by
  have out : (∃ ws, b = ws ++ [.unlock g] ∧ Words slot g ws ∧ ∀ c, slot c = g → view data ws c = abs c) →
      ∃ ws, b = ws ++ [.unlock g] ∧ Words slot g ws ∧ ∀ c, slot c = g → view data' ws c = abs' c := by
    rintro ⟨ws, hb, hw, h⟩
    exact ⟨ws, hb, hw, fun c hc => by rw [← ha c hc, ← h c hc]; exact (view_congr ws (hd c hc)).symm⟩
  cases p with
  | copy o k u =>
    obtain ⟨h1, h2, h3, h4, h5⟩ := h
    exact ⟨h1, h2, fun c hc => by rw [← hd c hc, ← ha c hc, h3 c hc], h4, fun i hi => by rw [← ha _ h2]; exact h5 i hi⟩
  | write o k u w =>
    obtain ⟨h1, h2, h3, h4, h5⟩ := h
    refine ⟨h1, h2, by rw [← ha _ h2]; exact h3, by rw [← ha _ h2]; exact h4, fun c hc i => ?_⟩
    rw [← ha c hc, ← view_congr b (hd c hc)]; exact h5 c hc i
  | leave o u =>
    obtain ⟨h1, h2, h3, h4⟩ := h
    obtain ⟨s1, s2⟩ := seq_agree h2 ha
    refine ⟨h1, h2, by rw [← s1]; exact h3, fun c hc => ?_⟩
    rw [← s2 c hc, ← view_congr b (hd c hc)]; exact h4 c hc
  | idle => exact out h
  | spin o => exact out h
  | pause o => exact out h
  | fin o => exact out h

omit [DecidableEq S] [DecidableEq T] in
/-- a step of a thread that has nothing to do with the slot, before and after -/
theorem At.frame {s s' : St S T A V n} {abs abs' : A → Fin n → V} {g : S} (h : At slot s abs g) (t : T)
    (hl : s'.lk g = s.lk g) (hd : ∀ c, slot c = g → s.data c = s'.data c) (ha : ∀ c, slot c = g → abs c = abs' c)
    (hu : ∀ u, u ≠ t → s'.buf u = s.buf u ∧ s'.pc u = s.pc u) (hq : Quiet slot s g t) (hq' : Quiet slot s' g t) :
    At slot s' abs' g := by
  have q : ∀ u, Quiet slot s g u → Quiet slot s' g u := by
    intro u h
    by_cases e : u = t
    · rw [e]; exact hq'
    · unfold Quiet; rw [(hu u e).1, (hu u e).2]; exact h
  rcases h with ⟨h1, h2, h3⟩ | ⟨h1, o, h2, h3⟩
  · exact .inl ⟨hl.trans h1, fun u => q u (h2 u), fun c hc => by rw [← hd c hc, ← ha c hc, h3 c hc]⟩
  · have e : o ≠ t := by rintro rfl; exact h3.not_quiet hq
    refine .inr ⟨hl.trans h1, o, fun u hu => q u (h2 u hu), ?_⟩
    rw [(hu o e).1, (hu o e).2]
    exact h3.congr hd ha

omit [DecidableEq S] in
/-- steps that stay outside and touch neither memory nor buffers -/
theorem inv_outside {d : A → Fin n → V} {s : St S T A V n} (hi : Inv slot d s) {t : T} {p : Pc A V n} {tr'}
    (h0 : within slot (s.pc t) = none) (hp : within slot p = none)
    (hproto : ∀ t', Proto t' tr' (phase (set s.pc t p t')))
    (hrep : ∀ abs, Replay seqApply d s.tr abs → Replay seqApply d tr' abs) :
    Inv slot d { s with pc := set s.pc t p, tr := tr' } := by
  obtain ⟨-, abs, hr, h⟩ := hi
  refine ⟨hproto, abs, hrep abs hr, fun g => ?_⟩
  have q : ∀ u, Quiet slot s g u → Quiet slot ({ s with pc := set s.pc t p, tr := tr' } : St S T A V n) g u := by
    intro u h
    refine ⟨h.1, ?_⟩
    show within slot (set s.pc t p u) ≠ some g
    by_cases hu : u = t
    · subst hu; rw [set_same, hp]; simp
    · rw [set_other _ _ hu]; exact h.2
  rcases h g with ⟨h1, h2, h3⟩ | ⟨h1, o, h2, h3⟩
  · exact .inl ⟨h1, fun u => q u (h2 u), h3⟩
  · refine .inr ⟨h1, o, fun u hu => q u (h2 u hu), ?_⟩
    show Own slot g s.data abs (s.buf o) (set s.pc t p o)
    by_cases ho : o = t
    · subst ho
      rw [set_same, Own.outside hp]
      exact (Own.outside h0).1 h3
    · rw [set_other _ _ ho]; exact h3

omit [DecidableEq S] [DecidableEq T] in
/-- a thread that is not quiet is the owner -/
theorem At.owner {s : St S T A V n} {abs : A → Fin n → V} {g : S} (h : At slot s abs g) {t : T} (ht : ¬ Quiet slot s g t) :
    s.lk g = true ∧ (∀ u, u ≠ t → Quiet slot s g u) ∧ Own slot g s.data abs (s.buf t) (s.pc t) := by
  rcases h with ⟨h1, h2, h3⟩ | ⟨h1, o, h2, h3⟩
  · exact absurd (h2 t) ht
  · have e : t = o := by
      by_contra hc
      exact ht (h2 t hc)
    subst e
    exact ⟨h1, h2, h3⟩

omit [DecidableEq S] [DecidableEq T] in
theorem At.within {s : St S T A V n} {abs : A → Fin n → V} {g : S} (h : At slot s abs g) {t : T} (ht : within slot (s.pc t) = some g) :
    s.lk g = true ∧ (∀ u, u ≠ t → Quiet slot s g u) ∧ Own slot g s.data abs (s.buf t) (s.pc t) :=
  h.owner fun q => q.2 ht

omit [DecidableEq S] [DecidableEq T] in
/-- the owner of a slot is quiet at the others -/
theorem Own.quiet {s : St S T A V n} {data abs : A → Fin n → V} {g g' : S} {t : T} (h : Own slot g data abs (s.buf t) (s.pc t))
    (hg : g' ≠ g) : Quiet slot s g' t := by
  obtain ⟨h1, h2, -⟩ := h.place
  refine ⟨fun e he => by rw [h1 e he]; exact hg.symm, ?_⟩
  rcases h2 with h2 | h2 <;> rw [h2]
  · simp
  · simpa using hg.symm

omit [DecidableEq S] [DecidableEq A] in
theorem quiet_set {s : St S T A V n} {t : T} {g : S} (h : ∀ u, u ≠ t → Quiet slot s g u) (p : Pc A V n) (b : List (Ent S A V n))
    (lk data tr) : ∀ u, u ≠ t → Quiet slot (⟨lk, data, set s.buf t b, set s.pc t p, tr⟩ : St S T A V n) g u := by
  intro u hu
  refine ⟨?_, ?_⟩
  · show ∀ e ∈ set s.buf t b u, _
    rw [set_other _ _ hu]; exact (h u hu).1
  · show within slot (set s.pc t p u) ≠ some g
    rw [set_other _ _ hu]; exact (h u hu).2

omit [DecidableEq S] [DecidableEq A] in
theorem quiet_set' {s : St S T A V n} {t : T} {g : S} (h : ∀ u, u ≠ t → Quiet slot s g u) (p : Pc A V n) (lk data tr) :
    ∀ u, u ≠ t → Quiet slot (⟨lk, data, s.buf, set s.pc t p, tr⟩ : St S T A V n) g u := by
  intro u hu
  refine ⟨(h u hu).1, ?_⟩
  show within slot (set s.pc t p u) ≠ some g
  rw [set_other _ _ hu]; exact (h u hu).2

omit [DecidableEq S] in
/-- a step inside the critical section of `g`, seen from there and from elsewhere -/
theorem inside_step {s : St S T A V n} {abs abs' : A → Fin n → V} (h : ∀ g, At slot s abs g) {t : T} {g : S}
    (ht : within slot (s.pc t) = some g) {p : Pc A V n} {b : List (Ent S A V n)} {tr'}
    (ha : ∀ c, slot c ≠ g → abs c = abs' c)
    (own : Own slot g s.data abs (s.buf t) (s.pc t) → Own slot g s.data abs' b p) :
    ∀ g', At slot (⟨s.lk, s.data, set s.buf t b, set s.pc t p, tr'⟩ : St S T A V n) abs' g' := by
  intro g'
  obtain ⟨h1, h2, h3⟩ := (h g).within ht
  by_cases e : g' = g
  · subst e
    refine .inr ⟨h1, t, quiet_set h2 _ _ _ _ _, ?_⟩
    show Own slot g' s.data abs' (set s.buf t b t) (set s.pc t p t)
    rw [set_same, set_same]
    exact own h3
  · refine (h g').frame t rfl (fun _ _ => rfl) (fun c hc => ha c (by rw [hc]; exact e)) ?_ (h3.quiet e) ?_
    · intro u hu
      exact ⟨set_other _ _ hu, set_other _ _ hu⟩
    · have o : Own slot g s.data abs' (set s.buf t b t) (set s.pc t p t) := by rw [set_same, set_same]; exact own h3
      exact Own.quiet (s := ⟨s.lk, s.data, set s.buf t b, set s.pc t p, tr'⟩) o e

theorem set_self {X : Type} (f : T → X) (t : T) : SpinLock.set f t (f t) = f := by
  funext u
  unfold SpinLock.set
  split
  · next h => rw [h]
  · rfl

omit [DecidableEq S] [DecidableEq T] in
theorem own_write_start {g : S} {o : Op A V n} {data abs : A → Fin n → V} {u w} (ho : slot o.obj = g)
    (hd : ∀ c, slot c = g → data c = abs c)
    (hw : o.new (abs o.obj) = some w) (hu : o.res u = o.res (abs o.obj)) : Own slot g data abs [] (.write o 0 u w) := by
  refine ⟨fun e he => (by cases he), ho, hw, hu, fun c hc i => ?_⟩
  rw [if_neg (by omega), ← hd c hc]; rfl

omit [DecidableEq S] in
theorem seq_other (o : Op A V n) (abs : A → Fin n → V) {c : A} (h : slot c ≠ slot o.obj) : abs c = (seqApply o abs).1 c := by
  have hc : c ≠ o.obj := fun e => h (by rw [e])
  cases o with
  | load a => rfl
  | store a b => exact (if_neg hc).symm
  | exchange a b => exact (if_neg hc).symm
  | fetch a f => exact (if_neg hc).symm

theorem inv_step {d : A → Fin n → V} {s s' : St S T A V n} (hi : Inv slot d s) (hs : Step slot s s') : Inv slot d s' := by
  cases hs with
  | call t o hp =>
    refine inv_outside hi (by rw [hp]; rfl) rfl (proto_ev hi.1 rfl ?_) (fun abs h => Replay.inv h)
    have := hi.1 t; rw [hp] at this
    exact Proto.inv this
  | lock t o junk hp hb hl =>
    obtain ⟨hpr, abs, hr, h⟩ := hi
    have hw : within slot (o.enter junk) = some (slot o.obj) := by
      unfold Op.enter; split
      · rfl
      · split <;> rfl
    refine ⟨proto_same hpr ?_, abs, hr, fun g => ?_⟩
    · rw [hp]; unfold Op.enter; split
      · rfl
      · split <;> rfl
    · by_cases e : g = slot o.obj
      · subst e
        rcases h (slot o.obj) with ⟨h1, h2, h3⟩ | ⟨h1, o', h2, h3⟩
        · refine .inr ⟨if_pos rfl, t, quiet_set' (fun u _ => h2 u) _ _ _ _, ?_⟩
          show Own slot _ s.data abs (s.buf t) (set s.pc t (o.enter junk) t)
          rw [set_same, hb]
          cases o with
          | load a => exact ⟨rfl, rfl, h3, rfl, fun i hi => by omega⟩
          | store a b => exact own_write_start rfl h3 rfl rfl
          | exchange a b => exact ⟨rfl, rfl, h3, rfl, fun i hi => by omega⟩
          | fetch a f => exact ⟨rfl, rfl, h3, rfl, fun i hi => by omega⟩
        · rw [h1] at hl; cases hl
      · refine (h g).frame t (if_neg e) (fun _ _ => rfl) (fun _ _ => rfl) (fun u hu => ⟨rfl, set_other _ _ hu⟩) ?_ ?_
        · exact ⟨by rw [hb]; exact fun e he => (by cases he), by rw [hp]; simp [within]⟩
        · refine ⟨by show ∀ e ∈ s.buf t, _; rw [hb]; exact fun e he => (by cases he), ?_⟩
          show within slot (set s.pc t (o.enter junk) t) ≠ some g
          rw [set_same, hw]
          simpa using fun h => e h.symm
  | busy t o hp hb hl =>
    exact inv_outside hi (by rw [hp]; rfl) rfl (proto_same hi.1 (by rw [hp]; rfl)) (fun abs h => h)
  | waiting t o hp hv => exact hi
  | retry t o hp hv =>
    exact inv_outside hi (by rw [hp]; rfl) rfl (proto_same hi.1 (by rw [hp]; rfl)) (fun abs h => h)
  | copy t o k u hk hp =>
    obtain ⟨hpr, abs, hr, h⟩ := hi
    refine ⟨proto_same hpr (by rw [hp]; rfl), abs, hr, ?_⟩
    have := inside_step (abs' := abs) (b := s.buf t) (tr' := s.tr) h (t := t) (g := slot o.obj) (by rw [hp]; rfl)
      (p := .copy o (k + 1) (fun i => if i = ⟨k, hk⟩ then view s.data (s.buf t) o.obj ⟨k, hk⟩ else u i))
      (fun _ _ => rfl) ?_
    · rwa [set_self] at this
    · rw [hp]
      rintro ⟨h1, h2, h3, h4, h5⟩
      refine ⟨h1, h2, h3, h4, fun i hik => ?_⟩
      show (if i = ⟨k, hk⟩ then view s.data (s.buf t) o.obj ⟨k, hk⟩ else u i) = _
      by_cases he : i = ⟨k, hk⟩
      · rw [if_pos he, he, h1, ← h3 _ h2]; rfl
      · rw [if_neg he]
        refine h5 i ?_
        have : i.1 ≠ k := fun h => he (Fin.ext h)
        omega
  | copied t o k u hp hk =>
    obtain ⟨hpr, abs, hr, h⟩ := hi
    refine ⟨proto_same hpr ?_, abs, hr, ?_⟩
    · rw [hp]; unfold Op.copied; split <;> rfl
    have := inside_step (abs' := abs) (b := s.buf t) (tr' := s.tr) h (t := t) (g := slot o.obj) (by rw [hp]; rfl)
      (p := o.copied u) (fun _ _ => rfl) ?_
    · rwa [set_self] at this
    · rw [hp]
      rintro ⟨h1, h2, h3, h4, h5⟩
      have hu : u = abs o.obj := funext fun i => h5 i (by have := i.2; omega)
      rw [h1]
      unfold Op.copied
      split
      · next hn =>
        refine ⟨fun e he => (by cases he), rfl, ?_, fun c hc => ?_⟩
        · rw [hu]; exact res_seq o abs
        · rw [new_none hn, ← h3 c hc]; rfl
      · next w hn =>
        rw [hu] at hn
        exact own_write_start rfl h3 hn (by rw [hu])
  | write t o k u w hk hp =>
    obtain ⟨hpr, abs, hr, h⟩ := hi
    refine ⟨proto_same hpr (by rw [hp]; rfl), abs, hr, ?_⟩
    refine inside_step h (t := t) (g := slot o.obj) (by rw [hp]; rfl) (fun _ _ => rfl) ?_
    rw [hp]
    rintro ⟨h1, h2, h3, h4, h5⟩
    refine ⟨?_, h2, h3, h4, fun c hsc i => ?_⟩
    · intro e he
      rcases List.mem_append.1 he with he | he
      · exact h1 e he
      · exact ⟨_, _, _, List.mem_singleton.1 he, rfl⟩
    · rw [view_append]
      show (if c = o.obj ∧ i = ⟨k, hk⟩ then w ⟨k, hk⟩ else view s.data (s.buf t) c i) = _
      rw [h5 c hsc]
      by_cases hc : c = o.obj
      · by_cases he : i = ⟨k, hk⟩
        · rw [if_pos ⟨hc, he⟩, if_pos ⟨hc, by rw [he]; exact Nat.lt_succ_self k⟩, he]
        · have hne : i.1 ≠ k := fun h => he (Fin.ext h)
          rw [if_neg (fun h => he h.2)]
          by_cases hlt : i.1 < k
          · rw [if_pos ⟨hc, hlt⟩, if_pos ⟨hc, by omega⟩]
          · rw [if_neg (fun h => hlt h.2), if_neg (fun h => by have := h.2; omega)]
      · rw [if_neg (fun h => hc h.1), if_neg (fun h => hc h.1), if_neg (fun h => hc h.1)]
  | written t o k u w hp hk =>
    obtain ⟨hpr, abs, hr, h⟩ := hi
    refine ⟨proto_same hpr (by rw [hp]; rfl), abs, hr, ?_⟩
    have := inside_step (abs' := abs) (b := s.buf t) (tr' := s.tr) h (t := t) (g := slot o.obj) (by rw [hp]; rfl)
      (p := .leave o u) (fun _ _ => rfl) ?_
    · rwa [set_self] at this
    · rw [hp]
      rintro ⟨h1, h2, h3, h4, h5⟩
      refine ⟨h1, h2, by rw [h4]; exact res_seq o abs, fun c hsc => ?_⟩
      funext i
      rw [h5 c hsc, new_seq h3]
      show _ = (if c = o.obj then w else abs c) i
      by_cases hc : c = o.obj
      · rw [if_pos ⟨hc, by have := i.2; omega⟩, if_pos hc]
      · rw [if_neg (fun h => hc h.1), if_neg hc]
  | leave t o u hp =>
    obtain ⟨hpr, abs, hr, h⟩ := hi
    have hown := ((h (slot o.obj)).within (t := t) (by rw [hp]; rfl)).2.2
    rw [hp] at hown
    obtain ⟨-, -, h2, -⟩ := hown
    have hproto : Proto t (s.tr ++ [.lin t o (o.res u)]) (phase (Pc.fin (o.res u) : Pc A V n)) := by
      have := hpr t; rw [hp] at this
      exact Proto.lin this
    refine ⟨proto_ev hpr rfl hproto, (seqApply o abs).1, ?_, ?_⟩
    · show Replay seqApply d (s.tr ++ [.lin t o (o.res u)]) _
      rw [h2]; exact Replay.lin hr
    · refine inside_step h (t := t) (g := slot o.obj) (by rw [hp]; rfl) (fun c hc => seq_other o abs hc) ?_
      rw [hp]
      rintro ⟨h1, -, -, h4⟩
      exact ⟨s.buf t, rfl, h1, h4⟩
  | ret t r hp =>
    refine inv_outside hi (by rw [hp]; rfl) rfl (proto_ev hi.1 rfl ?_) (fun abs h => Replay.ret h)
    have := hi.1 t; rw [hp] at this
    exact Proto.ret this
  | flush t e b hb =>
    obtain ⟨hpr, abs, hr, h⟩ := hi
    have he : e ∈ s.buf t := by rw [hb]; exact List.mem_cons_self ..
    obtain ⟨h1, h2, h3⟩ := (h (e.at slot)).owner (t := t) (fun q => q.1 e he rfl)
    have hq : ∀ u, u ≠ t → Quiet slot (⟨e.putLk s.lk, e.put s.data, set s.buf t b, s.pc, s.tr⟩ : St S T A V n) (e.at slot) u := by
      intro u hu
      refine ⟨?_, (h2 u hu).2⟩
      show ∀ x ∈ set s.buf t b u, _
      rw [set_other _ _ hu]; exact (h2 u hu).1
    refine ⟨hpr, abs, hr, fun g => ?_⟩
    by_cases hg : g = e.at slot
    · rw [hg]
      rw [hb] at h3
      cases e with
      | unlock g0 =>
        have hout : within slot (s.pc t) = none := by
          cases hpc : s.pc t with
          | copy o k u => rw [hpc] at h3; cases h3.1
          | write o k u w => rw [hpc] at h3; obtain ⟨a, i, v, hx, -⟩ := h3.1 _ (List.mem_cons_self ..); cases hx
          | leave o u => rw [hpc] at h3; obtain ⟨a, i, v, hx, -⟩ := h3.1 _ (List.mem_cons_self ..); cases hx
          | idle => rfl
          | spin o => rfl
          | pause o => rfl
          | fin o => rfl
        obtain ⟨ws, hws, hwords, hv⟩ := (Own.outside hout).1 h3
        cases ws with
        | nil =>
          injection hws with e1 e2
          subst e2
          refine .inl ⟨if_pos rfl, fun u => ?_, hv⟩
          by_cases hu : u = t
          · subst hu
            refine ⟨?_, by show within slot (s.pc u) ≠ _; rw [hout]; simp⟩
            show ∀ x ∈ set s.buf u [] u, _
            rw [set_same]; exact fun x hx => by cases hx
          · exact hq u hu
        | cons x ws =>
          injection hws with e1 e2
          obtain ⟨a, i, v, hx, -⟩ := hwords x (List.mem_cons_self ..)
          rw [hx] at e1; cases e1
      | word a i v =>
        refine .inr ⟨h1, t, hq, ?_⟩
        show Own slot _ (Ent.put s.data (.word a i v : Ent S A V n)) abs (set s.buf t b t) (s.pc t)
        rw [set_same]
        by_cases hin : within slot (s.pc t) = none
        · obtain ⟨ws, hws, hwords, hv⟩ := (Own.outside hin).1 h3
          rw [Own.outside hin]
          cases ws with
          | nil => injection hws with e1 e2; cases e1
          | cons x ws =>
            injection hws with e1 e2
            subst e1
            exact ⟨ws, e2, fun x hx => hwords x (List.mem_cons_of_mem _ hx), hv⟩
        · cases hpc : s.pc t with
          | copy o k u => rw [hpc] at h3; cases h3.1
          | write o k u w =>
            rw [hpc] at h3
            obtain ⟨a1, a2, a3, a4, a5⟩ := h3
            exact ⟨fun x hx => a1 x (List.mem_cons_of_mem _ hx), a2, a3, a4, a5⟩
          | leave o u =>
            rw [hpc] at h3
            obtain ⟨a1, a2, a3, a4⟩ := h3
            exact ⟨fun x hx => a1 x (List.mem_cons_of_mem _ hx), a2, a3, a4⟩
          | idle => rw [hpc] at hin; exact absurd rfl hin
          | spin o => rw [hpc] at hin; exact absurd rfl hin
          | pause o => rw [hpc] at hin; exact absurd rfl hin
          | fin o => rw [hpc] at hin; exact absurd rfl hin
    · have q := h3.quiet (s := s) hg
      refine (h g).frame t ?_ ?_ (fun _ _ => rfl) (fun u hu => ⟨set_other _ _ hu, rfl⟩) q ?_
      · cases e with
        | unlock g0 => exact if_neg hg
        | word a i v => rfl
      · intro c hc
        cases e with
        | unlock g0 => rfl
        | word a i v =>
          funext j
          refine (if_neg ?_).symm
          rintro ⟨rfl, -⟩
          exact hg hc.symm
      · refine ⟨?_, q.2⟩
        show ∀ x ∈ set s.buf t b t, _
        rw [set_same]
        exact fun x hx => q.1 x (by rw [hb]; exact List.mem_cons_of_mem _ hx)

theorem inv_reach {d : A → Fin n → V} {s : St S T A V n} (h : Reach slot d s) : Inv slot d s := by
  induction h with
  | init =>
    exact ⟨fun t => Proto.nil, d, Replay.nil, fun g => .inl ⟨rfl, fun t => ⟨fun e he => (by cases he), by simp [within]⟩, fun _ _ => rfl⟩⟩
  | step _ hs ih => exact inv_step ih hs

end CE.SpinSlots
