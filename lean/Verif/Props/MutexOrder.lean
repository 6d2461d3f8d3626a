import Verif.Proof.Mutex
import Mathlib.Data.Fintype.Basic
import Mathlib.Data.Finset.Max
import Mathlib.Algebra.BigOperators.Group.Finset.Basic
/-!
# Several mutexes (C153)

Threads that take several mutexes of lib/h/ce/mutex.h through the wrappers `implShared` (`thread_mutex` has the same without
the shared ones).  Each thread runs a list of calls; the locks of the platform behave as in Model/Mutex.lean.  Platforms
differ in whether a reader waits while a writer is waiting: `prefer` tells; everything is shown for both.
-/
namespace CE.Mutex

section
variable {T M : Type}

/-- mutexes `M`, and for each thread the calls still to be made -/
structure Cl (T M : Type) where
  /-- the locks -/
  lock : M → Lock T
  /-- the calls -/
  todo : T → List (M × Call)

/-- change at one place -/
def upd {X Y : Type} [DecidableEq X] (f : X → Y) (x : X) (y : Y) : X → Y := fun z => if z = x then y else f z

/-- a waiting writer is in the way of a reader -/
def InTheWay (prefer : Bool) (s : Cl T M) (t : T) (k : M) (c : Call) : Prop :=
  prefer = true ∧ c = .acquireShared ∧ ∃ u, u ≠ t ∧ (s.todo u).head? = some (k, .acquire)

/-- thread `t` completes its next call -/
inductive Turn [DecidableEq T] [DecidableEq M] (prefer : Bool) : Cl T M → Cl T M → Prop
  | call (s : Cl T M) (t k c rest l r) : s.todo t = (k, c) :: rest → ¬ InTheWay prefer s t k c →
      (s.lock k).op t false (implShared c) = .done l r → Turn prefer s ⟨upd s.lock k l, upd s.todo t rest⟩

/-- all constructed, no call made -/
def startOf (prog : T → List (M × Call)) : Cl T M := ⟨fun _ => ⟨true, none, fun _ => false⟩, prog⟩

/-- after `n` completed calls -/
inductive Runs [DecidableEq T] [DecidableEq M] (prefer : Bool) (prog : T → List (M × Call)) : Nat → Cl T M → Prop
  | start : Runs prefer prog 0 (startOf prog)
  | turn {n s s'} : Runs prefer prog n s → Turn prefer s s' → Runs prefer prog (n + 1) s'

/-- a list of calls that, beginning with `h`, acquires only what it does not have, releases what it has, and ends with
nothing; what it acquires satisfies `ord` with what it has -/
def Bracketed [DecidableEq M] (ord : M → M → Prop) : (M → Hold) → List (M × Call) → Prop
  | h, [] => ∀ k, h k = .none
  | h, (k, .acquire) :: p => h k = .none ∧ (∀ j, h j ≠ .none → ord j k) ∧ Bracketed ord (upd h k .excl) p
  | h, (k, .acquireShared) :: p => h k = .none ∧ (∀ j, h j ≠ .none → ord j k) ∧ Bracketed ord (upd h k .shared) p
  | h, (k, .release) :: p => h k = .excl ∧ Bracketed ord (upd h k .none) p
  | h, (k, .releaseShared) :: p => h k = .shared ∧ Bracketed ord (upd h k .none) p
  | _, _ => False

end

variable {T M : Type} [DecidableEq T] [DecidableEq M]

/-- the state of one mutex -/
def one (s : Cl T M) (h : T → M → Hold) (k : M) : St T := ⟨s.lock k, true, fun t => h t k, false⟩

/-- invariant -/
structure ClInv (ord : M → M → Prop) (s : Cl T M) (h : T → M → Hold) : Prop where
  /-- each mutex -/
  each : ∀ k, Inv (one s h k)
  /-- each thread -/
  prog : ∀ t, Bracketed ord (h t) (s.todo t)

omit [DecidableEq T] in
theorem bracketed_allowed {ord : M → M → Prop} {h : M → Hold} {k : M} {c : Call} {rest : List (M × Call)}
    (hb : Bracketed ord h ((k, c) :: rest)) {s : Cl T M} {hs : T → M → Hold} {t : T} (e : hs t = h) :
    Allowed (one s hs k) t c ∧ ∀ r, Bracketed ord (upd h k (holdAfter (h k) r c)) rest := by
  subst e
  cases c <;> simp only [Bracketed] at hb <;> simp only [Allowed, one, holdAfter]
  · exact ⟨⟨trivial, hb.1⟩, fun _ => hb.2.2⟩
  · exact ⟨⟨trivial, hb.1⟩, fun _ => hb.2⟩
  · exact ⟨⟨trivial, hb.1⟩, fun _ => hb.2.2⟩
  · exact ⟨⟨trivial, hb.1⟩, fun _ => hb.2⟩

theorem madeAfter_bracketed {ord : M → M → Prop} {h : M → Hold} {k : M} {c : Call} {rest : List (M × Call)}
    (hb : Bracketed ord h ((k, c) :: rest)) : madeAfter true c = true := by
  cases c <;> simp only [Bracketed] at hb <;> rfl

theorem clInv_turn {ord : M → M → Prop} {prefer : Bool} {s s' : Cl T M} {h : T → M → Hold} (hi : ClInv ord s h)
    (st : Turn prefer s s') : ∃ h', ClInv ord s' h' := by
  cases st with
  | call t k c rest l r ht _ ho =>
    have hb := hi.prog t
    rw [ht] at hb
    obtain ⟨ha, hr⟩ := bracketed_allowed hb (s := s) (hs := h) (t := t) rfl
    refine ⟨upd h t (upd (h t) k (holdAfter (h t k) r c)), fun j => ?_, fun u => ?_⟩
    · by_cases hj : j = k
      · subst hj
        have := inv_step sub_shared (hi.each j) (Step.done _ t c _ false l r ha rfl ho)
        convert this using 1
        simp only [one, upd, if_pos, madeAfter_bracketed hb]
        congr 1
        funext u
        by_cases hu : u = t
        · simp [hu, upd]
        · simp [hu]
      · have := hi.each j
        convert this using 1
        simp only [one, upd, if_neg hj]
        congr 1
        funext u
        by_cases hu : u = t
        · simp [hu, hj, upd]
        · simp [hu]
    · by_cases hu : u = t
      · subst hu
        simpa [upd] using hr r
      · simpa [upd, hu] using hi.prog u

theorem clInv_runs {ord : M → M → Prop} {prefer : Bool} {prog : T → List (M × Call)} {n : Nat} {s : Cl T M}
    (hp : ∀ t, Bracketed ord (fun _ => .none) (prog t)) (hr : Runs prefer prog n s) : ∃ h, ClInv ord s h := by
  induction hr with
  | start =>
    refine ⟨fun _ _ => .none, fun k => ?_, hp⟩
    exact ⟨rfl, rfl, fun _ _ => rfl, fun _ t => ⟨fun h => (by cases h), fun h => (by cases h)⟩,
      fun _ t => ⟨fun h => (by cases h), fun h => (by cases h)⟩, fun _ _ _ h => (by cases h)⟩
  | turn _ st ih =>
    obtain ⟨h, hi⟩ := ih
    exact clInv_turn hi st

/-- **Nothing undefined happens** in programs that are well bracketed, in whatever order they take the mutexes. -/
theorem C153_defined {ord : M → M → Prop} {prefer : Bool} {prog : T → List (M × Call)} {n : Nat} {s : Cl T M}
    (hp : ∀ t, Bracketed ord (fun _ => .none) (prog t)) (hr : Runs prefer prog n s) (t : T) (k : M) (c : Call)
    (rest : List (M × Call)) (ht : s.todo t = (k, c) :: rest) (fail : Bool) : (s.lock k).op t fail (implShared c) ≠ .ub := by
  obtain ⟨h, hi⟩ := clInv_runs hp hr
  have hb := hi.prog t
  rw [ht] at hb
  obtain ⟨ha, _⟩ := bracketed_allowed hb (s := s) (hs := h) (t := t) rfl
  intro hu
  have := (inv_step sub_shared (hi.each k) (Step.ub _ t c _ fail ha rfl hu)).ok
  cases this

/-- a held mutex is what an acquire waits for -/
theorem acquire_or_held {s : Cl T M} {h : T → M → Hold} {ord : M → M → Prop} (hi : ClInv ord s h) {t : T} {k : M}
    (ht : h t k = .none) :
    (∃ l r, (s.lock k).op t false (implShared .acquire) = .done l r) ∨ ∃ u, h u k ≠ .none := by
  have hk := hi.each k
  have hn : ¬ ((s.lock k).live = false ∨ (s.lock k).owns t) := not_owned hk (t := t) ⟨rfl, ht⟩
  by_cases hf : (s.lock k).excl = none ∧ ∀ u, (s.lock k).shared u = false
  · left
    refine ⟨{ s.lock k with excl := some t }, true, ?_⟩
    simp only [implShared, Lock.op]
    rw [if_neg hn, if_pos hf]
  · right
    by_contra hc
    push Not at hc
    exact hf (hk.none rfl hc)

theorem acquireShared_or_held {s : Cl T M} {h : T → M → Hold} {ord : M → M → Prop} (hi : ClInv ord s h) {t : T} {k : M}
    (ht : h t k = .none) :
    (∃ l r, (s.lock k).op t false (implShared .acquireShared) = .done l r) ∨ ∃ u, h u k ≠ .none := by
  have hk := hi.each k
  have hn : ¬ ((s.lock k).live = false ∨ (s.lock k).owns t) := not_owned hk (t := t) ⟨rfl, ht⟩
  by_cases hf : (s.lock k).excl = none ∧ ∀ u, (s.lock k).shared u = false
  · left
    refine ⟨{ s.lock k with shared := fun u => if u = t then true else (s.lock k).shared u }, true, ?_⟩
    simp only [implShared, Lock.op]
    rw [if_neg hn, if_pos hf.1]
  · right
    by_contra hc
    push Not at hc
    exact hf (hk.none rfl hc)

/-- a release goes on -/
theorem release_goes {s : Cl T M} {h : T → M → Hold} {ord : M → M → Prop} (hi : ClInv ord s h) {prefer : Bool} {t : T} {k : M}
    {c : Call} {rest : List (M × Call)} (ht : s.todo t = (k, c) :: rest) (hc : c = .release ∨ c = .releaseShared) :
    ∃ s', Turn prefer s s' := by
  have hb := hi.prog t
  rw [ht] at hb
  have hk := hi.each k
  have hl : (s.lock k).live = true := hk.made
  rcases hc with rfl | rfl
  · have he : (s.lock k).excl = some t := (hk.ex rfl t).1 hb.1
    exact ⟨_, Turn.call s t k _ rest { s.lock k with excl := none } true ht (fun h => by cases h.2.1)
      (by simp only [implShared, Lock.op]; rw [if_pos ⟨hl, he⟩])⟩
  · have he : (s.lock k).shared t = true := (hk.sh rfl t).1 hb.1
    exact ⟨_, Turn.call s t k _ rest _ true ht (fun h => by cases h.2.1)
      (by simp only [implShared, Lock.op]; rw [if_pos ⟨hl, he⟩])⟩

/-- what a thread is about to take ranks above what it has -/
theorem next_above {rank : M → Nat} {h : M → Hold} {k : M} {c : Call} {rest : List (M × Call)}
    (hb : Bracketed (fun j k => rank j < rank k) h ((k, c) :: rest)) (hc : ¬ (c = .release ∨ c = .releaseShared)) :
    (c = .acquire ∨ c = .acquireShared) ∧ h k = .none ∧ ∀ j, h j ≠ .none → rank j < rank k := by
  cases c <;> simp only [Bracketed] at hb <;> simp at hc ⊢ <;> exact ⟨hb.1, hb.2.1⟩

/-- **No deadlock.** Finitely many threads, each taking the mutexes (exclusively or shared) in the order of some numbering,
for instance by address: as long as some thread is not finished, some thread completes its next call. -/
theorem C153_no_deadlock [Fintype T] {rank : M → Nat} {prefer : Bool} {prog : T → List (M × Call)} {n : Nat} {s : Cl T M}
    (hp : ∀ t, Bracketed (fun j k => rank j < rank k) (fun _ => .none) (prog t)) (hr : Runs prefer prog n s) :
    (∀ t, s.todo t = []) ∨ ∃ s', Turn prefer s s' := by
  obtain ⟨h, hi⟩ := clInv_runs hp hr
  by_cases hrel : ∃ t k c rest, s.todo t = (k, c) :: rest ∧ (c = .release ∨ c = .releaseShared)
  · obtain ⟨t, k, c, rest, ht, hc⟩ := hrel
    exact .inr (release_goes hi ht hc)
  by_cases hdone : ∀ t, s.todo t = []
  · exact .inl hdone
  right
  let f : T → Nat := fun t => match s.todo t with | [] => 0 | (k, _) :: _ => rank k + 1
  have hex : ∃ t ∈ (Finset.univ : Finset T), ∀ u ∈ (Finset.univ : Finset T), f u ≤ f t := by
    apply Finset.exists_max_image
    by_contra hne
    exact hdone (fun t => absurd ⟨t, Finset.mem_univ t⟩ hne)
  obtain ⟨t, _, hmax⟩ := hex
  -- a holder of the mutex a thread of maximal rank waits for would wait for one above
  have held : ∀ u k, rank k + 1 = f t → h u k ≠ .none → False := by
    intro u k hk hu
    cases htd : s.todo u with
    | nil =>
      have := hi.prog u
      rw [htd] at this
      exact hu (this k)
    | cons q rest =>
      obtain ⟨j, c⟩ := q
      have hb := hi.prog u
      rw [htd] at hb
      have h2 := next_above hb (fun hc => hrel ⟨u, j, c, rest, htd, hc⟩)
      have h3 := h2.2.2 k hu
      have h4 := hmax u (Finset.mem_univ u)
      have h5 : f u = rank j + 1 := by simp only [f, htd]
      omega
  -- so an exclusive acquire of maximal rank completes
  have goes : ∀ u k rest, rank k + 1 = f t → s.todo u = (k, .acquire) :: rest → ∃ s', Turn prefer s s' := by
    intro u k rest hk hu
    have hb := hi.prog u
    rw [hu] at hb
    rcases acquire_or_held hi (t := u) (k := k) hb.1 with ⟨l, r, ho⟩ | ⟨v, hv⟩
    · exact ⟨_, Turn.call s u k _ rest l r hu (fun h => by cases h.2.1) ho⟩
    · exact (held v k hk hv).elim
  cases htd : s.todo t with
  | nil =>
    have h0 : f t = 0 := by simp only [f, htd]
    exfalso
    apply hdone
    intro u
    have := hmax u (Finset.mem_univ u)
    cases hu : s.todo u with
    | nil => rfl
    | cons q rest =>
      have : f u = rank q.1 + 1 := by simp only [f, hu]
      omega
  | cons q rest =>
    obtain ⟨k, c⟩ := q
    have hft : rank k + 1 = f t := by simp only [f, htd]
    have hb := hi.prog t
    rw [htd] at hb
    obtain ⟨hc, hn, _⟩ := next_above hb (fun hc => hrel ⟨t, k, c, rest, htd, hc⟩)
    rcases hc with rfl | rfl
    · exact goes t k rest hft htd
    · by_cases hw : InTheWay prefer s t k .acquireShared
      · obtain ⟨_, _, u, _, hu⟩ := hw
        cases hu' : s.todo u with
        | nil => rw [hu'] at hu; cases hu
        | cons q' rest' =>
          rw [hu'] at hu
          simp only [List.head?_cons, Option.some.injEq] at hu
          subst hu
          exact goes u k rest' hft hu'
      · rcases acquireShared_or_held hi (t := t) (k := k) hn with ⟨l, r, ho⟩ | ⟨v, hv⟩
        · exact ⟨_, Turn.call s t k _ rest l r htd hw ho⟩
        · exact (held v k hft hv).elim

/-- the calls still to be made -/
def left [Fintype T] (s : Cl T M) : Nat := ∑ t, (s.todo t).length

theorem left_turn [Fintype T] {prefer : Bool} {s s' : Cl T M} (st : Turn prefer s s') : left s' + 1 = left s := by
  cases st with
  | call t k c rest l r ht _ ho =>
    unfold left
    rw [← Finset.add_sum_erase _ _ (Finset.mem_univ t), ← Finset.add_sum_erase _ (fun t => (s.todo t).length) (Finset.mem_univ t)]
    have : ∑ x ∈ Finset.univ.erase t, (upd s.todo t rest x).length = ∑ x ∈ Finset.univ.erase t, (s.todo x).length := by
      apply Finset.sum_congr rfl
      intro u hu
      rw [upd, if_neg (Finset.ne_of_mem_erase hu)]
    simp only [this]
    rw [upd, if_pos rfl, ht, List.length_cons]
    omega

/-- **Every schedule finishes.** No run is longer than the programs together, and when nothing goes on any more, all programs
are finished, all their calls made, and every mutex is free. -/
theorem C153_finishes [Fintype T] {rank : M → Nat} {prefer : Bool} {prog : T → List (M × Call)} {n : Nat} {s : Cl T M}
    (hp : ∀ t, Bracketed (fun j k => rank j < rank k) (fun _ => .none) (prog t)) (hr : Runs prefer prog n s) :
    n ≤ ∑ t, (prog t).length ∧
    ((¬ ∃ s', Turn prefer s s') → n = ∑ t, (prog t).length ∧ (∀ t, s.todo t = []) ∧
      ∀ k, (s.lock k).excl = none ∧ ∀ t, (s.lock k).shared t = false) := by
  have hl : n + left s = ∑ t, (prog t).length := by
    clear hp
    induction hr with
    | start => simp [left, startOf]
    | turn _ st ih => have := left_turn st; omega
  refine ⟨by omega, fun hno => ?_⟩
  have hd := (C153_no_deadlock hp hr).resolve_right hno
  have h0 : left s = 0 := by simp [left, hd]
  refine ⟨by omega, hd, fun k => ?_⟩
  obtain ⟨h, hi⟩ := clInv_runs hp hr
  apply (hi.each k).none rfl
  intro u
  have := hi.prog u
  rw [hd u] at this
  exact this k

/-- take both, release both -/
def both (a b : Bool) : List (Bool × Call) := [(a, .acquire), (b, .acquire), (b, .release), (a, .release)]

theorem both_bracketed (a : Bool) : Bracketed (fun _ _ => True) (fun _ => .none) (both a (!a)) := by
  cases a <;> simp [both, Bracketed, upd]

/-- The order is needed: two threads that take two mutexes in different orders, each well bracketed, can come to where
nothing goes on though neither has finished. -/
theorem C153_order_needed_false (prefer : Bool) : ∃ (prog : Bool → List (Bool × Call)) (n : Nat) (s : Cl Bool Bool),
    (∀ t, Bracketed (fun _ _ => True) (fun _ => .none) (prog t)) ∧ Runs prefer prog n s ∧ (∀ t, s.todo t ≠ []) ∧
      ¬ ∃ s', Turn prefer s s' := by
  refine ⟨fun t => both t (!t), 2, ⟨fun k => ⟨true, some k, fun _ => false⟩, fun t => (both t (!t)).tail⟩, both_bracketed, ?_, ?_, ?_⟩
  · have op : ∀ t : Bool, (⟨true, none, fun _ => false⟩ : Lock Bool).op t false (implShared .acquire) =
        .done ⟨true, some t, fun _ => false⟩ true := by
      intro t
      simp only [implShared, Lock.op]
      rw [if_neg (by simp [Lock.owns]), if_pos (by simp)]
    have h0 : Runs prefer (fun t => both t (!t)) 0 (startOf (fun t => both t (!t))) := Runs.start
    have h1 := Runs.turn h0 (Turn.call _ true true .acquire _ _ _ rfl (fun h => by cases h.2.1) (op true))
    have h2 := Runs.turn h1 (Turn.call _ false false .acquire _ _ _ rfl (fun h => by cases h.2.1) (op false))
    convert h2 using 2
    · funext k
      cases k <;> rfl
    · funext t
      cases t <;> rfl
  · intro t
    simp [both]
  · rintro ⟨s', st⟩
    cases st with
    | call t k c rest l r ht _ ho =>
      simp only [both, List.tail_cons, List.cons.injEq, Prod.mk.injEq] at ht
      obtain ⟨⟨rfl, rfl⟩, _⟩ := ht
      simp only [implShared, Lock.op] at ho
      rw [if_neg (by cases t <;> simp [Lock.owns]), if_neg (by simp)] at ho
      cases ho

/-- Acquiring what one has, in whatever way one has it, is undefined: neither mutex is recursive, and a reader cannot become
a writer by acquiring. -/
theorem C153_twice_undefined (l : Lock T) (t : T) (fail : Bool) (h : l.owns t) (c : Call)
    (hc : c = .acquire ∨ c = .tryAcquire ∨ c = .acquireShared ∨ c = .tryAcquireShared) : l.op t fail (implShared c) = .ub := by
  rcases hc with rfl | rfl | rfl | rfl <;> simp only [implShared, Lock.op] <;> rw [if_pos (.inr h)]

/-! ## Concrete cases -/

/-- three threads, two mutexes, readers and writers -/
example : ∀ _ : Fin 3, Bracketed (M := Fin 2) (fun j k => j.val < k.val) (fun _ => .none)
    [(0, .acquireShared), (1, .acquire), (1, .release), (0, .releaseShared)] := by
  intro _
  simp [Bracketed, upd]

/-- hand over hand -/
example : Bracketed (M := Nat) (fun j k => id j < id k) (fun _ => .none)
    [(0, .acquire), (1, .acquire), (0, .release), (2, .acquire), (1, .release), (2, .release)] := by
  simp [Bracketed, upd]
  constructor
  · intro j _ h2
    by_contra h
    rw [if_neg (by omega), if_neg (by omega)] at h2
    exact h2 rfl
  · intro k
    split_ifs <;> simp <;> omega

end CE.Mutex
