import Verif.Props.FetchAdd
import Mathlib.Algebra.BigOperators.Group.Finset.Basic
import Mathlib.Algebra.BigOperators.Group.Finset.Piecewise
import Mathlib.Algebra.Order.BigOperators.Group.Finset
import Mathlib.Data.Fintype.Basic
import Mathlib.Data.Fintype.BigOperators
import Mathlib.Data.BitVec
/-!
# Tickets and reference counts made of `atomic_fetch_add` and `atomic_fetch_sub` (C149)

Two uses of an atomic counter of `w` bits (lib/h/ce/atomic_std.h:60-80, lib/h/ce/atomic_msvc_x86.h:178-325):

* tickets: every call is `atomic_fetch_add(a, 1)` and the result is the caller's number;
* reference counts: `atomic_fetch_add(a, 1)` by who has a handle and wants another one, `atomic_fetch_sub(a, 1)` by who
  gives a handle up; the one whose result is 1 destroys the object.
-/
namespace CE.FetchAdd
open CE.Linear

variable {T : Type} [DecidableEq T]

/-! ## Tickets -/

/-- the results returned so far -/
def returned {V : Type} : List (Ev T (Op V) V) → List V
  | [] => []
  | .ret _ r :: tr => r :: returned tr
  | _ :: tr => returned tr

/-- the calls so far -/
def called {V : Type} : List (Ev T (Op V) V) → List (Op V)
  | [] => []
  | .inv _ o :: tr => o :: called tr
  | _ :: tr => called tr

omit [DecidableEq T] in
theorem returned_append {V : Type} (a b : List (Ev T (Op V) V)) : returned (a ++ b) = returned a ++ returned b := by
  induction a with
  | nil => rfl
  | cons e a ih => cases e <;> simp [returned, ih]

omit [DecidableEq T] in
theorem called_append {V : Type} (a b : List (Ev T (Op V) V)) : called (a ++ b) = called a ++ called b := by
  induction a with
  | nil => rfl
  | cons e a ih => cases e <;> simp [called, ih]

/-- what a thread is about to return -/
def finOf {V : Type} : Pc V → Option V
  | .fin r => some r
  | _ => none

/-- the operation a thread has not yet done -/
def todo {V : Type} : Pc V → Option (Op V)
  | .start o => some o
  | .loop f _ => some (.fetch f)
  | _ => none

/-- the kinds of steps -/
inductive Kind {V : Type} (s s' : St T V) : Prop
  | call (t : T) (o : Op V) : s.pc t = .idle → s'.pc = setPc s.pc t (.start o) → s'.mem = s.mem →
      s'.tr = s.tr ++ [.inv t o] → Kind s s'
  | quiet (t : T) (f : V → V) (e : V) : todo (s.pc t) = some (.fetch f) → s'.pc = setPc s.pc t (.loop f e) →
      s'.mem = s.mem → s'.tr = s.tr → Kind s s'
  | fetch (t : T) (f : V → V) : todo (s.pc t) = some (.fetch f) → s'.pc = setPc s.pc t (.fin s.mem) →
      s'.mem = f s.mem → s'.tr = s.tr ++ [.lin t (.fetch f) s.mem] → Kind s s'
  | swap (t : T) (v : V) : s.pc t = .start (.exchange v) → s'.pc = setPc s.pc t (.fin s.mem) →
      s'.mem = v → s'.tr = s.tr ++ [.lin t (.exchange v) s.mem] → Kind s s'
  | ret (t : T) (r : V) : s.pc t = .fin r → s'.pc = setPc s.pc t .idle → s'.mem = s.mem →
      s'.tr = s.tr ++ [.ret t r] → Kind s s'

theorem kind_of_after {V : Type} [DecidableEq V] {s : St T V} {t : T} {f : V → V} {e : V} (hp : s.pc t = .loop f e)
    {r : Round V × V} (hr : r = (.result s.mem, f s.mem) ∨ ∃ e', r = (.again e', s.mem)) :
    Kind s (after s t f r) := by
  rcases hr with rfl | ⟨e', rfl⟩
  · exact .fetch t f (by rw [hp]; rfl) rfl rfl rfl
  · exact .quiet t f e' (by rw [hp]; rfl) rfl rfl rfl

theorem kind_of_step {V : Type} [DecidableEq V] {s s' : St T V} (h : Step s s') : Kind s s' := by
  cases h with
  | call t o hp => exact .call t o hp rfl rfl rfl
  | load t f e hp => exact .quiet t f e (by rw [hp]; rfl) rfl rfl rfl
  | std t f e sp seen hp => exact kind_of_after hp (stdRound_ok f s.mem e sp seen)
  | msvc t f e hp => exact kind_of_after hp (msvcRound_ok f s.mem e)
  | direct t f hp => exact .fetch t f (by rw [hp]; rfl) rfl rfl rfl
  | exchange t v hp => exact .swap t v hp rfl rfl rfl
  | ret t r hp => exact .ret t r hp rfl rfl rfl

/-- `++a` -/
def inc {w : Nat} : BitVec w → BitVec w := fun u => u + 1#w

/-- `--a` -/
def dec {w : Nat} : BitVec w → BitVec w := fun u => u - 1#w

/-- the first `k` numbers from `v` -/
def numbers {w : Nat} (v : BitVec w) (k : Nat) : List (BitVec w) := (List.range k).map (fun i => v + BitVec.ofNat w i)

theorem numbers_succ {w : Nat} (v : BitVec w) (k : Nat) :
    numbers v (k + 1) = numbers v k ++ [v + BitVec.ofNat w k] := by
  simp [numbers, List.range_succ]

theorem numbers_nodup {w : Nat} (v : BitVec w) {k : Nat} (hk : k ≤ 2 ^ w) : (numbers v k).Nodup := by
  unfold numbers
  refine List.Nodup.map_on ?_ List.nodup_range
  intro x hx y hy h
  rw [List.mem_range] at hx hy
  have h2 : BitVec.ofNat w x = BitVec.ofNat w y := by
    have := congrArg (fun z => z - v) h
    simpa [BitVec.add_comm v, BitVec.add_sub_cancel] using this
  have h3 := congrArg BitVec.toNat h2
  rw [BitVec.toNat_ofNat, BitVec.toNat_ofNat, Nat.mod_eq_of_lt (by omega), Nat.mod_eq_of_lt (by omega)] at h3
  exact h3

/-- invariant of tickets: `k` effects so far; their numbers are those returned and those about to be -/
structure Tickets {w : Nat} (v : BitVec w) (s : St T (BitVec w)) (pend : List T) (k : Nat) : Prop where
  mem : s.mem = v + BitVec.ofNat w k
  work : ∀ t o, todo (s.pc t) = some o → o = .fetch inc
  nodup : pend.Nodup
  fins : ∀ t, t ∈ pend ↔ finOf (s.pc t) ≠ none
  count : (effects s.tr).length = k
  perm : (returned s.tr ++ pend.filterMap (fun t => finOf (s.pc t))).Perm (numbers v k)

theorem filterMap_set_other {V : Type} (pc : T → Pc V) (t : T) (p : Pc V) (l : List T) (ht : t ∉ l) :
    l.filterMap (fun x => finOf (setPc pc t p x)) = l.filterMap (fun x => finOf (pc x)) := by
  apply List.filterMap_congr
  intro x hx
  have : x ≠ t := fun h => ht (h ▸ hx)
  simp [setPc, this]

theorem tickets {w : Nat} {v : BitVec w} {s : St T (BitVec w)} (h : Reach v s)
    (ho : ∀ o ∈ called s.tr, o = .fetch inc) : ∃ pend k, Tickets v s pend k := by
  induction h with
  | init =>
    exact ⟨[], 0, by simp, by intro t o h; simp [todo] at h, List.nodup_nil, by intro t; simp [finOf], rfl, by
      simp [returned, numbers]⟩
  | @step s s' h hs ih =>
    rcases kind_of_step hs with ⟨t, o, h1, h2, h3, h4⟩ | ⟨t, f, e, h1, h2, h3, h4⟩ | ⟨t, f, h1, h2, h3, h4⟩ |
      ⟨t, x, h1, h2, h3, h4⟩ | ⟨t, r, h1, h2, h3, h4⟩
    · rw [h4, called_append] at ho
      obtain ⟨pend, k, i⟩ := ih (fun o hm => ho o (List.mem_append_left _ hm))
      have hn : t ∉ pend := by rw [i.fins, h1]; simp [finOf]
      refine ⟨pend, k, by rw [h3, i.mem], ?_, i.nodup, ?_,
        by rw [h4, effects_append]; simpa [effects] using i.count, ?_⟩
      · intro t' o' h'
        rw [h2] at h'
        by_cases ht : t' = t
        · simp only [setPc, if_pos ht, todo, Option.some.injEq] at h'
          rw [← h']
          exact ho o (List.mem_append_right _ (by simp [called]))
        · simp only [setPc, if_neg ht] at h'
          exact i.work t' o' h'
      · intro t'
        rw [h2]
        by_cases ht : t' = t
        · subst ht; simp [setPc, finOf, hn]
        · simp only [setPc, if_neg ht]; exact i.fins t'
      · rw [h2, h4, filterMap_set_other _ _ _ _ hn, returned_append]
        simpa [returned] using i.perm
    · rw [h4] at ho
      obtain ⟨pend, k, i⟩ := ih ho
      have hn : t ∉ pend := by
        rw [i.fins]; cases hp : s.pc t <;> rw [hp] at h1 <;> simp [finOf, todo] at h1 ⊢
      refine ⟨pend, k, by rw [h3, i.mem], ?_, i.nodup, ?_, by rw [h4, i.count], ?_⟩
      · intro t' o' h'
        rw [h2] at h'
        by_cases ht : t' = t
        · simp only [setPc, if_pos ht, todo, Option.some.injEq] at h'
          rw [← h']
          exact i.work t _ h1
        · simp only [setPc, if_neg ht] at h'
          exact i.work t' o' h'
      · intro t'
        rw [h2]
        by_cases ht : t' = t
        · subst ht; simp [setPc, finOf, hn]
        · simp only [setPc, if_neg ht]; exact i.fins t'
      · rw [h2, h4, filterMap_set_other _ _ _ _ hn]
        exact i.perm
    · rw [h4, called_append] at ho
      obtain ⟨pend, k, i⟩ := ih (fun o hm => ho o (List.mem_append_left _ hm))
      have hn : t ∉ pend := by
        rw [i.fins]; cases hp : s.pc t <;> rw [hp] at h1 <;> simp [finOf, todo] at h1 ⊢
      have hf : f = inc := by
        have := i.work t _ h1
        injection this
      refine ⟨t :: pend, k + 1, ?_, ?_, List.nodup_cons.2 ⟨hn, i.nodup⟩, ?_,
        by rw [h4, effects_append, ← i.count]; simp [effects], ?_⟩
      · rw [h3, i.mem, hf]
        show v + BitVec.ofNat w k + 1#w = _
        rw [BitVec.add_assoc, BitVec.ofNat_add_ofNat]
      · intro t' o' h'
        rw [h2] at h'
        by_cases ht : t' = t
        · simp [setPc, if_pos ht, todo] at h'
        · simp only [setPc, if_neg ht] at h'
          exact i.work t' o' h'
      · intro t'
        rw [h2]
        by_cases ht : t' = t
        · subst ht; simp [setPc, finOf]
        · simp only [setPc, List.mem_cons, ht, false_or]; exact i.fins t'
      · have e : (t :: pend).filterMap (fun x => finOf (setPc s.pc t (.fin s.mem) x)) =
            s.mem :: pend.filterMap (fun x => finOf (s.pc x)) := by
          rw [List.filterMap_cons_some (b := s.mem) (by simp [setPc, finOf]), filterMap_set_other _ _ _ _ hn]
        rw [h2, h4, e, returned_append, numbers_succ]
        have p1 := List.Perm.append_right [s.mem] i.perm
        rw [i.mem] at p1 ⊢
        refine List.Perm.trans ?_ p1
        simp only [returned, List.append_nil]
        rw [List.append_assoc]
        exact List.Perm.append_left _ (List.perm_append_singleton _ _).symm
    · rw [h4, called_append] at ho
      obtain ⟨pend, k, i⟩ := ih (fun o hm => ho o (List.mem_append_left _ hm))
      have := i.work t (.exchange x) (by rw [h1]; rfl)
      cases this
    · rw [h4, called_append] at ho
      obtain ⟨pend, k, i⟩ := ih (fun o hm => ho o (List.mem_append_left _ hm))
      have hn : t ∈ pend := by rw [i.fins, h1]; simp [finOf]
      have hne : t ∉ pend.erase t := List.Nodup.not_mem_erase i.nodup
      refine ⟨pend.erase t, k, by rw [h3, i.mem], ?_, i.nodup.erase t, ?_,
        by rw [h4, effects_append]; simpa [effects] using i.count, ?_⟩
      · intro t' o' h'
        rw [h2] at h'
        by_cases ht : t' = t
        · simp [setPc, if_pos ht, todo] at h'
        · simp only [setPc, if_neg ht] at h'
          exact i.work t' o' h'
      · intro t'
        rw [h2]
        by_cases ht : t' = t
        · subst ht; simp [setPc, finOf, hne]
        · simp only [setPc, if_neg ht, List.mem_erase_of_ne ht]; exact i.fins t'
      · rw [h2, h4, filterMap_set_other _ _ _ _ hne, returned_append]
        refine List.Perm.trans ?_ i.perm
        have p1 : (pend.filterMap (fun x => finOf (s.pc x))).Perm
            (r :: (pend.erase t).filterMap (fun x => finOf (s.pc x))) := by
          have := List.Perm.filterMap (fun x => finOf (s.pc x)) (List.perm_cons_erase hn)
          rwa [List.filterMap_cons_some (b := r) (by rw [h1]; rfl)] at this
        simp only [returned]
        rw [List.append_assoc]
        exact List.Perm.append_left _ p1.symm

/-- between the calls and the effects: the threads with work to do -/
theorem pending {V : Type} [DecidableEq V] {v : V} {s : St T V} (h : Reach v s) :
    ∃ busy : List T, busy.Nodup ∧ (∀ t, t ∈ busy ↔ todo (s.pc t) ≠ none) ∧
      (effects s.tr).length + busy.length = (called s.tr).length := by
  have same : ∀ (s s' : St T V) (busy : List T) (t : T) (p : Pc V), s'.pc = setPc s.pc t p →
      (todo p = none ↔ todo (s.pc t) = none) → (∀ t, t ∈ busy ↔ todo (s.pc t) ≠ none) →
      (∀ t, t ∈ busy ↔ todo (s'.pc t) ≠ none) := by
    intro s s' busy t p h2 hp hb t'
    rw [hb, h2]
    by_cases ht : t' = t
    · subst ht; simp only [setPc, if_true]; exact not_congr hp.symm
    · simp only [setPc, if_neg ht]
  have less : ∀ (s s' : St T V) (busy : List T) (t : T) (r : V), s'.pc = setPc s.pc t (.fin r) → busy.Nodup →
      (∀ t, t ∈ busy ↔ todo (s.pc t) ≠ none) → (∀ t', t' ∈ busy.erase t ↔ todo (s'.pc t') ≠ none) := by
    intro s s' busy t p h2 hn hb t'
    rw [h2]
    by_cases ht : t' = t
    · subst ht
      simp [setPc, todo, List.Nodup.not_mem_erase hn]
    · simp only [setPc, if_neg ht, List.mem_erase_of_ne ht]; exact hb t'
  induction h with
  | init => exact ⟨[], List.nodup_nil, by intro t; simp [todo], rfl⟩
  | @step s s' h hs ih =>
    obtain ⟨busy, hn, hb, hl⟩ := ih
    rcases kind_of_step hs with ⟨t, o, h1, h2, h3, h4⟩ | ⟨t, f, e, h1, h2, h3, h4⟩ | ⟨t, f, h1, h2, h3, h4⟩ |
      ⟨t, x, h1, h2, h3, h4⟩ | ⟨t, r, h1, h2, h3, h4⟩
    · have hnt : t ∉ busy := by rw [hb, h1]; simp [todo]
      refine ⟨t :: busy, List.nodup_cons.2 ⟨hnt, hn⟩, ?_, ?_⟩
      · intro t'
        rw [h2]
        by_cases ht : t' = t
        · subst ht; simp [setPc, todo]
        · simp only [setPc, List.mem_cons, ht, false_or]; exact hb t'
      · rw [h4, called_append, effects_append]
        simp [called, effects]; omega
    · refine ⟨busy, hn, same s s' busy t _ h2 (by rw [h1]; simp [todo]) hb, by rw [h4, hl]⟩
    · have hnt : t ∈ busy := by rw [hb, h1]; simp
      refine ⟨busy.erase t, hn.erase t, less s s' busy t _ h2 hn hb, ?_⟩
      have := List.length_erase_of_mem hnt
      have := List.length_pos_of_mem hnt
      rw [h4, called_append, effects_append]
      simp [called, effects]; omega
    · have hnt : t ∈ busy := by rw [hb, h1]; simp [todo]
      refine ⟨busy.erase t, hn.erase t, less s s' busy t _ h2 hn hb, ?_⟩
      have := List.length_erase_of_mem hnt
      have := List.length_pos_of_mem hnt
      rw [h4, called_append, effects_append]
      simp [called, effects]; omega
    · refine ⟨busy, hn, same s s' busy t _ h2 (by rw [h1]; simp [todo]) hb, ?_⟩
      rw [h4, called_append, effects_append]
      simp [called, effects]; omega

/-- **Tickets.** Any number of threads take numbers with `atomic_fetch_add(a, 1)` and nothing else is done to the
atomic; no more than `2^w` calls are made.  Then no number is given twice, and every number given is one of the first
`number of calls` from the initial value. -/
theorem C149_tickets {w : Nat} {v : BitVec w} {s : St T (BitVec w)} (h : Reach v s)
    (ho : ∀ o ∈ called s.tr, o = .fetch (fun u => u + 1#w)) (hk : (called s.tr).length ≤ 2 ^ w) :
    (returned s.tr).Nodup ∧
    ∀ r ∈ returned s.tr, ∃ i < (called s.tr).length, r = v + BitVec.ofNat w i := by
  obtain ⟨pend, k, i⟩ := tickets h ho
  obtain ⟨busy, -, -, hl⟩ := pending h
  have hc := i.count
  refine ⟨((i.perm.nodup_iff).2 (numbers_nodup v (by omega))).of_append_left, fun r hr => ?_⟩
  have : r ∈ numbers v k := i.perm.subset (List.mem_append_left _ hr)
  unfold numbers at this
  rw [List.mem_map] at this
  obtain ⟨j, hj, rfl⟩ := this
  rw [List.mem_range] at hj
  exact ⟨j, by omega, rfl⟩

/-- When all calls have returned, no number was left out: the results are, in some order, the first `number of calls`
numbers from the initial value. -/
theorem C149_no_gaps {w : Nat} {v : BitVec w} {s : St T (BitVec w)} (h : Reach v s)
    (ho : ∀ o ∈ called s.tr, o = .fetch (fun u => u + 1#w)) (hi : ∀ t, s.pc t = .idle) :
    (returned s.tr).Perm ((List.range (called s.tr).length).map (fun i => v + BitVec.ofNat w i)) := by
  obtain ⟨pend, k, i⟩ := tickets h ho
  obtain ⟨busy, -, hb, hl⟩ := pending h
  have hc := i.count
  have e1 : busy = [] := by
    rw [List.eq_nil_iff_forall_not_mem]
    intro t ht
    rw [hb, hi t] at ht
    exact ht rfl
  have e2 : pend = [] := by
    rw [List.eq_nil_iff_forall_not_mem]
    intro t ht
    rw [i.fins, hi t] at ht
    exact ht rfl
  have p := i.perm
  rw [e2] at p
  rw [e1] at hl
  have e3 : k = (called s.tr).length := by simp at hl; omega
  rw [e3] at p
  simpa [numbers] using p

/-! ## Reference counts -/

/-- what the users of a reference count do -/
inductive Role where
  /-- nothing with the count -/
  | none
  /-- in a call of `atomic_fetch_add(a, 1)`, made by who has a handle -/
  | clone
  /-- in a call of `atomic_fetch_sub(a, 1)`, made by who had a handle and gives it up -/
  | drop
  deriving DecidableEq

/-- thread `t` changes its role -/
def setRole (role : T → Role) (t : T) (x : Role) : T → Role := fun s => if s = t then x else role s

/-- Use of an atomic as a reference count, from `n` handles.  `free` is the number of handles whose holders are not in a
call; a call of either kind needs one and uses it until its return, which gives back two (clone) or none (drop).
`got` lists the results of the drops, `clones` counts the calls that clone.  Steps that are neither calls nor returns are
those of the implementation. -/
inductive Users {w : Nat} (n : Nat) : St T (BitVec w) → (T → Role) → Nat → List (BitVec w) → Nat → Prop
  | init : Users n ⟨BitVec.ofNat w n, fun _ => .idle, []⟩ (fun _ => .none) n [] 0
  | clone {s role free got clones} (t : T) : Users n s role (free + 1) got clones → s.pc t = .idle →
      Users n ⟨s.mem, setPc s.pc t (.start (.fetch (fun u => u + 1#w))),
        s.tr ++ [.inv t (.fetch (fun u => u + 1#w))]⟩ (setRole role t .clone) free got (clones + 1)
  | drop {s role free got clones} (t : T) : Users n s role (free + 1) got clones → s.pc t = .idle →
      Users n ⟨s.mem, setPc s.pc t (.start (.fetch (fun u => u - 1#w))),
        s.tr ++ [.inv t (.fetch (fun u => u - 1#w))]⟩ (setRole role t .drop) free got clones
  | work {s s' role free got clones} : Users n s role free got clones → Step s s' →
      (∀ t, s'.pc t = .idle ↔ s.pc t = .idle) → Users n s' role free got clones
  | cloned {s role free got clones} (t : T) (r : BitVec w) : Users n s role free got clones → role t = .clone →
      s.pc t = .fin r →
      Users n ⟨s.mem, setPc s.pc t .idle, s.tr ++ [.ret t r]⟩ (setRole role t .none) (free + 2) got clones
  | dropped {s role free got clones} (t : T) (r : BitVec w) : Users n s role free got clones → role t = .drop →
      s.pc t = .fin r →
      Users n ⟨s.mem, setPc s.pc t .idle, s.tr ++ [.ret t r]⟩ (setRole role t .none) free (got ++ [r]) clones

/-- users are threads calling operations -/
theorem users_reach {w n : Nat} {s : St T (BitVec w)} {role : T → Role} {free : Nat} {got : List (BitVec w)}
    {clones : Nat} (h : Users n s role free got clones) : Reach (BitVec.ofNat w n) s := by
  induction h with
  | init => exact .init
  | clone t _ hp ih => exact .step ih (.call _ t _ hp)
  | drop t _ hp ih => exact .step ih (.call _ t _ hp)
  | work _ hs _ ih => exact .step ih hs
  | cloned t r _ _ hp ih => exact .step ih (.ret _ t r hp)
  | dropped t r _ _ hp ih => exact .step ih (.ret _ t r hp)

/-- handles a thread accounts for in the count -/
def part {V : Type} : Role → Pc V → Nat
  | .clone, .fin _ => 2
  | .clone, _ => 1
  | .drop, .fin _ => 0
  | .drop, _ => 1
  | .none, _ => 0

/-- handles a thread may account for -/
def most {V : Type} : Role → Pc V → Nat
  | .clone, _ => 2
  | .drop, .fin _ => 0
  | .drop, _ => 1
  | .none, _ => 0

/-- whether a thread is about to be told it was the last -/
def last {w : Nat} : Role → Pc (BitVec w) → Nat
  | .drop, .fin r => if r = 1#w then 1 else 0
  | _, _ => 0

/-- roles fit the threads -/
def Fits {w : Nat} : Role → Pc (BitVec w) → Prop
  | .none, p => p = .idle
  | .clone, p => p ≠ .idle ∧ ∀ o, todo p = some o → o = .fetch inc
  | .drop, p => p ≠ .idle ∧ ∀ o, todo p = some o → o = .fetch dec

variable [Fintype T]

/-- invariant of reference counts -/
structure Counts {w : Nat} (n : Nat) (s : St T (BitVec w)) (role : T → Role) (free : Nat) (got : List (BitVec w))
    (clones : Nat) : Prop where
  fits : ∀ t, Fits (role t) (s.pc t)
  mem : s.mem.toNat = free + ∑ t, part (role t) (s.pc t)
  bound : free + ∑ t, most (role t) (s.pc t) ≤ n + clones
  once : got.count 1#w + ∑ t, last (role t) (s.pc t) = if s.mem.toNat = 0 then 1 else 0

/-- a sum over the threads when one thread changes -/
theorem sum_one {A : Type} (f g : T → A) (F : A → Nat) (t : T) (h : ∀ x, x ≠ t → g x = f x) :
    ∑ x, F (g x) + F (f t) = ∑ x, F (f x) + F (g t) := by
  rw [← Finset.add_sum_erase Finset.univ (fun x => F (g x)) (Finset.mem_univ t),
    ← Finset.add_sum_erase Finset.univ (fun x => F (f x)) (Finset.mem_univ t)]
  have : ∑ x ∈ Finset.univ.erase t, F (g x) = ∑ x ∈ Finset.univ.erase t, F (f x) := by
    apply Finset.sum_congr rfl
    intro x hx
    rw [h x (Finset.ne_of_mem_erase hx)]
  rw [this]; omega

/-- the same with role and place of the thread -/
theorem sum_two {w : Nat} (role role' : T → Role) (pc pc' : T → Pc (BitVec w)) (F : Role → Pc (BitVec w) → Nat) (t : T)
    (h1 : ∀ x, x ≠ t → role' x = role x) (h2 : ∀ x, x ≠ t → pc' x = pc x) :
    ∑ x, F (role' x) (pc' x) + F (role t) (pc t) = ∑ x, F (role x) (pc x) + F (role' t) (pc' t) :=
  sum_one (fun x => (role x, pc x)) (fun x => (role' x, pc' x)) (fun a => F a.1 a.2) t
    (fun x hx => by simp [h1 x hx, h2 x hx])

omit [Fintype T] in
theorem setPc_ne {V : Type} (pc : T → Pc V) (t : T) (p : Pc V) : ∀ x, x ≠ t → setPc pc t p x = pc x := by
  intro x hx; simp [setPc, hx]

omit [Fintype T] in
theorem setRole_ne (role : T → Role) (t : T) (p : Role) : ∀ x, x ≠ t → setRole role t p x = role x := by
  intro x hx; simp [setRole, hx]

omit [Fintype T] in
theorem setPc_eq {V : Type} (pc : T → Pc V) (t : T) (p : Pc V) : setPc pc t p t = p := by simp [setPc]

omit [Fintype T] in
theorem setRole_eq (role : T → Role) (t : T) (p : Role) : setRole role t p t = p := by simp [setRole]

/-- invariant across a change of one thread that leaves the count alone -/
theorem counts_same {w n : Nat} {s s' : St T (BitVec w)} {role role' : T → Role} {free free' : Nat}
    {got got' : List (BitVec w)} {clones clones' : Nat} (i : Counts n s role free got clones) (t : T)
    (h1 : ∀ x, x ≠ t → role' x = role x) (h2 : ∀ x, x ≠ t → s'.pc x = s.pc x) (hm : s'.mem = s.mem)
    (hf : Fits (role' t) (s'.pc t))
    (hp : free' + part (role' t) (s'.pc t) = free + part (role t) (s.pc t))
    (hb : free' + most (role' t) (s'.pc t) + clones ≤ free + most (role t) (s.pc t) + clones')
    (hl : got'.count 1#w + last (role' t) (s'.pc t) = got.count 1#w + last (role t) (s.pc t)) :
    Counts n s' role' free' got' clones' := by
  have e1 := sum_two role role' s.pc s'.pc part t h1 h2
  have e2 := sum_two role role' s.pc s'.pc most t h1 h2
  have e3 := sum_two role role' s.pc s'.pc last t h1 h2
  have m := i.mem
  have b := i.bound
  have o := i.once
  refine ⟨fun x => ?_, by rw [hm]; omega, by omega, by rw [hm, ← o]; omega⟩
  by_cases hx : x = t
  · subst hx; exact hf
  · rw [h1 x hx, h2 x hx]; exact i.fits x

theorem fits_todo {w : Nat} {x : Role} {p : Pc (BitVec w)} (hf : Fits x p) {o : Op (BitVec w)} (h : todo p = some o) :
    (x = .clone ∧ o = .fetch inc) ∨ (x = .drop ∧ o = .fetch dec) := by
  cases x with
  | none => unfold Fits at hf; subst hf; simp [todo] at h
  | clone => exact .inl ⟨rfl, hf.2 o h⟩
  | drop => exact .inr ⟨rfl, hf.2 o h⟩

theorem part_todo {w : Nat} {x : Role} {p : Pc (BitVec w)} {o : Op (BitVec w)} (h : todo p = some o) :
    (x = .clone → part x p = 1 ∧ most x p = 2 ∧ last x p = 0) ∧
    (x = .drop → part x p = 1 ∧ most x p = 1 ∧ last x p = 0) := by
  cases p <;> simp [todo] at h <;> constructor <;> rintro rfl <;> simp [part, most, last]

/-- every use keeps the invariant -/
theorem counts {w n : Nat} (hn : 1 ≤ n) {s : St T (BitVec w)} {role : T → Role} {free : Nat} {got : List (BitVec w)}
    {clones : Nat} (h : Users n s role free got clones) (hb : n + clones < 2 ^ w) : Counts n s role free got clones := by
  induction h with
  | init =>
    have e : (BitVec.ofNat w n).toNat = n := by rw [BitVec.toNat_ofNat, Nat.mod_eq_of_lt (by omega)]
    refine ⟨fun t => rfl, ?_, ?_, ?_⟩
    · simp [part, Nat.mod_eq_of_lt (show n < 2 ^ w by omega)]
    · simp [most]
    · rw [if_neg (by rw [e]; omega)]; simp [last]
  | @clone s role free got clones t h hp ih =>
    have i := ih (by omega)
    have hr : role t = .none := by
      have := i.fits t
      rw [hp] at this
      cases hx : role t <;> rw [hx] at this <;> simp [Fits] at this ⊢
    refine counts_same i t (setRole_ne role t _) (setPc_ne s.pc t _) rfl ?_ ?_ ?_ ?_
    · rw [setRole_eq]; simp only [setPc_eq]
      exact ⟨by simp, fun o ho => by simp [todo] at ho; rw [← ho]; rfl⟩
    · rw [setRole_eq]; simp only [setPc_eq]; rw [hr, hp]; simp [part]
    · rw [setRole_eq]; simp only [setPc_eq]; rw [hr, hp]; simp [most]; omega
    · rw [setRole_eq]; simp only [setPc_eq]; rw [hr, hp]; simp [last]
  | @drop s role free got clones t h hp ih =>
    have i := ih hb
    have hr : role t = .none := by
      have := i.fits t
      rw [hp] at this
      cases hx : role t <;> rw [hx] at this <;> simp [Fits] at this ⊢
    refine counts_same i t (setRole_ne role t _) (setPc_ne s.pc t _) rfl ?_ ?_ ?_ ?_
    · rw [setRole_eq]; simp only [setPc_eq]
      exact ⟨by simp, fun o ho => by simp [todo] at ho; rw [← ho]; rfl⟩
    · rw [setRole_eq]; simp only [setPc_eq]; rw [hr, hp]; simp [part]
    · rw [setRole_eq]; simp only [setPc_eq]; rw [hr, hp]; simp [most]
    · rw [setRole_eq]; simp only [setPc_eq]; rw [hr, hp]; simp [last]
  | @work s s' role free got clones h hs hw ih =>
    have i := ih hb
    rcases kind_of_step hs with ⟨t, o, h1, h2, h3, h4⟩ | ⟨t, f, e, h1, h2, h3, h4⟩ | ⟨t, f, h1, h2, h3, h4⟩ |
      ⟨t, x, h1, h2, h3, h4⟩ | ⟨t, r, h1, h2, h3, h4⟩
    · have := (hw t).2 h1
      rw [h2, setPc_eq] at this; cases this
    · have ht : todo (Pc.loop f e) = some (.fetch f) := rfl
      have p1 := part_todo (x := role t) h1
      have p2 := part_todo (x := role t) ht
      refine counts_same i t (fun _ _ => rfl) (by rw [h2]; exact setPc_ne s.pc t _) h3 ?_ ?_ ?_ ?_
      · rw [h2, setPc_eq]
        rcases fits_todo (i.fits t) h1 with ⟨e1, e2⟩ | ⟨e1, e2⟩ <;> rw [e1] <;>
          exact ⟨by simp, fun o ho => by rw [ht] at ho; rw [← e2]; injection ho with ho; exact ho.symm⟩
      all_goals
        rw [h2, setPc_eq]
        rcases fits_todo (i.fits t) h1 with ⟨e1, e2⟩ | ⟨e1, e2⟩
        · rw [e1] at p1 p2 ⊢; have := p1.1 rfl; have := p2.1 rfl; omega
        · rw [e1] at p1 p2 ⊢; have := p1.2 rfl; have := p2.2 rfl; omega
    · have p1 := part_todo (x := role t) h1
      have g1 : ∀ x, x ≠ t → s'.pc x = s.pc x := by rw [h2]; exact setPc_ne s.pc t _
      have e1 := sum_two role role s.pc s'.pc part t (fun _ _ => rfl) g1
      have e2 := sum_two role role s.pc s'.pc most t (fun _ _ => rfl) g1
      have e3 := sum_two role role s.pc s'.pc last t (fun _ _ => rfl) g1
      have m := i.mem
      have b := i.bound
      have o := i.once
      have hpt : s'.pc t = .fin s.mem := by rw [h2, setPc_eq]
      rw [hpt] at e1 e2 e3
      have le1 : part (role t) (s.pc t) ≤ ∑ x, part (role x) (s.pc x) :=
        Finset.single_le_sum (f := fun x => part (role x) (s.pc x)) (fun _ _ => Nat.zero_le _) (Finset.mem_univ t)
      have lt : ∀ x, part (role x) (s.pc x) ≤ most (role x) (s.pc x) := by
        intro x; cases role x <;> cases s.pc x <;> simp [part, most]
      have le2 : ∑ x ∈ Finset.univ.erase t, part (role x) (s.pc x) ≤
          ∑ x ∈ Finset.univ.erase t, most (role x) (s.pc x) := Finset.sum_le_sum (fun x _ => lt x)
      have q1 := Finset.add_sum_erase Finset.univ (fun x => part (role x) (s.pc x)) (Finset.mem_univ t)
      have q2 := Finset.add_sum_erase Finset.univ (fun x => most (role x) (s.pc x)) (Finset.mem_univ t)
      have hfits : ∀ x, Fits (role x) (s'.pc x) := by
        intro x
        by_cases hx : x = t
        · subst hx
          rw [hpt]
          rcases fits_todo (i.fits x) h1 with ⟨e1, e2⟩ | ⟨e1, e2⟩ <;> rw [e1] <;>
            exact ⟨by simp, fun o ho => by simp [todo] at ho⟩
        · rw [g1 x hx]; exact i.fits x
      have one : (1#w).toNat = 1 := by
        rw [BitVec.toNat_ofNat, Nat.mod_eq_of_lt (by omega)]
      rcases fits_todo (i.fits t) h1 with ⟨r1, r2⟩ | ⟨r1, r2⟩
      · obtain ⟨a1, a2, a3⟩ := p1.1 r1
        injection r2 with r2
        have hm : s'.mem.toNat = s.mem.toNat + 1 := by
          rw [h3, r2]
          show (s.mem + 1#w).toNat = _
          rw [BitVec.toNat_add, one, Nat.mod_eq_of_lt (by omega)]
        have b1 : part (role t) (Pc.fin s.mem) = 2 := by rw [r1]; rfl
        have b2 : most (role t) (Pc.fin s.mem) = 2 := by rw [r1]; rfl
        have b3 : last (role t) (Pc.fin s.mem) = 0 := by rw [r1]; rfl
        rw [a1, b1] at e1
        rw [a2, b2] at e2
        rw [a3, b3] at e3
        refine ⟨hfits, by omega, by omega, ?_⟩
        rw [if_neg (by omega)]
        rw [if_neg (by omega)] at o
        omega
      · obtain ⟨a1, a2, a3⟩ := p1.2 r1
        injection r2 with r2
        have hm : s'.mem.toNat = s.mem.toNat - 1 := by
          rw [h3, r2]
          show (s.mem - 1#w).toNat = _
          have := s.mem.isLt
          rw [BitVec.toNat_sub_of_le (by rw [BitVec.le_def, one]; omega), one]
        have b1 : part (role t) (Pc.fin s.mem) = 0 := by rw [r1]; rfl
        have b2 : most (role t) (Pc.fin s.mem) = 0 := by rw [r1]; rfl
        have b3 : last (role t) (Pc.fin s.mem) = if s.mem = 1#w then 1 else 0 := by rw [r1]; rfl
        rw [a1, b1] at e1
        rw [a2, b2] at e2
        rw [a3, b3] at e3
        refine ⟨hfits, by omega, by omega, ?_⟩
        rw [if_neg (by omega)] at o
        by_cases h1m : s.mem = 1#w
        · rw [if_pos h1m] at e3
          have : s.mem.toNat = 1 := by rw [h1m, one]
          rw [if_pos (by omega)]; omega
        · rw [if_neg h1m] at e3
          have : s.mem.toNat ≠ 1 := fun h => h1m (BitVec.eq_of_toNat_eq (by rw [h, one]))
          rw [if_neg (by omega)]; omega
    · rcases fits_todo (i.fits t) (o := .exchange x) (by rw [h1]; rfl) with ⟨-, e⟩ | ⟨-, e⟩ <;> cases e
    · have := (hw t).1 (by rw [h2, setPc_eq])
      rw [h1] at this; cases this
  | @cloned s role free got clones t r h hr hp ih =>
    have i := ih hb
    refine counts_same i t (setRole_ne role t _) (setPc_ne s.pc t _) rfl ?_ ?_ ?_ ?_
    · rw [setRole_eq]; simp only [setPc_eq]; rfl
    · rw [setRole_eq]; simp only [setPc_eq]; rw [hr, hp]; simp [part]
    · rw [setRole_eq]; simp only [setPc_eq]; rw [hr, hp]; simp [most]
    · rw [setRole_eq]; simp only [setPc_eq]; rw [hr, hp]; simp [last]
  | @dropped s role free got clones t r h hr hp ih =>
    have i := ih hb
    refine counts_same i t (setRole_ne role t _) (setPc_ne s.pc t _) rfl ?_ ?_ ?_ ?_
    · rw [setRole_eq]; simp only [setPc_eq]; rfl
    · rw [setRole_eq]; simp only [setPc_eq]; rw [hr, hp]; simp [part]
    · rw [setRole_eq]; simp only [setPc_eq]; rw [hr, hp]; simp [most]
    · rw [setRole_eq]; simp only [setPc_eq]; rw [hr, hp]
      by_cases h1 : r = 1#w <;> simp [last, h1, List.count_append]

/-- **Reference counts, safety.** At most one drop is told it was the last (result 1).  Once one is, there is no handle
left, nobody is inside a clone, and every drop has taken effect: those that have not returned yet will return something
else. -/
theorem C149_last_once {w n : Nat} (hn : 1 ≤ n) {s : St T (BitVec w)} {role : T → Role} {free : Nat}
    {got : List (BitVec w)} {clones : Nat} (h : Users n s role free got clones) (hb : n + clones < 2 ^ w) :
    got.count 1#w ≤ 1 ∧
    (1#w ∈ got → free = 0 ∧ ∀ t, role t = .none ∨ (role t = .drop ∧ ∃ r, s.pc t = .fin r ∧ r ≠ 1#w)) := by
  have i := counts hn h hb
  have o := i.once
  have m := i.mem
  refine ⟨by split at o <;> omega, fun hg => ?_⟩
  have hc : 0 < got.count 1#w := List.count_pos_iff.2 hg
  have hz : s.mem.toNat = 0 := by
    by_contra hz
    rw [if_neg hz] at o; omega
  rw [if_pos hz] at o
  have sp : ∑ t, part (role t) (s.pc t) = 0 := by omega
  have sl : ∑ t, last (role t) (s.pc t) = 0 := by omega
  rw [Finset.sum_eq_zero_iff] at sp sl
  refine ⟨by omega, fun t => ?_⟩
  have hp := sp t (Finset.mem_univ t)
  have hl := sl t (Finset.mem_univ t)
  have hf := i.fits t
  cases hr : role t with
  | none => exact .inl rfl
  | clone => rw [hr] at hp; cases hpc : s.pc t <;> rw [hpc] at hp <;> simp [part] at hp
  | drop =>
    right
    rw [hr] at hp hl
    refine ⟨rfl, ?_⟩
    cases hpc : s.pc t with
    | fin r =>
      rw [hpc] at hl
      refine ⟨r, rfl, ?_⟩
      simpa [last] using hl
    | _ => rw [hpc] at hp; simp [part] at hp

/-- **Reference counts, no leak.** When every handle has been given up and every call has returned, exactly one drop was
told it was the last. -/
theorem C149_last_exists {w n : Nat} (hn : 1 ≤ n) {s : St T (BitVec w)} {role : T → Role} {got : List (BitVec w)}
    {clones : Nat} (h : Users n s role 0 got clones) (hb : n + clones < 2 ^ w) (hi : ∀ t, s.pc t = .idle) :
    got.count 1#w = 1 := by
  have i := counts hn h hb
  have hr : ∀ t, role t = .none := by
    intro t
    have := i.fits t
    rw [hi t] at this
    cases hx : role t <;> rw [hx] at this <;> simp [Fits] at this ⊢
  have o := i.once
  have m := i.mem
  have z1 : ∑ t, part (role t) (s.pc t) = 0 := Finset.sum_eq_zero (fun t _ => by rw [hr t]; rfl)
  have z2 : ∑ t, last (role t) (s.pc t) = 0 := Finset.sum_eq_zero (fun t _ => by rw [hr t]; rfl)
  rw [if_pos (by omega), z2] at o
  omega

omit [Fintype T] in
/-- a whole clone by one thread -/
theorem clone_run {w n : Nat} {s : St T (BitVec w)} {role : T → Role} {free : Nat} {got : List (BitVec w)}
    {clones : Nat} (t : T) (h : Users n s role (free + 1) got clones) (hi : ∀ x, s.pc x = .idle) :
    ∃ (s' : St T (BitVec w)) (role' : T → Role), Users n s' role' (free + 2) got (clones + 1) ∧
      s'.mem = s.mem + 1#w ∧ ∀ x, s'.pc x = .idle := by
  have h1 := Users.clone t h (hi t)
  have h2 := Users.work h1 (Step.direct (T := T) (V := BitVec w) _ t (fun u => u + 1#w) (setPc_eq _ t _)) (by
    intro x
    by_cases hx : x = t <;> simp [setPc, hx])
  have h3 := Users.cloned t s.mem h2 (setRole_eq _ t _) (setPc_eq (V := BitVec w) _ t _)
  refine ⟨_, _, h3, rfl, fun x => ?_⟩
  by_cases hx : x = t <;> simp [setPc, hx, hi x]

omit [Fintype T] in
/-- a whole drop by one thread -/
theorem drop_run {w n : Nat} {s : St T (BitVec w)} {role : T → Role} {free : Nat} {got : List (BitVec w)}
    {clones : Nat} (t : T) (h : Users n s role (free + 1) got clones) (hi : ∀ x, s.pc x = .idle) :
    ∃ (s' : St T (BitVec w)) (role' : T → Role), Users n s' role' free (got ++ [s.mem]) clones ∧
      s'.mem = s.mem - 1#w ∧ ∀ x, s'.pc x = .idle := by
  have h1 := Users.drop t h (hi t)
  have h2 := Users.work h1 (Step.direct (T := T) (V := BitVec w) _ t (fun u => u - 1#w) (setPc_eq _ t _)) (by
    intro x
    by_cases hx : x = t <;> simp [setPc, hx])
  have h3 := Users.dropped t s.mem h2 (setRole_eq _ t _) (setPc_eq (V := BitVec w) _ t _)
  refine ⟨_, _, h3, rfl, fun x => ?_⟩
  by_cases hx : x = t <;> simp [setPc, hx, hi x]

omit [Fintype T] in
/-- `k` clones by one thread -/
theorem clone_runs {w : Nat} (t : T) (k : Nat) : ∃ (s : St T (BitVec w)) (role : T → Role),
    Users 1 s role (k + 1) [] k ∧ s.mem = BitVec.ofNat w (k + 1) ∧ ∀ x, s.pc x = .idle := by
  induction k with
  | zero => exact ⟨_, _, Users.init, rfl, fun _ => rfl⟩
  | succ k ih =>
    obtain ⟨s, role, h, hm, hi⟩ := ih
    obtain ⟨s', role', h', hm', hi'⟩ := clone_run t h hi
    exact ⟨s', role', h', by rw [hm', hm, BitVec.ofNat_add_ofNat], hi'⟩

/-- **The number of clones matters.** The count has `w` bits and wraps: with `2^w` clones a drop is told it was the last
while `2^w` handles are in use, whatever the width. -/
theorem C149_wraps (w : Nat) : ∃ (s : St Unit (BitVec w)) (role : Unit → Role) (free clones : Nat),
    Users 1 s role free [1#w] clones ∧ free = 2 ^ w ∧ clones = 2 ^ w ∧ s.pc () = .idle := by
  obtain ⟨s, role, h, hm, hi⟩ := clone_runs (w := w) () (2 ^ w)
  obtain ⟨s', role', h', -, hi'⟩ := drop_run () h hi
  have : s.mem = 1#w := by
    rw [hm]
    apply BitVec.eq_of_toNat_eq
    rw [BitVec.toNat_ofNat, BitVec.toNat_ofNat, Nat.add_mod_left]
  rw [this] at h'
  exact ⟨s', role', _, _, h', rfl, rfl, hi' ()⟩

/-! ## The hypotheses are met -/

/-- two threads take the numbers 255 and 0 of an 8 bit counter: the one that calls first gets the second number -/
example : ∃ s : St Bool (BitVec 8), Reach 255#8 s ∧ (∀ o ∈ called s.tr, o = .fetch (fun u => u + 1#8)) ∧
    (called s.tr).length = 2 ∧ (∀ t, s.pc t = .idle) ∧ returned s.tr = [255#8, 0#8] := by
  have h0 : Reach 255#8 (⟨255#8, fun _ => .idle, []⟩ : St Bool (BitVec 8)) := Reach.init
  have h1 := Reach.step h0 (Step.call _ true (.fetch (fun u => u + 1#8)) rfl)
  have h2 := Reach.step h1 (Step.call _ false (.fetch (fun u => u + 1#8)) rfl)
  have h3 := Reach.step h2 (Step.load _ true (fun u => u + 1#8) 255#8 rfl)
  have h4 := Reach.step h3 (Step.direct _ false (fun u => u + 1#8) rfl)
  have h5 := Reach.step h4 (Step.msvc _ true (fun u => u + 1#8) 255#8 rfl)
  have h6 := Reach.step h5 (Step.ret _ false 255#8 rfl)
  have h7 := Reach.step h6 (Step.msvc _ true (fun u => u + 1#8) 0#8 rfl)
  have h8 := Reach.step h7 (Step.ret _ true 0#8 rfl)
  refine ⟨_, h8, ?_, rfl, by intro t; cases t <;> rfl, rfl⟩
  intro o ho
  change o ∈ [Op.fetch (fun u => u + 1#8), Op.fetch (fun u => u + 1#8)] at ho
  simpa using ho

/-- one handle, cloned, both given up by two threads: the second to take effect is told -/
example : ∃ (s : St Bool (BitVec 32)) (role : Bool → Role),
    Users 1 s role 0 [2#32, 1#32] 1 ∧ 1 + 1 < 2 ^ 32 ∧ ∀ t, s.pc t = .idle := by
  obtain ⟨s, role, h, hm, hi⟩ := clone_runs (T := Bool) (w := 32) true 1
  obtain ⟨s1, role1, h1, hm1, hi1⟩ := drop_run true h hi
  obtain ⟨s2, role2, h2, hm2, hi2⟩ := drop_run false h1 hi1
  rw [hm1, hm] at h2
  exact ⟨s2, role2, h2, by decide, hi2⟩

end CE.FetchAdd
