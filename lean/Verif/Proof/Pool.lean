import Verif.Spec.Pool
import Mathlib.Data.List.Nodup
import Mathlib.Data.List.Perm.Subperm
namespace CE.Pool

variable {α : Type} (N : Nat)

/-- following `next` from `s` passes through `l` and then gives `e` -/
def Path (next : Nat → Nat) (s : Nat) : List Nat → Nat → Prop
  | [], e => next s = e
  | x :: xs, e => next s = x ∧ Path next x xs e

theorem Path.congr {next next' : Nat → Nat} {l : List Nat} {s e : Nat} (h : Path next s l e)
    (hs : next' s = next s) (hl : ∀ x ∈ l, next' x = next x) : Path next' s l e := by
  induction l generalizing s with
  | nil => unfold Path at h ⊢; rw [hs, h]
  | cons x xs ih =>
    obtain ⟨h1, h2⟩ := h
    exact ⟨by rw [hs, h1], ih h2 (hl x (by simp)) fun y hy => hl y (by simp [hy])⟩

theorem Path.append {next : Nat → Nat} {l : List Nat} {s t e : Nat} (h : Path next s l t)
    (ht : next t = e) : Path next s (l ++ [t]) e := by
  induction l generalizing s with
  | nil => exact ⟨h, ht⟩
  | cons x xs ih => exact ⟨h.1, ih h.2⟩

/-- redirect the last link -/
theorem Path.redirect {next : Nat → Nat} {l : List Nat} {s t e : Nat}
    (h : Path next s (l ++ [t]) e) : Path next s l t ∧ next t = e := by
  induction l generalizing s with
  | nil => exact ⟨h.1, h.2⟩
  | cons x xs ih => exact ⟨⟨h.1, (ih h.2).1⟩, (ih h.2).2⟩

inductive Owner where
  | unused
  | free
  | queue (q : Nat)
  | client
  | lost
deriving DecidableEq

/-- invariant of pool and queues; `F` is the free list, `L q` the nodes of queue `q` from head to tail -/
structure Inv (s : St α) (own : Nat → Owner) (F : List Nat) (L : Nat → List Nat) (used : Nat) : Prop where
  cap : s.pool.size ≤ N - 1
  pos : 0 < N
  free : Path s.pool.next 0 F 0
  queues : ∀ q, (L q = [] ∧ s.tail q = 0) ∨
    ∃ l, L q = l ++ [s.tail q] ∧ Path s.pool.next (s.tail q) l (s.tail q)
  rangeOwn : ∀ x, own x ≠ .unused → 1 ≤ x ∧ x ≤ s.pool.size
  ownF : ∀ x ∈ F, own x = .free
  ownL : ∀ q, ∀ x ∈ L q, own x = .queue q
  nodupF : F.Nodup
  nodupL : ∀ q, (L q).Nodup
  count : F.length + used = s.pool.size

theorem rdNext_eq (p : Pool α) (i : Nat) (h : i < N) : rdNext N p i = some (p.next i) := by
  simp [rdNext, Obj.rd, h]
theorem wrNext_eq (p : Pool α) (i j : Nat) (h : i < N) :
    wrNext N p i j = some { p with next := upd p.next i j } := by
  simp [wrNext, Obj.wr, h]
theorem rdData_eq (p : Pool α) (i : Nat) (h : i < N) : rdData N p i = some (p.data i) := by
  simp [rdData, Obj.rd, h]
theorem wrData_eq (p : Pool α) (i : Nat) (x : α) (h : i < N) :
    wrData N p i x = some { p with data := upd p.data i x } := by
  simp [wrData, Obj.wr, h]

theorem upd_ne {β : Type} (m : Nat → β) (i j : Nat) (x : β) (h : j ≠ i) : upd m i x j = m j := by
  simp [upd, h]
theorem upd_same {β : Type} (m : Nat → β) (i : Nat) (x : β) : upd m i x i = x := by simp [upd]

theorem Inv.zero {s : St α} {own F L used} (h : Inv N s own F L used) : own 0 = .unused := by
  by_contra hc
  have := h.rangeOwn 0 hc
  omega

theorem Inv.lt {s : St α} {own F L used} (h : Inv N s own F L used) (x : Nat) (hx : own x ≠ .unused) :
    x < N := by
  have := h.rangeOwn x hx
  have := h.cap
  have := h.pos
  omega

theorem Inv.tail_own {s : St α} {own F L used} (h : Inv N s own F L used) (q : Nat)
    (hq : s.tail q ≠ 0) : own (s.tail q) = .queue q := by
  rcases h.queues q with ⟨_, h2⟩ | ⟨l, h1, _⟩
  · exact absurd h2 hq
  · exact h.ownL q _ (by rw [h1]; simp)

/-- the data array is not part of the invariant -/
theorem Inv.data {s : St α} {own F L used} (h : Inv N s own F L used) (d : Nat → α) :
    Inv N { s with pool := { s.pool with data := d } } own F L used :=
  ⟨h.cap, h.pos, h.free, h.queues, h.rangeOwn, h.ownF, h.ownL, h.nodupF, h.nodupL, h.count⟩

theorem alloc_eq (s : St α) (own F L used) (h : Inv N s own F L used) :
    (used = N - 1 ∧ allocIndex N s.pool = some (0, s.pool)) ∨
    (used < N - 1 ∧ ∃ x p F', allocIndex N s.pool = some (x, p) ∧ (own x = .unused ∨ own x = .free) ∧
      x ≠ 0 ∧ x < N ∧ p.data = s.pool.data ∧
      Inv N { s with pool := p } (upd own x .client) F' L (used + 1)) := by
  have hcap := h.cap
  have hpos := h.pos
  have hcount := h.count
  unfold allocIndex
  rw [rdNext_eq N _ 0 hpos]
  simp only [Option.bind_eq_bind, Option.bind_some]
  cases F with
  | nil =>
    have h0 : s.pool.next 0 = 0 := h.free
    rw [h0]
    simp only [ne_eq, not_true_eq_false, if_false]
    simp only [List.length_nil, Nat.zero_add] at hcount
    by_cases hs : s.pool.size < N - 1
    · right
      rw [if_pos hs]
      have hun : own (s.pool.size + 1) = .unused := by
        by_contra hc
        have := h.rangeOwn _ hc; omega
      refine ⟨by omega, s.pool.size + 1, { s.pool with size := s.pool.size + 1 }, [], rfl, .inl hun,
        by omega, by omega, rfl, ?_⟩
      refine ⟨by simp; omega, hpos, h.free, h.queues, ?_, by simp, ?_, by simp, h.nodupL, by simp; omega⟩
      · intro x hx
        by_cases hxe : x = s.pool.size + 1
        · subst hxe; exact ⟨by omega, Nat.le_refl _⟩
        · rw [upd_ne _ _ _ _ hxe] at hx
          have := h.rangeOwn x hx
          exact ⟨this.1, by simp; omega⟩
      · intro q x hx
        have := h.ownL q x hx
        rw [upd_ne _ _ _ _ (by rintro rfl; rw [hun] at this; cases this)]; exact this
    · left
      rw [if_neg hs]
      exact ⟨by omega, rfl⟩
  | cons x xs =>
    right
    obtain ⟨h0, hp⟩ := h.free
    have hx : own x = .free := h.ownF x (by simp)
    have hxr := h.rangeOwn x (by rw [hx]; simp)
    have hxN := h.lt N x (by rw [hx]; simp)
    rw [h0]
    rw [if_pos (show x ≠ 0 by omega), rdNext_eq N _ x hxN]
    simp only [Option.bind_some]
    rw [wrNext_eq N _ 0 _ hpos]
    simp only [Option.bind_some]
    simp only [List.length_cons] at hcount
    have hnd := h.nodupF
    rw [List.nodup_cons] at hnd
    refine ⟨by omega, x, _, xs, rfl, .inr hx, by omega, hxN, rfl, ?_⟩
    have hz := h.zero N
    refine ⟨hcap, hpos, ?_, ?_, ?_, ?_, ?_, hnd.2, h.nodupL, by simp; omega⟩
    · -- the free list starts at the successor of x
      show Path (upd s.pool.next 0 (s.pool.next x)) 0 xs 0
      cases xs with
      | nil => show upd _ _ _ _ = _; rw [upd_same]; exact hp
      | cons y ys =>
        refine ⟨by rw [upd_same]; exact hp.1, ?_⟩
        have hne : ∀ z ∈ (x :: y :: ys), z ≠ 0 := by
          intro z hz'
          have := h.rangeOwn z (by rw [h.ownF z hz']; simp)
          omega
        exact hp.2.congr (upd_ne _ _ _ _ (hne y (by simp)))
          fun z hz' => upd_ne _ _ _ _ (hne z (by simp [hz']))
    · intro q
      rcases h.queues q with hq | ⟨l, h1, h2⟩
      · exact .inl hq
      · refine .inr ⟨l, h1, ?_⟩
        have hne : ∀ z ∈ L q, z ≠ 0 := by
          intro z hz'
          have := h.rangeOwn z (by rw [h.ownL q z hz']; simp)
          omega
        exact h2.congr (upd_ne _ _ _ _ (hne _ (by rw [h1]; simp)))
          fun z hz' => upd_ne _ _ _ _ (hne z (by rw [h1]; simp [hz']))
    · intro z hz'
      by_cases hzx : z = x
      · subst hzx; exact hxr
      · rw [upd_ne _ _ _ _ hzx] at hz'; exact h.rangeOwn z hz'
    · intro z hz'
      rw [upd_ne _ _ _ _ (by rintro rfl; exact hnd.1 hz')]
      exact h.ownF z (by simp [hz'])
    · intro q z hz'
      have := h.ownL q z hz'
      rw [upd_ne _ _ _ _ (by rintro rfl; rw [hx] at this; cases this)]; exact this

theorem free_eq (s : St α) (own F L used) (h : Inv N s own F L used) (x : Nat) (hx : own x = .client) :
    ∃ p n, freeIndex N s.pool x = some p ∧ p.data = s.pool.data ∧ n + 1 = used ∧
      Inv N { s with pool := p } (upd own x .free) (x :: F) L n := by
  have hpos := h.pos
  have hcap := h.cap
  have hxr := h.rangeOwn x (by rw [hx]; simp)
  have hxN := h.lt N x (by rw [hx]; simp)
  unfold freeIndex
  rw [if_pos (show x ≠ 0 by omega), rdNext_eq N _ 0 hpos]
  simp only [Option.bind_eq_bind, Option.bind_some]
  rw [wrNext_eq N _ x _ hxN]
  simp only [Option.bind_some]
  rw [wrNext_eq N _ 0 _ hpos]
  dsimp only
  have hu : 0 < used := by
    -- otherwise F would be `size` distinct nodes below `size` other than x
    by_contra hc
    have hc : used = 0 := by omega
    have hcount := h.count
    have hsub : (x :: F).Subperm (List.range' 1 s.pool.size) := by
      apply List.subperm_of_subset
      · rw [List.nodup_cons]
        exact ⟨fun hm => by have := h.ownF x hm; simp [hx] at this, h.nodupF⟩
      · intro z hz'
        rw [List.mem_range'_1]
        rcases List.mem_cons.mp hz' with rfl | hz'
        · omega
        · have := h.rangeOwn z (by rw [h.ownF z hz']; simp)
          omega
    have := hsub.length_le
    simp at this
    omega
  have hcount := h.count
  have hfx : ∀ q, ∀ z ∈ L q, z ≠ x ∧ z ≠ 0 := by
    intro q z hz'
    have h1 := h.ownL q z hz'
    have := h.rangeOwn z (by rw [h1]; simp)
    exact ⟨by rintro rfl; simp [hx] at h1, by omega⟩
  have hff : ∀ z ∈ F, z ≠ x ∧ z ≠ 0 := by
    intro z hz'
    have h1 := h.ownF z hz'
    have := h.rangeOwn z (by rw [h1]; simp)
    exact ⟨by rintro rfl; simp [hx] at h1, by omega⟩
  refine ⟨_, used - 1, rfl, rfl, by omega, ?_⟩
  refine ⟨hcap, hpos, ?_, ?_, ?_, ?_, ?_, ?_, h.nodupL, by simp; omega⟩ <;> try dsimp only
  · refine ⟨upd_same _ _ _, ?_⟩
    show Path (upd (upd s.pool.next x (s.pool.next 0)) 0 x) x F 0
    have hxv : upd (upd s.pool.next x (s.pool.next 0)) 0 x x = s.pool.next 0 := by
      rw [upd_ne _ _ _ _ (by omega), upd_same]
    have hp := h.free
    cases F with
    | nil => exact hxv.trans hp
    | cons y ys =>
      refine ⟨hxv.trans hp.1, hp.2.congr ?_ fun z hz' => ?_⟩
      · rw [upd_ne _ _ _ _ (hff y (by simp)).2, upd_ne _ _ _ _ (hff y (by simp)).1]
      · rw [upd_ne _ _ _ _ (hff z (by simp [hz'])).2, upd_ne _ _ _ _ (hff z (by simp [hz'])).1]
  · intro q
    rcases h.queues q with hq | ⟨l, h1, h2⟩
    · exact .inl hq
    · refine .inr ⟨l, h1, h2.congr ?_ fun z hz' => ?_⟩
      · have := hfx q (s.tail q) (by rw [h1]; simp)
        rw [upd_ne _ _ _ _ this.2, upd_ne _ _ _ _ this.1]
      · have := hfx q z (by rw [h1]; simp [hz'])
        rw [upd_ne _ _ _ _ this.2, upd_ne _ _ _ _ this.1]
  · intro z hz'
    by_cases hzx : z = x
    · subst hzx; exact hxr
    · rw [upd_ne _ _ _ _ hzx] at hz'; exact h.rangeOwn z hz'
  · intro z hz'
    rcases List.mem_cons.mp hz' with rfl | hz'
    · rw [upd_same]
    · rw [upd_ne _ _ _ _ (hff z hz').1]; exact h.ownF z hz'
  · intro q z hz'
    rw [upd_ne _ _ _ _ (hfx q z hz').1]; exact h.ownL q z hz'
  · rw [List.nodup_cons]
    exact ⟨fun hm => (hff x hm).1 rfl, h.nodupF⟩

/-- `next` after linking `x` behind the tail `t` of a queue -/
def linkNext (next : Nat → Nat) (t x : Nat) : Nat → Nat :=
  if t = 0 then upd next x x else upd (upd next x (next t)) t x

/-- linking a client node into a queue; `front` tells whether it becomes the head or the tail -/
theorem link_eq (front : Bool) (s : St α) (own F L used) (h : Inv N s own F L used) (x q : Nat)
    (hx : own x = .client) :
    Inv N ⟨⟨linkNext s.pool.next (s.tail q) x, s.pool.size, s.pool.data⟩,
        upd s.tail q (cond front (if s.tail q = 0 then x else s.tail q) x)⟩
      (upd own x (.queue q)) F (upd L q (cond front (x :: L q) (L q ++ [x]))) used := by
  have hpos := h.pos
  have hxr := h.rangeOwn x (by rw [hx]; simp)
  have hfx : ∀ q, ∀ z ∈ L q, z ≠ x ∧ z ≠ 0 := by
    intro q z hz'
    have h1 := h.ownL q z hz'
    have := h.rangeOwn z (by rw [h1]; simp)
    exact ⟨by rintro rfl; simp [hx] at h1, by omega⟩
  have hff : ∀ z ∈ F, z ≠ x ∧ z ≠ 0 := by
    intro z hz'
    have h1 := h.ownF z hz'
    have := h.rangeOwn z (by rw [h1]; simp)
    exact ⟨by rintro rfl; simp [hx] at h1, by omega⟩
  -- next changes only at x and the tail of q
  have hnext : ∀ z, z ≠ x → (s.tail q ≠ 0 → z ≠ s.tail q) →
      linkNext s.pool.next (s.tail q) x z = s.pool.next z := by
    intro z h1 h2
    unfold linkNext
    by_cases ht : s.tail q = 0
    · rw [if_pos ht, upd_ne _ _ _ _ h1]
    · rw [if_neg ht, upd_ne _ _ _ _ (h2 ht), upd_ne _ _ _ _ h1]
  have htown : s.tail q ≠ 0 → own (s.tail q) = .queue q := h.tail_own N q
  refine ⟨h.cap, hpos, ?_, ?_, ?_, ?_, ?_, h.nodupF, ?_, h.count⟩
  · refine h.free.congr ?_ fun z hz' => ?_
    · exact hnext 0 (by omega) (fun h => by omega)
    · refine hnext z (hff z hz').1 fun ht he => ?_
      have h1 := h.ownF z hz'
      rw [he, htown ht] at h1; cases h1
  · intro r
    by_cases hr : r = q
    · subst hr
      right
      simp only [upd_same]
      rcases h.queues r with ⟨h1, h2⟩ | ⟨l, h1, h2⟩
      · refine ⟨[], ?_, ?_⟩
        · simp [h1, h2]
        · show _ = _
          cases front <;> simp [h2, upd, linkNext]
      · have ht : s.tail r ≠ 0 := (hfx r (s.tail r) (by rw [h1]; simp)).2
        have htx : s.tail r ≠ x := (hfx r (s.tail r) (by rw [h1]; simp)).1
        have hnd := h.nodupL r
        rw [h1] at hnd
        have htl : ∀ z ∈ l, z ≠ s.tail r := by
          intro z hz' he
          rw [List.nodup_append] at hnd
          exact hnd.2.2 z hz' _ (by simp) he
        simp only [linkNext, if_neg ht] at hnext ⊢
        have e1 : upd (upd s.pool.next x (s.pool.next (s.tail r))) (s.tail r) x (s.tail r) = x :=
          upd_same _ _ _
        have e2 : upd (upd s.pool.next x (s.pool.next (s.tail r))) (s.tail r) x x =
            s.pool.next (s.tail r) := by rw [upd_ne _ _ _ _ htx.symm, upd_same]
        -- the path from x through l to the tail
        have hp : Path (upd (upd s.pool.next x (s.pool.next (s.tail r))) (s.tail r) x) x l
            (s.tail r) := by
          cases l with
          | nil => exact e2.trans h2
          | cons y ys =>
            refine ⟨e2.trans h2.1, h2.2.congr ?_ fun z hz' => ?_⟩
            · exact hnext y (hfx r y (by rw [h1]; simp)).1 fun _ => htl y (by simp)
            · exact hnext z (hfx r z (by rw [h1]; simp [hz'])).1 fun _ => htl z (by simp [hz'])
        cases front with
        | true => exact ⟨x :: l, by simp [h1], e1, hp⟩
        | false => exact ⟨l ++ [s.tail r], by simp [h1], hp.append e1⟩
    · simp only [upd_ne _ _ _ _ hr]
      rcases h.queues r with hq | ⟨l, h1, h2⟩
      · exact .inl hq
      · refine .inr ⟨l, h1, h2.congr ?_ fun z hz' => ?_⟩
        · refine hnext _ (hfx r _ (by rw [h1]; simp)).1 fun ht he => ?_
          have h3 := h.ownL r (s.tail r) (by rw [h1]; simp)
          rw [he, htown ht] at h3; simp at h3; exact hr h3.symm
        · refine hnext _ (hfx r _ (by rw [h1]; simp [hz'])).1 fun ht he => ?_
          have h3 := h.ownL r z (by rw [h1]; simp [hz'])
          rw [he, htown ht] at h3; simp at h3; exact hr h3.symm
  · intro z hz'
    by_cases hzx : z = x
    · subst hzx; exact hxr
    · rw [upd_ne _ _ _ _ hzx] at hz'; exact h.rangeOwn z hz'
  · intro z hz'
    rw [upd_ne _ _ _ _ (hff z hz').1]; exact h.ownF z hz'
  · intro r z hz'
    by_cases hr : r = q
    · subst hr
      rw [upd_same] at hz'
      by_cases hzx : z = x
      · subst hzx; rw [upd_same]
      · rw [upd_ne _ _ _ _ hzx]
        refine h.ownL r z ?_
        cases front <;> simpa [hzx] using hz'
    · rw [upd_ne _ _ _ _ hr] at hz'
      rw [upd_ne _ _ _ _ (hfx r z hz').1]; exact h.ownL r z hz'
  · intro r
    by_cases hr : r = q
    · subst hr
      rw [upd_same]
      have hm : x ∉ L r := fun hm => (hfx r x hm).1 rfl
      cases front with
      | true => simp [hm, h.nodupL r]
      | false =>
        simp only [cond_false]
        rw [List.nodup_append]
        exact ⟨h.nodupL r, by simp, fun a ha b hb => by simp at hb; subst hb; rintro rfl; exact hm ha⟩
    · rw [upd_ne _ _ _ _ hr]; exact h.nodupL r

/-- the head of a non-empty queue -/
theorem head_eq (s : St α) (own F L used) (h : Inv N s own F L used) (q x : Nat) (xs : List Nat)
    (hL : L q = x :: xs) : s.tail q ≠ 0 ∧ s.pool.next (s.tail q) = x ∧ s.tail q < N ∧ x < N ∧
      own x = .queue q ∧ (xs = [] ↔ x = s.tail q) ∧ (x :: xs).getLast (by simp) = s.tail q := by
  rcases h.queues q with ⟨h1, _⟩ | ⟨l, h1, h2⟩
  · rw [h1] at hL; cases hL
  · have ho := h.ownL q x (by rw [hL]; simp)
    have hto := h.ownL q (s.tail q) (by rw [h1]; simp)
    have := h.rangeOwn (s.tail q) (by rw [hto]; simp)
    have hnd := h.nodupL q
    have hlast : (x :: xs).getLast (by simp) = s.tail q := by
      have : (L q).getLast? = some (s.tail q) := by rw [h1]; simp
      rw [hL, List.getLast?_eq_some_getLast (by simp)] at this
      simpa using this
    refine ⟨by omega, ?_, h.lt N _ (by rw [hto]; simp), h.lt N _ (by rw [ho]; simp), ho, ?_, hlast⟩
    · rw [h1] at hL
      cases l with
      | nil => simp at hL; rw [← hL.1]; exact h2
      | cons y ys => simp at hL; rw [← hL.1]; exact h2.1
    · constructor
      · rintro rfl; simpa using hlast
      · intro hx
        by_contra hne
        rw [hL, List.nodup_cons] at hnd
        apply hnd.1
        rw [hx, ← hlast, List.getLast_cons hne]
        exact List.getLast_mem hne

/-- unlinking the head of a queue hands the node to the client -/
theorem unlink_eq (s : St α) (own F L used) (h : Inv N s own F L used) (q x : Nat) (xs : List Nat)
    (hL : L q = x :: xs) :
    Inv N { pool := { s.pool with next := upd s.pool.next (s.tail q) (s.pool.next x) },
            tail := upd s.tail q (if x = s.tail q then 0 else s.tail q) }
      (upd own x .client) F (upd L q xs) used := by
  obtain ⟨ht, hn, _, _, hox, hiff, hlast⟩ := head_eq N s own F L used h q x xs hL
  have hto := h.tail_own N q ht
  have hfx : ∀ r, r ≠ q → ∀ z ∈ L r, z ≠ x ∧ z ≠ s.tail q := by
    intro r hr z hz'
    have h1 := h.ownL r z hz'
    constructor
    · rintro rfl; rw [hox] at h1; simp at h1; exact hr h1.symm
    · rintro rfl; rw [hto] at h1; simp at h1; exact hr h1.symm
  have hff : ∀ z ∈ F, z ≠ x ∧ z ≠ s.tail q := by
    intro z hz'
    have h1 := h.ownF z hz'
    constructor
    · rintro rfl; rw [hox] at h1; cases h1
    · rintro rfl; rw [hto] at h1; cases h1
  have hnd := h.nodupL q
  rw [hL, List.nodup_cons] at hnd
  refine ⟨h.cap, h.pos, ?_, ?_, ?_, ?_, ?_, h.nodupF, ?_, h.count⟩
  · exact h.free.congr (upd_ne _ _ _ _ ht.symm) fun z hz' => upd_ne _ _ _ _ (hff z hz').2
  · intro r
    by_cases hr : r = q
    · subst hr
      simp only [upd_same]
      by_cases hxe : x = s.tail r
      · left; exact ⟨hiff.mpr hxe, by simp [hxe]⟩
      · right
        rw [if_neg hxe]
        rcases h.queues r with ⟨h1, _⟩ | ⟨l, h1, h2⟩
        · rw [h1] at hL; cases hL
        · cases l with
          | nil => rw [hL] at h1; simp at h1; exact absurd h1.1 hxe
          | cons y ys =>
            rw [hL] at h1; simp at h1
            obtain ⟨rfl, hxs⟩ := h1
            refine ⟨ys, hxs, ?_⟩
            have hnt : ∀ z ∈ ys, z ≠ s.tail r := by
              intro z hz' he
              have := hnd.2
              rw [hxs, List.nodup_append] at this
              exact this.2.2 z hz' _ (by simp) he
            have hp := h2.2
            cases ys with
            | nil => show upd _ _ _ _ = _; rw [upd_same]; exact hp
            | cons w ws =>
              refine ⟨by rw [upd_same]; exact hp.1, hp.2.congr ?_ fun z hz' => ?_⟩
              · exact upd_ne _ _ _ _ (hnt w (by simp))
              · exact upd_ne _ _ _ _ (hnt z (by simp [hz']))
    · simp only [upd_ne _ _ _ _ hr]
      rcases h.queues r with hq | ⟨l, h1, h2⟩
      · exact .inl hq
      · exact .inr ⟨l, h1, h2.congr (upd_ne _ _ _ _ (hfx r hr _ (by rw [h1]; simp)).2)
          fun z hz' => upd_ne _ _ _ _ (hfx r hr z (by rw [h1]; simp [hz'])).2⟩
  · intro z hz'
    by_cases hzx : z = x
    · subst hzx; exact h.rangeOwn z (by rw [hox]; simp)
    · rw [upd_ne _ _ _ _ hzx] at hz'; exact h.rangeOwn z hz'
  · intro z hz'
    rw [upd_ne _ _ _ _ (hff z hz').1]; exact h.ownF z hz'
  · intro r z hz'
    by_cases hr : r = q
    · subst hr
      rw [upd_same] at hz'
      rw [upd_ne _ _ _ _ (by rintro rfl; exact hnd.1 hz')]
      exact h.ownL r z (by rw [hL]; simp [hz'])
    · rw [upd_ne _ _ _ _ hr] at hz'
      rw [upd_ne _ _ _ _ (hfx r hr z hz').1]; exact h.ownL r z hz'
  · intro r
    by_cases hr : r = q
    · subst hr; rw [upd_same]; exact hnd.2
    · rw [upd_ne _ _ _ _ hr]; exact h.nodupL r

end CE.Pool
