import Verif.Proof.Pool
namespace CE.Pool

variable {α : Type} (N : Nat)

/-- the concrete state shows the abstract one -/
def Rel (s : St α) (σ : Abs α) : Prop :=
  ∃ own F L, Inv N s own F L σ.used ∧ (∀ q, (L q).map s.pool.data = σ.queue q) ∧
    (∀ x, σ.held x = true ↔ own x = .client) ∧ ∀ x, σ.held x = true → s.pool.data x = σ.cell x

theorem map_upd (d : Nat → α) (l : List Nat) (x : Nat) (v : α) (h : x ∉ l) :
    l.map (upd d x v) = l.map d := by
  apply List.map_congr_left
  intro z hz
  exact upd_ne _ _ _ _ (by rintro rfl; exact h hz)

/-- linking a fresh node carrying `v` -/
theorem link_rel (front : Bool) (s : St α) (σ : Abs α) (own F L) (q x : Nat) (v : α) (p : Pool α)
    (F' : List Nat) (hnf : own x = .unused ∨ own x = .free) (hi0 : Inv N s own F L σ.used)
    (hq : ∀ q, (L q).map s.pool.data = σ.queue q)
    (hheld : ∀ x, σ.held x = true ↔ own x = .client)
    (hcell : ∀ x, σ.held x = true → s.pool.data x = σ.cell x) (hd : p.data = s.pool.data)
    (hi : Inv N { s with pool := p } (upd own x .client) F' L (σ.used + 1)) :
    Rel N ⟨⟨linkNext p.next (s.tail q) x, p.size, upd p.data x v⟩,
        upd s.tail q (cond front (if s.tail q = 0 then x else s.tail q) x)⟩
      { σ with queue := upd σ.queue q (cond front (v :: σ.queue q) (σ.queue q ++ [v])),
               used := σ.used + 1 } := by
  have hl := link_eq N front _ _ _ _ _ (hi.data N (upd p.data x v)) x q (upd_same _ _ _)
  have hnl : ∀ r, x ∉ L r := by
    intro r hm
    have := hi0.ownL r x hm
    rcases hnf with h | h <;> rw [h] at this <;> cases this
  refine ⟨_, _, _, hl, ?_, ?_, ?_⟩
  · intro r
    by_cases hr : r = q
    · subst hr
      simp only [upd_same]
      cases front with
      | true => simp only [cond_true, List.map_cons, upd_same, map_upd _ _ _ _ (hnl r), hd, hq]
      | false =>
        simp only [cond_false, List.map_append, List.map_cons, List.map_nil, upd_same,
          map_upd _ _ _ _ (hnl r), hd, hq]
    · simp only [upd_ne _ _ _ _ hr, map_upd _ _ _ _ (hnl r), hd, hq]
  · intro z
    by_cases hz : z = x
    · subst hz
      rw [upd_same]
      have := hheld z
      constructor
      · intro h; have := this.mp h; rcases hnf with h | h <;> rw [h] at this <;> cases this
      · intro h; cases h
    · rw [upd_ne _ _ _ _ hz, upd_ne _ _ _ _ hz]; exact hheld z
  · intro z hz
    show upd p.data x v z = σ.cell z
    have : z ≠ x := by
      rintro rfl
      have := (hheld z).mp hz
      rcases hnf with h | h <;> rw [h] at this <;> cases this
    rw [upd_ne _ _ _ _ this, hd]; exact hcell z hz

theorem step_sim (s : St α) (σ : Abs α) (h : Rel N s σ) (op : Op α) (hp : Pre σ op) :
    ∃ r s' σ', step N s op = some (r, s') ∧ SpecStep N σ op r σ' ∧ Rel N s' σ' := by
  obtain ⟨own, F, L, hi, hq, hheld, hcell⟩ := h
  have queueNil : ∀ q, σ.queue q = [] ↔ s.tail q = 0 := by
    intro q
    rw [← hq q, List.map_eq_nil_iff]
    rcases hi.queues q with ⟨h1, h2⟩ | ⟨l, h1, _⟩
    · simp [h1, h2]
    · have := hi.rangeOwn (s.tail q) (by rw [hi.ownL q _ (by rw [h1]; simp)]; simp)
      rw [h1]; simp; omega
  have queueCons : ∀ q v vs, σ.queue q = v :: vs → ∃ x xs, L q = x :: xs ∧ s.pool.data x = v ∧
      xs.map s.pool.data = vs := by
    intro q v vs hv
    have := hq q
    rw [hv] at this
    cases hL : L q with
    | nil => rw [hL] at this; cases this
    | cons x xs => rw [hL] at this; simp at this; exact ⟨x, xs, rfl, this.1, this.2⟩
  have clientNe : ∀ x, σ.held x = true → x ≠ 0 ∧ x < N := by
    intro x hx
    have h1 := (hheld x).mp hx
    have := hi.rangeOwn x (by rw [h1]; simp)
    exact ⟨by omega, hi.lt N x (by rw [h1]; simp)⟩
  have notHeldQ : ∀ x, σ.held x = true → ∀ r, x ∉ L r := by
    intro x hx r hm
    have h1 := (hheld x).mp hx
    rw [hi.ownL r x hm] at h1; cases h1
  cases op with
  | alloc =>
    rcases alloc_eq N s own F L _ hi with ⟨hu, he⟩ | ⟨hu, x, p, F', he, hnf, hx0, hxN, hd, hi'⟩
    · exact ⟨_, _, _, by simp only [step, he, Option.bind_eq_bind, Option.bind_some]; rfl,
        .allocFull hu, own, F, L, hi, hq, hheld, hcell⟩
    · have hnh : σ.held x = false := by
        by_contra hc
        have := (hheld x).mp (by simpa using hc)
        rcases hnf with h | h <;> rw [h] at this <;> cases this
      refine ⟨_, _, _, by simp only [step, he, Option.bind_eq_bind, Option.bind_some]; rfl,
        .alloc x (s.pool.data x) hu hx0 hxN hnh, _, F', L, hi', ?_, ?_, ?_⟩
      · intro q; rw [← hq q]; simp only [hd]
      · intro z
        by_cases hz : z = x
        · subst hz; simp [upd_same]
        · simp only [upd_ne _ _ _ _ hz]; exact hheld z
      · intro z hz
        by_cases hzx : z = x
        · subst hzx; simp only [upd_same, hd]
        · simp only [upd_ne _ _ _ _ hzx] at hz ⊢; rw [hd]; exact hcell z hz
  | free x =>
    rcases hp with rfl | hp
    · exact ⟨_, _, _, by simp only [step, freeIndex]; rfl, .freeNil, own, F, L, hi, hq, hheld, hcell⟩
    · obtain ⟨p, n, he, hd, hn, hi'⟩ := free_eq N s own F L _ hi x ((hheld x).mp hp)
      refine ⟨_, _, _, by simp only [step, he, Option.bind_eq_bind, Option.bind_some]; rfl,
        .free x n (clientNe x hp).1 hp hn, _, _, L, hi', ?_, ?_, ?_⟩
      · intro q; rw [← hq q]; simp only [hd]
      · intro z
        by_cases hz : z = x
        · subst hz; simp [upd_same]
        · simp only [upd_ne _ _ _ _ hz]; exact hheld z
      · intro z hz
        by_cases hzx : z = x
        · subst hzx; simp [upd_same] at hz
        · simp only [upd_ne _ _ _ _ hzx] at hz ⊢; rw [hd]; exact hcell z hz
  | peek x =>
    refine ⟨_, _, _, ?_, .peek x hp, own, F, L, hi, hq, hheld, hcell⟩
    simp only [step, rdData_eq N _ x (clientNe x hp).2, hcell x hp, Option.bind_eq_bind,
      Option.bind_some]; rfl
  | poke x v =>
    refine ⟨_, _, _, ?_, .poke x v hp, own, F, L, hi.data N (upd s.pool.data x v), ?_, hheld, ?_⟩
    · simp only [step, wrData_eq N _ x _ (clientNe x hp).2, Option.bind_eq_bind, Option.bind_some]; rfl
    · intro q; rw [← hq q]; exact map_upd _ _ _ _ (notHeldQ x hp q)
    · intro z hz
      by_cases hzx : z = x
      · subst hzx; simp only [upd_same]
      · simp only [upd_ne _ _ _ _ hzx]; exact hcell z hz
  | append q v =>
    rcases alloc_eq N s own F L _ hi with ⟨hu, he⟩ | ⟨hu, x, p, F', he, hnf, hx0, hxN, hd, hi'⟩
    · refine ⟨_, _, _, ?_, .appendFull q v hu, own, F, L, hi, hq, hheld, hcell⟩
      have : upd s.tail q (s.tail q) = s.tail := by funext j; unfold upd; split <;> simp_all
      simp only [step, appendTail, he, Option.bind_eq_bind, Option.bind_some]
      simp [this]
    · refine ⟨_, _, _, ?_, .append q v hu,
        link_rel N false s σ own F L q x v p F' hnf hi hq hheld hcell hd hi'⟩
      simp only [step, appendTail, he, Option.bind_eq_bind, Option.bind_some]
      rw [if_neg hx0, wrData_eq N _ x _ hxN]
      by_cases ht : s.tail q = 0
      · simp [ht, wrNext_eq N _ x _ hxN, linkNext]
      · have htN : s.tail q < N := hi.lt N _ (by rw [hi.tail_own N q ht]; simp)
        simp [ht, wrNext_eq N _ x _ hxN, rdNext_eq N _ _ htN, wrNext_eq N _ _ _ htN, linkNext]
  | insert q v =>
    rcases alloc_eq N s own F L _ hi with ⟨hu, he⟩ | ⟨hu, x, p, F', he, hnf, hx0, hxN, hd, hi'⟩
    · refine ⟨_, _, _, ?_, .insertFull q v hu, own, F, L, hi, hq, hheld, hcell⟩
      have : upd s.tail q (s.tail q) = s.tail := by funext j; unfold upd; split <;> simp_all
      simp only [step, insertHead, he, Option.bind_eq_bind, Option.bind_some]
      simp [this]
    · refine ⟨_, _, _, ?_, .insert q v hu,
        link_rel N true s σ own F L q x v p F' hnf hi hq hheld hcell hd hi'⟩
      simp only [step, insertHead, he, Option.bind_eq_bind, Option.bind_some]
      rw [if_neg hx0, wrData_eq N _ x _ hxN]
      by_cases ht : s.tail q = 0
      · simp [ht, wrNext_eq N _ x _ hxN, linkNext]
      · have htN : s.tail q < N := hi.lt N _ (by rw [hi.tail_own N q ht]; simp)
        simp [ht, wrNext_eq N _ x _ hxN, rdNext_eq N _ _ htN, wrNext_eq N _ _ _ htN, linkNext]
  | remove q =>
    by_cases ht : s.tail q = 0
    · refine ⟨_, _, _, ?_, .removeEmpty q ((queueNil q).mpr ht), own, F, L, hi, hq, hheld, hcell⟩
      have : upd s.tail q 0 = s.tail := by funext j; unfold upd; split <;> simp_all
      simp [step, removeHead, ht, this]
    · cases hv : σ.queue q with
      | nil => exact absurd ((queueNil q).mp hv) ht
      | cons v vs =>
        obtain ⟨x, xs, hL, hxv, hxs⟩ := queueCons q v vs hv
        obtain ⟨_, hn, htN, hxN, hox, _, _⟩ := head_eq N s own F L _ hi q x xs hL
        have hu := unlink_eq N s own F L _ hi q x xs hL
        obtain ⟨p, n, he, hd, hn', hi'⟩ := free_eq N _ _ F _ _ hu x (upd_same _ _ _)
        have hxr := hi.rangeOwn x (by rw [hox]; simp)
        refine ⟨.ok true, _, _, ?_, .remove q v vs n hv hn', _, _, _, hi', ?_, ?_, ?_⟩
        · unfold freeIndex at he
          rw [if_pos (show x ≠ 0 by omega)] at he
          simp only [step, removeHead, if_neg ht, rdNext_eq N _ _ htN, hn, Option.bind_eq_bind,
            Option.bind_some, rdNext_eq N _ _ hxN, wrNext_eq N _ _ _ htN] at he ⊢
          have hpos := hi.pos
          simp only [rdNext_eq N _ _ hpos, wrNext_eq N _ _ _ hxN, wrNext_eq N _ _ _ hpos,
            Option.bind_some, Option.some.injEq] at he ⊢
          rw [← he]; rfl
        · intro r
          by_cases hr : r = q
          · subst hr; simp only [upd_same, hd, hxs]
          · simp only [upd_ne _ _ _ _ hr, hd, hq r]
        · intro z
          by_cases hz : z = x
          · subst hz
            rw [upd_same]
            have := hheld z
            rw [hox] at this
            simpa using this
          · simp only [upd_ne _ _ _ _ hz]; exact hheld z
        · intro z hz
          simp only [hd]; exact hcell z hz
  | head q =>
    cases hv : σ.queue q with
    | nil => exact absurd hv hp
    | cons v vs =>
      obtain ⟨x, xs, hL, hxv, hxs⟩ := queueCons q v vs hv
      obtain ⟨_, hn, htN, hxN, hox, _, _⟩ := head_eq N s own F L _ hi q x xs hL
      refine ⟨_, _, _, ?_, .head q v vs hv, own, F, L, hi, hq, hheld, hcell⟩
      simp only [step, headNode, rdNext_eq N _ _ htN, hn, rdData_eq N _ _ hxN, hxv,
        Option.bind_eq_bind, Option.bind_some]; rfl
  | tail q =>
    rcases hi.queues q with ⟨h1, h2⟩ | ⟨l, h1, _⟩
    · exact absurd ((queueNil q).mpr h2) hp
    · have hto := hi.ownL q (s.tail q) (by rw [h1]; simp)
      have htN := hi.lt N (s.tail q) (by rw [hto]; simp)
      have := hq q
      rw [h1, List.map_append] at this
      refine ⟨_, _, _, ?_, .tail q _ _ this.symm, own, F, L, hi, hq, hheld, hcell⟩
      simp only [step, rdData_eq N _ _ htN, Option.bind_eq_bind, Option.bind_some]; rfl
  | setHead q v =>
    cases hv : σ.queue q with
    | nil => exact absurd hv hp
    | cons w vs =>
      obtain ⟨x, xs, hL, hxv, hxs⟩ := queueCons q w vs hv
      obtain ⟨_, hn, htN, hxN, hox, _, _⟩ := head_eq N s own F L _ hi q x xs hL
      have hnd := hi.nodupL q
      rw [hL, List.nodup_cons] at hnd
      refine ⟨_, _, _, ?_, .setHead q v w vs hv, own, F, L, hi.data N (upd s.pool.data x v), ?_,
        hheld, ?_⟩
      · simp only [step, headNode, rdNext_eq N _ _ htN, hn, wrData_eq N _ _ _ hxN,
          Option.bind_eq_bind, Option.bind_some]; rfl
      · intro r
        by_cases hr : r = q
        · subst hr
          simp only [upd_same, hL, List.map_cons, map_upd _ _ _ _ hnd.1, hxs]
        · simp only [upd_ne _ _ _ _ hr]
          rw [map_upd _ _ _ _ (fun hm => hr (by
            have := hi.ownL r x hm; rw [hox] at this; simpa using this.symm)), hq r]
      · intro z hz
        have : z ≠ x := by
          rintro rfl; have := (hheld z).mp hz; rw [hox] at this; cases this
        simp only [upd_ne _ _ _ _ this]; exact hcell z hz
  | setTail q v =>
    rcases hi.queues q with ⟨h1, h2⟩ | ⟨l, h1, _⟩
    · exact absurd ((queueNil q).mpr h2) hp
    · have hto := hi.ownL q (s.tail q) (by rw [h1]; simp)
      have htN := hi.lt N (s.tail q) (by rw [hto]; simp)
      have hv := hq q
      rw [h1, List.map_append] at hv
      have hnd := hi.nodupL q
      rw [h1, List.nodup_append] at hnd
      have hnl : s.tail q ∉ l := fun hm => hnd.2.2 _ hm _ (by simp) rfl
      refine ⟨_, _, _, ?_, .setTail q v _ _ hv.symm, own, F, L,
        hi.data N (upd s.pool.data (s.tail q) v), ?_, hheld, ?_⟩
      · simp only [step, wrData_eq N _ _ _ htN, Option.bind_eq_bind, Option.bind_some]; rfl
      · intro r
        by_cases hr : r = q
        · subst hr
          simp only [upd_same, h1, List.map_append, List.map_cons, List.map_nil,
            map_upd _ _ _ _ hnl]
        · simp only [upd_ne _ _ _ _ hr]
          rw [map_upd _ _ _ _ (fun hm => hr (by
            have := hi.ownL r _ hm; rw [hto] at this; simpa using this.symm)), hq r]
      · intro z hz
        have : z ≠ s.tail q := by
          rintro rfl; have := (hheld _).mp hz; rw [hto] at this; cases this
        simp only [upd_ne _ _ _ _ this]; exact hcell z hz
  | isEmpty q =>
    refine ⟨_, _, _, rfl, .isEmpty q _ ?_, own, F, L, hi, hq, hheld, hcell⟩
    rw [queueNil q]; simp
  | forget q =>
    refine ⟨_, _, _, rfl, .forget q, fun x => if own x = .queue q then .lost else own x, F,
      upd L q [], ⟨hi.cap, hi.pos, hi.free, ?_, ?_, ?_, ?_, hi.nodupF, ?_, hi.count⟩, ?_, ?_, hcell⟩
    · intro r
      by_cases hr : r = q
      · subst hr; exact .inl ⟨upd_same _ _ _, upd_same _ _ _⟩
      · simp only [upd_ne _ _ _ _ hr]; exact hi.queues r
    · intro x hx
      apply hi.rangeOwn x
      intro h
      rw [h] at hx; simp at hx
    · intro x hx
      simp [hi.ownF x hx]
    · intro r x hx
      by_cases hr : r = q
      · subst hr; rw [upd_same] at hx; cases hx
      · rw [upd_ne _ _ _ _ hr] at hx
        simp [hi.ownL r x hx, hr]
    · intro r
      by_cases hr : r = q
      · subst hr; rw [upd_same]; exact List.nodup_nil
      · rw [upd_ne _ _ _ _ hr]; exact hi.nodupL r
    · intro r
      by_cases hr : r = q
      · subst hr; simp only [upd_same, List.map_nil]
      · simp only [upd_ne _ _ _ _ hr]; exact hq r
    · intro x
      rw [hheld x]
      by_cases hx : own x = .queue q
      · simp [hx]
      · simp [hx]
  | reset =>
    have ht : ∀ q, s.tail q = 0 := fun q => (queueNil q).mp (hp q)
    refine ⟨.unit, ⟨⟨upd s.pool.next 0 0, 0, s.pool.data⟩, s.tail⟩, _, ?_, .reset hp, fun _ => .unused, [], fun _ => [],
      ⟨?_, hi.pos, ?_, fun q => .inl ⟨rfl, ht q⟩, fun x hx => absurd rfl hx, by simp, by simp, by simp,
        by simp, ?_⟩, ?_, fun x => by simp, fun x hx => by simp at hx⟩
    · simp only [step, reset, wrNext_eq N _ 0 _ hi.pos, Option.bind_eq_bind, Option.bind_some]; rfl
    · simp
    · show upd s.pool.next 0 0 0 = 0
      exact upd_same _ _ _
    · rfl
    · intro q; exact (hp q).symm

theorem init_rel (hN : 0 < N) (s s' : Pool α) (tail : Nat → Nat) (ht : ∀ q, tail q = 0)
    (h : reset N s = some s') : Rel N ⟨s', tail⟩ (Abs.init s'.data) := by
  unfold reset at h
  rw [wrNext_eq N _ 0 _ hN] at h
  simp only [Option.some.injEq] at h
  refine ⟨fun _ => .unused, [], fun _ => [], ?_, fun _ => rfl, fun x => by simp [Abs.init],
    fun _ _ => rfl⟩
  subst h
  exact ⟨by simp, hN, (by show upd s.next 0 0 0 = 0; exact upd_same _ _ _), fun q => .inl ⟨rfl, ht q⟩, fun x hx => absurd rfl hx,
    by simp, by simp, by simp, by simp, rfl⟩

end CE.Pool
