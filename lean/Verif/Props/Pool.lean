import Verif.Proof.PoolSim
import Mathlib.Algebra.BigOperators.Group.Finset.Basic
/-!
# C30, C31: pool
-/
namespace CE.Pool

variable {α : Type}

theorem run_sim (N : Nat) (ops : List (Op α)) (s : St α) (σ : Abs α) (h : Rel N s σ) :
    (∃ rs s' σ', run N s ops = some (rs, s') ∧ SpecRun N σ ops rs σ' ∧ Rel N s' σ') ∨
    (∃ pre op post rs s' σ', ops = pre ++ op :: post ∧ run N s pre = some (rs, s') ∧
      SpecRun N σ pre rs σ' ∧ ¬ Pre σ' op) := by
  induction ops generalizing s σ with
  | nil => exact .inl ⟨[], s, σ, rfl, .nil _, h⟩
  | cons op ops ih =>
    by_cases hp : Pre σ op
    · obtain ⟨r, s1, σ1, e1, e2, e3⟩ := step_sim N s σ h op hp
      rcases ih s1 σ1 e3 with ⟨rs, s', σ', f1, f2, f3⟩ | ⟨pre, o, post, rs, s', σ', f0, f1, f2, f3⟩
      · exact .inl ⟨r :: rs, s', σ', by simp [run, e1, f1], .cons e2 f2, f3⟩
      · exact .inr ⟨op :: pre, o, post, r :: rs, s', σ', by simp [f0], by simp [run, e1, f1],
          .cons e2 f2, f3⟩
    · exact .inr ⟨[], op, ops, [], s, σ, rfl, rfl, .nil _, hp⟩

/-- C30, C31.  For any sequence of calls on any number of queues of one pool after `reset()`, on
storage with arbitrary content: either the calls run inside the arrays and all results are those of
independent lists, client nodes and a count of nodes in use as given by `SpecRun`; or the client has
broken a precondition, and everything before that call ran as specified. -/
theorem C30_history_refines (N : Nat) (hN : 0 < N) (s0 s : Pool α) (hs : reset N s0 = some s)
    (ops : List (Op α)) :
    (∃ rs s' σ', run N ⟨s, fun _ => 0⟩ ops = some (rs, s') ∧ SpecRun N (Abs.init s.data) ops rs σ') ∨
    (∃ pre op post rs s' σ', ops = pre ++ op :: post ∧ run N ⟨s, fun _ => 0⟩ pre = some (rs, s') ∧
      SpecRun N (Abs.init s.data) pre rs σ' ∧ ¬ Pre σ' op) := by
  rcases run_sim N ops ⟨s, fun _ => 0⟩ _ (init_rel N hN s0 s (fun _ => 0) (fun _ => rfl) hs) with
    ⟨rs, s', σ', h1, h2, _⟩ | h
  · exact .inl ⟨rs, s', σ', h1, h2⟩
  · exact .inr h

/-- the operations the theorem is about do happen: three appends of which the last fails, a removal
that makes room for another queue -/
example : (run 3 ⟨⟨fun _ => 0, 0, fun _ => 0⟩, fun _ => 0⟩ [.append 0 5, .insert 0 4, .append 1 7,
    .remove 0, .append 1 8, .head 0, .tail 1]).map
    (fun r => r.1.map fun | .ok b => (if b then 100 else 200) | .value v => v | _ => 0) =
    some [100, 100, 200, 100, 100, 5, 8] := by decide +kernel

theorem sum_upd (K q : Nat) (f : Nat → Nat) (v : Nat) (hq : q < K) :
    (Finset.range K).sum (upd f q v) + f q = (Finset.range K).sum f + v := by
  induction K with
  | zero => omega
  | succ K ih =>
    rw [Finset.sum_range_succ, Finset.sum_range_succ]
    show (Finset.range K).sum (upd f q v) + upd f q v K + f q = (Finset.range K).sum f + f K + v
    by_cases h : q = K
    · subst h
      have : (Finset.range q).sum (upd f q v) = (Finset.range q).sum f := by
        apply Finset.sum_congr rfl
        intro x hx; rw [Finset.mem_range] at hx
        exact upd_ne _ _ _ _ (by omega)
      rw [this, upd_same]; omega
    · have := ih (by omega)
      rw [upd_ne _ _ _ _ (show K ≠ q by omega)]; omega

/-- the queue a call works on, if any, is below `K` -/
def Op.Below (K : Nat) : Op α → Prop
  | .append q _ | .insert q _ | .remove q | .setHead q _ | .setTail q _ | .forget q => q < K
  | _ => True

/-- number of nodes the abstract state accounts for, with queues `0 .. K` and nodes `0 .. N`: queued,
held and lost -/
def inUse (N K : Nat) (σ : Abs α) : Nat :=
  (Finset.range K).sum (fun q => (σ.queue q).length) +
    (Finset.range N).sum (fun x => if σ.held x then 1 else 0) + σ.lost

theorem upd_comp {β γ : Type} (g : β → γ) (f : Nat → β) (q : Nat) (v : β) :
    (fun x => g (upd f q v x)) = upd (fun x => g (f x)) q (g v) := by
  funext x; unfold upd; split <;> rfl

theorem inUse_step (N K : Nat) (σ σ' : Abs α) (op : Op α) (r : Out α) (h : SpecStep N σ op r σ')
    (hb : op.Below K) (hr : ∀ x, σ.held x = true → x < N) (hu : σ.used = inUse N K σ) :
    σ'.used = inUse N K σ' ∧ ∀ x, σ'.held x = true → x < N := by
  have queueCase : ∀ (q : Nat) (l : List α) (u : Nat), q < K →
      u + (σ.queue q).length = σ.used + l.length →
      u = inUse N K { σ with queue := upd σ.queue q l, used := u } := by
    intro q l u hq he
    unfold inUse at hu ⊢
    dsimp only
    rw [upd_comp (fun l : List α => l.length)]
    have := sum_upd K q (fun q => (σ.queue q).length) l.length hq
    omega
  have heldCase : ∀ (x : Nat) (b : Bool) (c : Nat → α) (u : Nat), x < N →
      u + (if σ.held x then 1 else 0) = σ.used + (if b then 1 else 0) →
      u = inUse N K { σ with held := upd σ.held x b, cell := c, used := u } := by
    intro x b c u hx he
    unfold inUse at hu ⊢
    dsimp only
    rw [upd_comp (fun b : Bool => if b then 1 else 0)]
    have := sum_upd N x (fun x => if σ.held x then 1 else 0) (if b then 1 else 0) hx
    omega
  have heldRange : ∀ (x : Nat) (b : Bool), x < N → ∀ z, upd σ.held x b z = true → z < N := by
    intro x b hx z hz
    by_cases h : z = x
    · subst h; exact hx
    · rw [upd_ne _ _ _ _ h] at hz; exact hr z hz
  cases h with
  | alloc x v hu' h0 hN hx => exact ⟨heldCase x true _ _ hN (by simp [hx]), heldRange x true hN⟩
  | free x n h0 hx hn =>
    exact ⟨heldCase x false _ _ (hr x hx) (by simp [hx, hn]), heldRange x false (hr x hx)⟩
  | append q v hu' => exact ⟨queueCase q _ _ hb (by simp; omega), hr⟩
  | insert q v hu' => exact ⟨queueCase q _ _ hb (by simp; omega), hr⟩
  | remove q v vs n hv hn => exact ⟨queueCase q _ _ hb (by rw [hv]; simp; omega), hr⟩
  | setHead q v w vs hv => exact ⟨queueCase q _ _ hb (by rw [hv]; simp), hr⟩
  | setTail q v w vs hv => exact ⟨queueCase q _ _ hb (by rw [hv]; simp), hr⟩
  | poke x v hx => exact ⟨hu, hr⟩
  | forget q =>
    refine ⟨?_, hr⟩
    unfold inUse at hu ⊢
    dsimp only
    rw [upd_comp (fun l : List α => l.length)]
    have h0 : ([] : List α).length = 0 := rfl
    have := sum_upd K q (fun q => (σ.queue q).length) ([] : List α).length hb
    show σ.used = (Finset.range K).sum (upd (fun q => (σ.queue q).length) q ([] : List α).length) + _ + _
    omega
  | reset h => exact ⟨by simp [inUse, h], by simp⟩
  | _ => exact ⟨hu, hr⟩

/-- C31.  The count the specification goes by is the true one: in every state a history of calls on
queues `0 .. K` reaches, the number of nodes in use is the total length of the queues plus the number
of nodes the client holds plus those lost by `queue_t::reset()` since the last `reset()`.  With `SpecStep` this says: `alloc_index` returns 0 exactly when all `N-1`
nodes are held, queued or lost, otherwise a node in `1 .. N-1` that the client does not hold and whose
content is no queue's (`poke` leaves all queues alone); `free_index` gives exactly one node back. -/
theorem C31_used_is_count (N K : Nat) (cell : Nat → α) (ops : List (Op α)) (rs : List (Out α))
    (σ : Abs α) (h : SpecRun N (Abs.init cell) ops rs σ) (hb : ∀ op ∈ ops, op.Below K) :
    σ.used = inUse N K σ ∧ ∀ x, σ.held x = true → x < N := by
  have key : ∀ (σ0 : Abs α), SpecRun N σ0 ops rs σ → (∀ x, σ0.held x = true → x < N) →
      σ0.used = inUse N K σ0 → σ.used = inUse N K σ ∧ ∀ x, σ.held x = true → x < N := by
    intro σ0 h
    clear * - h hb
    induction h with
    | nil σ => exact fun h1 h2 => ⟨h2, h1⟩
    | cons h hs ih =>
      intro h1 h2
      obtain ⟨h3, h4⟩ := inUse_step N K _ _ _ _ h (hb _ (by simp)) h1 h2
      exact ih (fun op ho => hb op (by simp [ho])) h4 h3
  exact key _ h (by simp [Abs.init]) (by simp [Abs.init, inUse])

/-- C31.  After any history that respects the preconditions, `alloc_index()` fails exactly when all
`N - 1` nodes are in use, and otherwise returns a new node. -/
theorem C31_alloc_exact (N K : Nat) (hN : 0 < N) (s0 s : Pool α) (hs : reset N s0 = some s)
    (ops : List (Op α)) (hb : ∀ op ∈ ops, op.Below K)
    (hpre : ∀ pre op post rs σ', ops = pre ++ op :: post → SpecRun N (Abs.init s.data) pre rs σ' →
      Pre σ' op) :
    ∃ rs s' σ' x p, run N ⟨s, fun _ => 0⟩ ops = some (rs, s') ∧
      SpecRun N (Abs.init s.data) ops rs σ' ∧ allocIndex N s'.pool = some (x, p) ∧
      (x = 0 ↔ inUse N K σ' = N - 1) ∧ (x ≠ 0 → x < N ∧ σ'.held x = false) := by
  rcases run_sim N ops ⟨s, fun _ => 0⟩ _ (init_rel N hN s0 s (fun _ => 0) (fun _ => rfl) hs) with
    ⟨rs, s', σ', h1, h2, h3⟩ | ⟨pre, op, post, rs, s', σ', h1, _, h2, h3⟩
  · obtain ⟨hu, _⟩ := C31_used_is_count N K s.data ops rs σ' h2 hb
    obtain ⟨r, s'', σ'', e1, e2, _⟩ := step_sim N s' σ' h3 .alloc trivial
    cases ha : allocIndex N s'.pool with
    | none => simp [step, ha] at e1
    | some xp =>
      obtain ⟨x, p⟩ := xp
      simp only [step, ha, Option.bind_eq_bind, Option.bind_some] at e1
      have er : r = .node x := by
        simp only [Option.pure_def, Option.some.injEq, Prod.mk.injEq] at e1; exact e1.1.symm
      refine ⟨rs, s', σ', x, p, h1, h2, ha, ?_, ?_⟩
      · rw [← hu]
        subst er
        cases e2 with
        | alloc x v hu' h0 hN hx => constructor <;> intro h <;> omega
        | allocFull hu' => exact ⟨fun _ => hu', fun _ => rfl⟩
      · intro hx0
        subst er
        cases e2 with
        | alloc x v hu' h0 hN hx => exact ⟨hN, hx⟩
        | allocFull hu' => exact absurd rfl hx0
  · exact absurd (hpre pre op post rs σ' h1 h2) h3

/-- a history that meets the hypotheses of `C31_alloc_exact` whatever the results are -/
example (σ0 : Abs Nat) : ∀ pre op post rs σ', ([.append 0 1, .alloc, .insert 1 2, .remove 0] : List (Op Nat))
    = pre ++ op :: post → SpecRun 5 σ0 pre rs σ' → Pre σ' op := by
  intro pre op post rs σ' h _
  have : op ∈ ([.append 0 1, .alloc, .insert 1 2, .remove 0] : List (Op Nat)) := by rw [h]; simp
  simp only [List.mem_cons, List.not_mem_nil, or_false] at this
  rcases this with rfl | rfl | rfl | rfl <;> trivial

/-- C31.  `queue_t::reset()` gives no node back: after it `alloc_index()` finds as many nodes as before
and not one more, however many items the queue had; only `reset()` of the pool recovers them. -/
theorem C31_queue_reset_loses (N K : Nat) (σ σ' : Abs α) (q : Nat) (r : Out α) (hq : q < K)
    (h : SpecStep N σ (.forget q) r σ') :
    σ'.queue q = [] ∧ inUse N K σ' = inUse N K σ ∧ σ'.used = σ.used ∧
      σ'.lost = σ.lost + (σ.queue q).length ∧ ∀ j, j ≠ q → σ'.queue j = σ.queue j := by
  cases h
  refine ⟨upd_same _ _ _, ?_, rfl, rfl, fun j hj => upd_ne _ _ _ _ hj⟩
  unfold inUse
  dsimp only
  rw [upd_comp (fun l : List α => l.length)]
  have := sum_upd K q (fun q => (σ.queue q).length) ([] : List α).length hq
  show (Finset.range K).sum (upd (fun q => (σ.queue q).length) q ([] : List α).length) + _ + _ = _
  have h0 : ([] : List α).length = 0 := rfl
  omega

/-- a pool of two nodes is full for good once a queue of two is reset; `reset()` makes room again -/
example : (run 3 ⟨⟨fun _ => 0, 0, fun _ => 0⟩, fun _ => 0⟩ [.append 0 5, .append 0 4, .forget 0,
    .isEmpty 0, .append 0 7, .alloc, .reset, .append 0 8, .tail 0]).map
    (fun r => r.1.map fun | .ok b => (if b then 100 else 200) | .value v => v | .node x => 300 + x | _ => 0) = some [100, 100, 0, 100, 200, 300, 0, 100, 8] := by decide +kernel

/-- C30.  Queues must be reset along with the pool: after `reset()` under a queue with an item, the
next item of another queue appears in the first one. -/
theorem C30_pool_reset_breaks :
    (run 4 (⟨⟨fun _ => 0, 0, fun _ => 0⟩, fun _ => 0⟩ : St Nat) [.append 0 5, .reset, .append 1 9,
      .head 0]).map (fun r => r.1.map fun | .value v => v | _ => 0) = some [0, 0, 0, 9] := by
  decide +kernel

/-- The preconditions are needed: freeing a node twice makes `alloc_index` hand it out twice. -/
theorem C31_double_free_breaks :
    (do
      let (a, p) ← allocIndex 4 (⟨fun _ => 0, 0, fun _ => 0⟩ : Pool Nat)
      let p ← freeIndex 4 p a
      let p ← freeIndex 4 p a
      let (b, p) ← allocIndex 4 p
      let (c, _) ← allocIndex 4 p
      return (b, c)) = some (1, 1) := by decide +kernel

end CE.Pool
