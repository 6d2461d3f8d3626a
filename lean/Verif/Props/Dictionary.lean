import Verif.Proof.DictZero
/-!
# C32-C34: dictionary
-/
namespace CE.Dictionary

variable {K V : Type} [DecidableEq K]

/-- C32, C33 for names other than the initial content of `names[0]` (zero for a zero-initialised
dictionary), any capacity `N ≥ 2` and any sequence of calls: either all calls stay inside the arrays
and give the results of a map with room for `N - 1` names and stable handles, or a call breaks a
precondition and everything before it ran as specified.
Missing from the full property: the name `names[0]` itself, see `C32_name_zero_false`. -/
theorem C32_history_refines_partial (ge : K → K → Bool) (N : Nat) (hN : 2 ≤ N) (names : Nat → K)
    (data : Nat → V) (ops : List (Op K V)) (hav : ∀ op ∈ ops, op.Avoids (names 0)) :
    (∃ rs d' σ', run ge N ⟨0, data, 0, names⟩ ops = some (rs, d') ∧
      SpecRun N (Abs.init data) ops rs σ') ∨
    (∃ pre op post rs d' σ', ops = pre ++ op :: post ∧
      run ge N ⟨0, data, 0, names⟩ pre = some (rs, d') ∧ SpecRun N (Abs.init data) pre rs σ' ∧
      ¬ Pre σ' op) := by
  have key : ∀ (ops : List (Op K V)) (d : Dict K V) (σ : Abs K V), Inv N (names 0) d σ →
      (∀ op ∈ ops, op.Avoids (names 0)) →
      (∃ rs d' σ', run ge N d ops = some (rs, d') ∧ SpecRun N σ ops rs σ') ∨
      (∃ pre op post rs d' σ', ops = pre ++ op :: post ∧ run ge N d pre = some (rs, d') ∧
        SpecRun N σ pre rs σ' ∧ ¬ Pre σ' op) := by
    intro ops
    induction ops with
    | nil => exact fun d σ _ _ => .inl ⟨[], d, σ, rfl, .nil _⟩
    | cons op ops ih =>
      intro d σ h hav
      by_cases hp : Pre σ op
      · obtain ⟨r, d1, σ1, e1, e2, e3⟩ := step_sim ge N (names 0) d σ h op (hav op (by simp)) hp
        rcases ih d1 σ1 e3 (fun o ho => hav o (by simp [ho])) with
          ⟨rs, d', σ', f1, f2⟩ | ⟨pre, o, post, rs, d', σ', f0, f1, f2, f3⟩
        · exact .inl ⟨r :: rs, d', σ', by simp [run, e1, f1], .cons e2 f2⟩
        · exact .inr ⟨op :: pre, o, post, r :: rs, d', σ', by simp [f0], by simp [run, e1, f1],
            .cons e2 f2, f3⟩
      · exact .inr ⟨[], op, ops, [], d, σ, rfl, rfl, .nil _, hp⟩
  refine key ops _ _ ⟨hN, rfl, rfl, Nat.zero_le _, .inl ⟨rfl, rfl⟩, ?_, ?_, ?_, ?_⟩ hav
  · intro i _ h; simp at h
  · intro i j _ h; simp at h
  · intro n p; simp [Abs.init]
  · intro n p h; simp [Abs.init] at h

example : ∀ op ∈ ([.bind 7 1, .bind 9 2, .bind 7 3, .find 9, .getName 7] : List (Op Nat Nat)),
    op.Avoids 0 := by simp [Op.Avoids]
example : (run (fun a b => decide (b ≤ a)) 3 ⟨0, fun _ => 0, 0, fun _ => 0⟩
    [.bind 7 1, .bind 9 2, .bind 7 3, .bind 8 4, .find 9, .getName 7]).map
    (fun r => r.1.map fun | .ptr p => p | .value v => 100 + v | .unit => 0) =
    some [1, 2, 1, 0, 2, 103] := by decide +kernel

/-- C32.  `d[n]` for a name that is not bound, and `d[p]` for a `p` that is nil or was not handed out, fail the assertion. -/
theorem C32_absent_undefined (ge : K → K → Bool) (N : Nat) (d : Dict K V) :
    (∀ n, find ge N d n = some 0 → getName ge N d n = none) ∧
    (∀ p, p = 0 ∨ d.size ≤ p → get N d p = none ∧ ∀ v, put N d p v = none) := by
  have key : ∀ p, p = 0 ∨ d.size ≤ p → check d p = none := fun p hp => if_neg (by omega)
  refine ⟨fun n h => ?_, fun p hp => ⟨?_, fun v => ?_⟩⟩
  · simp [getName, h, get, key 0 (.inl rfl)]
  · simp [get, key p hp]
  · simp [put, key p hp]

/-- C32 is false for the name that `names[0]` holds (zero in a zero-initialised dictionary): once
anything is bound, `find` matches index 0, which is `nil`, so the name is never found, and every
`bind` of it uses up a new entry. -/
theorem C32_name_zero_false (ge : K → K → Bool) (N : Nat) (hN : 3 ≤ N) (names : Nat → K)
    (data : Nat → V) (v w : V) :
    ∃ d d', bind ge N ⟨0, data, 0, names⟩ (names 0) v = some (1, d) ∧ find ge N d (names 0) = some 0 ∧
      bind ge N d (names 0) w = some (2, d') ∧ find ge N d' (names 0) = some 0 := by
  have hf0 : find ge N (⟨0, data, 0, names⟩ : Dict K V) (names 0) = some 0 := by
    simp [find, heapScan_none, linearScan]
  have hf : ∀ d : Dict K V, d.heap = 0 → d.names 0 = names 0 → 0 < d.size →
      find ge N d (names 0) = some 0 := by
    intro d h1 h2 h3
    obtain ⟨k, hk⟩ : ∃ k, d.size = k + 1 := ⟨d.size - 1, by omega⟩
    simp [find, heapScan_none ge N d _ 1 (by rw [h1]; omega), h1, hk, linearScan,
      rdName_eq N d 0 (by omega), h2]
  have h1 : 1 < N := by omega
  have h2 : 2 < N := by omega
  have hd := hf ⟨2, upd data 1 v, 0, upd names 1 (names 0)⟩ rfl (by simp [upd]) (by simp)
  refine ⟨⟨2, upd data 1 v, 0, upd names 1 (names 0)⟩,
    ⟨3, upd (upd data 1 v) 2 w, 0, upd (upd names 1 (names 0)) 2 (names 0)⟩, ?_, hd, ?_, ?_⟩
  · simp [bind, hf0, show ¬ N ≤ 0 by omega, Obj.wr, h1]
  · simp [bind, hd, show ¬ N ≤ 2 by omega, Obj.wr, h2]
  · exact hf _ rfl (by simp [upd]) (by simp)

/-- C32.  What every history does, with all names: as claimed, except that `names[0]` is forgotten as soon as it is bound: it is
never found, and each `bind` of it takes a new entry. -/
theorem C32_history_exact (ge : K → K → Bool) (N : Nat) (hN : 2 ≤ N) (names : Nat → K) (data : Nat → V) (ops : List (Op K V)) :
    (∃ rs d' σ', run ge N ⟨0, data, 0, names⟩ ops = some (rs, d') ∧ RunZ (names 0) N (AbsZ.init data) ops rs σ') ∨
    (∃ pre op post rs d' σ', ops = pre ++ op :: post ∧ run ge N ⟨0, data, 0, names⟩ pre = some (rs, d') ∧
      RunZ (names 0) N (AbsZ.init data) pre rs σ' ∧ ¬ PreZ σ' op) := by
  have key : ∀ (ops : List (Op K V)) (d : Dict K V) (σ : AbsZ K V), InvZ N (names 0) d σ →
      (∃ rs d' σ', run ge N d ops = some (rs, d') ∧ RunZ (names 0) N σ ops rs σ') ∨
      (∃ pre op post rs d' σ', ops = pre ++ op :: post ∧ run ge N d pre = some (rs, d') ∧
        RunZ (names 0) N σ pre rs σ' ∧ ¬ PreZ σ' op) := by
    intro ops
    induction ops with
    | nil => exact fun d σ _ => .inl ⟨[], d, σ, rfl, .nil _⟩
    | cons op ops ih =>
      intro d σ h
      by_cases hp : PreZ σ op
      · obtain ⟨r, d1, σ1, e1, e2, e3⟩ := step_simZ ge N (names 0) d σ h op hp
        rcases ih d1 σ1 e3 with ⟨rs, d', σ', f1, f2⟩ | ⟨pre, o, post, rs, d', σ', f0, f1, f2, f3⟩
        · exact .inl ⟨r :: rs, d', σ', by simp [run, e1, f1], .cons e2 f2⟩
        · exact .inr ⟨op :: pre, o, post, r :: rs, d', σ', by simp [f0], by simp [run, e1, f1],
            .cons e2 f2, f3⟩
      · exact .inr ⟨[], op, ops, [], d, σ, rfl, rfl, .nil _, hp⟩
  refine key ops _ _ ⟨hN, rfl, rfl, Nat.zero_le _, .inl ⟨rfl, rfl⟩, ?_, ?_, ?_, ?_⟩
  · intro i j _ h; simp at h
  · intro n p; simp [AbsZ.init]
  · intro p; simp [AbsZ.init]
  · intro p h; simp [AbsZ.init] at h

-- the name 0 is bound twice, takes two entries and is not found
example : (run (fun a b => decide (b ≤ a)) 4 ⟨0, fun _ => 0, 0, fun _ => 0⟩
    [.bind 0 1, .bind 9 2, .bind 0 3, .find 0, .get 1, .get 3, .bind 8 4]).map
    (fun r => r.1.map fun | .ptr p => p | .value v => 100 + v | .unit => 0) =
    some [1, 2, 3, 0, 101, 103, 0] := by decide +kernel

/-- C33: a dictionary with `N = 1` writes outside its arrays on the first `bind` -/
theorem C33_capacity_one_undefined (ge : K → K → Bool) (names : Nat → K) (data : Nat → V) (n : K)
    (v : V) : bind ge 1 ⟨0, data, 0, names⟩ n v = none := by
  simp [bind, find, heapScan_none, linearScan, Obj.wr]

/-- C33 at the level of the specification: a handle, once given, keeps naming the same name, names
with the same handle are equal, and at most `N - 1` handles (all in `1 .. N-1`) are ever given.
With `C32_history_refines_partial` this holds of every history that avoids `names[0]`. -/
theorem C33_handles_stable_partial (N : Nat) (ops : List (Op K V)) (rs : List (Out V)) (σ σ' : Abs K V)
    (h : SpecRun N σ ops rs σ') (hinj : ∀ n m p, σ.handle n = some p → σ.handle m = some p → n = m) :
    (∀ n p, σ.handle n = some p → σ'.handle n = some p) ∧
    (∀ n m p, σ'.handle n = some p → σ'.handle m = some p → n = m) ∧
    (σ.count ≤ N - 1 → σ'.count ≤ N - 1) := by
  induction h with
  | nil σ => exact ⟨fun _ _ h => h, hinj, id⟩
  | @cons σ σ1 σ2 op ops r rs h hs ih =>
    have step : (∀ n p, σ.handle n = some p → σ1.handle n = some p) ∧
        (∀ n m p, σ1.handle n = some p → σ1.handle m = some p → n = m) ∧
        (σ.count ≤ N - 1 → σ1.count ≤ N - 1) := by
      cases h with
      | bind n v p hn hc hp hN hnew =>
        refine ⟨fun m q hm => ?_, fun m m' q h1 h2 => ?_, fun _ => by dsimp only; omega⟩
        · have : m ≠ n := by rintro rfl; rw [hn] at hm; cases hm
          simpa [Abs.upd, this] using hm
        · simp only [Abs.upd] at h1 h2
          by_cases hm : m = n <;> by_cases hm' : m' = n
          · rw [hm, hm']
          · rw [if_pos hm] at h1; rw [if_neg hm'] at h2
            simp at h1; subst h1; exact absurd h2 (hnew m')
          · rw [if_neg hm] at h1; rw [if_pos hm'] at h2
            simp at h2; subst h2; exact absurd h1 (hnew m)
          · rw [if_neg hm] at h1; rw [if_neg hm'] at h2; exact hinj m m' q h1 h2
      | _ => exact ⟨fun _ _ h => h, hinj, id⟩
    obtain ⟨a, b, c⟩ := ih step.2.1
    exact ⟨fun n p h => a n p (step.1 n p h), b, fun h => c (step.2.2 h)⟩

/-- C34.  When `names[1 .. heap)` is the implicit search tree that the scan walks (smaller names
below `2i + 1`, larger below `2i`), `find(n)` returns an index in the tree holding `n` whenever there
is one, and otherwise continues with the linear scan of the rest. -/
theorem C34_heap_scan (lt : K → K → Prop) (ge : K → K → Bool) (hge : ∀ a b, ge a b = true ↔ ¬ lt a b)
    (hasym : ∀ a b, lt a b → ¬ lt b a) (N : Nat) (d : Dict K V) (hN : d.heap ≤ d.size)
    (hs : d.size ≤ N) (ht : SearchTree lt d) (n : K) :
    ((∃ j, 1 ≤ j ∧ j < d.heap ∧ d.names j = n) →
      ∃ p, find ge N d n = some p ∧ 1 ≤ p ∧ p < d.heap ∧ d.names p = n) ∧
    ((∀ j, 1 ≤ j → j < d.heap → d.names j ≠ n) →
      ∃ p, find ge N d n = some p ∧
        ((d.heap ≤ p ∧ p < d.size ∧ d.names p = n) ∨
         (p = 0 ∧ ∀ j, d.heap ≤ j → j < d.size → d.names j ≠ n))) := by
  obtain ⟨p, e1, e2⟩ := heapScan_eq ge N lt hge hasym d (by omega) ht n 1 (Nat.le_refl _)
    (fun j h1 _ _ => inSubtree_root j h1)
  unfold find
  rw [e1]
  simp only [Option.bind_eq_bind, Option.bind_some]
  constructor
  · rintro ⟨j, h1, h2, h3⟩
    rcases e2 with ⟨a, b, c⟩ | ⟨_, b⟩
    · rw [if_pos (by omega)]; exact ⟨p, rfl, a, b, c⟩
    · exact absurd h3 (b j h1 h2)
  · intro hno
    rcases e2 with ⟨a, b, c⟩ | ⟨rfl, b⟩
    · exact absurd c (hno p a b)
    · rw [if_neg (by simp)]
      obtain ⟨q, f1, f2⟩ := linearScan_eq N d n (d.size - d.heap) d.heap (by omega)
      refine ⟨q, f1, ?_⟩
      rw [show d.heap + (d.size - d.heap) = d.size by omega] at f2
      rcases f2 with ⟨a, b, c, _⟩ | h
      · exact .inl ⟨a, b, c⟩
      · exact .inr h

/-- a search tree of three names: 20 at the root, 10 below `2*1+1`, 30 below `2*1` -/
example : SearchTree (fun a b : Nat => a < b)
    (⟨4, fun _ => 0, 4, fun i => [0, 20, 30, 10].getD i 0⟩ : Dict Nat Nat) := by
  intro i j h1 h2 h3
  simp only at h2 h3
  constructor
  · rintro hs
    have := inSubtree_ge _ _ hs
    have : i = 1 ∧ j = 3 := by omega
    rw [this.1, this.2]; decide
  · rintro ⟨k, hk⟩
    have hle := inSubtree_ge _ _ ⟨k, hk⟩
    have hi : i = 1 := by omega
    subst hi
    have : j = 2 ∨ j = 3 := by omega
    rcases this with rfl | rfl
    · decide
    · cases k with
      | zero => simp at hk
      | succ k =>
        rw [Nat.pow_succ, Nat.mul_comm, ← Nat.div_div_eq_div_mul] at hk
        have := Nat.div_le_self (3 / 2) (2 ^ k)
        omega

/-- The orientation matters: with the usual layout (smaller names below `2i`) names are missed. -/
theorem C34_usual_layout_fails :
    find (fun a b : Nat => decide (b ≤ a)) 4
      (⟨4, fun _ => 0, 4, fun i => [0, 20, 10, 30].getD i 0⟩ : Dict Nat Nat) 10 = some 0 := by
  have h1 : heapScan (fun a b : Nat => decide (b ≤ a)) 4
      (⟨4, fun _ => 0, 4, fun i => [0, 20, 10, 30].getD i 0⟩ : Dict Nat Nat) 10 1 = some 0 := by
    unfold heapScan
    rw [dif_pos ⟨by decide, by decide⟩]
    rw [rdName_eq 4 _ 1 (by decide)]
    dsimp only
    rw [if_neg (by decide)]
    unfold heapScan
    rw [dif_pos ⟨by decide, by decide⟩, rdName_eq 4 _ _ (by decide)]
    dsimp only
    rw [if_neg (by decide), heapScan_none]
    decide
  unfold find
  rw [h1]; rfl

end CE.Dictionary
