import Verif.Spec.Bitset
/-!
# C26: bitset
-/
namespace CE.Bitset

/-- bit `i % 8` of byte `i / 8` -/
theorem get_eq (N : Nat) (m : Data) (i : Nat) (h : i < N) :
    get N m i = some ((m (i / 8)).getLsbD (i % 8)) := by
  have hb : i / 8 < (N + 7) / 8 := by omega
  have h8 : i % 8 < 8 := Nat.mod_lt _ (by omega)
  simp only [get, check, h, rd, bytes, Nat.shiftRight_eq_div_pow, show (2 ^ 3 : Nat) = 8 from rfl, hb,
    if_true, Option.bind_eq_bind, Option.bind_some]
  show some _ = some _
  congr 1
  unfold mask
  generalize m (i / 8) = v
  generalize i % 8 = k at h8 ⊢
  have : ∀ k : Fin 8, ∀ v : BitVec 8,
      (v.zeroExtend 32 &&& 1#32 <<< k.val != 0) = v.getLsbD k.val := by decide +kernel
  exact this ⟨k, h8⟩ v

theorem or_mask (v : BitVec 8) (k j : Nat) (hk : k < 8) (hj : j < 8) :
    ((v.zeroExtend 32 ||| mask k).truncate 8 : BitVec 8).getLsbD j = (v.getLsbD j || decide (j = k)) := by
  have : ∀ k j : Fin 8, ∀ v : BitVec 8,
    ((v.zeroExtend 32 ||| mask k.val).truncate 8 : BitVec 8).getLsbD j.val =
      (v.getLsbD j.val || decide (j.val = k.val)) := by decide +kernel
  exact this ⟨k, hk⟩ ⟨j, hj⟩ v

theorem and_mask (v : BitVec 8) (k j : Nat) (hk : k < 8) (hj : j < 8) :
    ((v.zeroExtend 32 &&& ~~~ mask k).truncate 8 : BitVec 8).getLsbD j =
      (v.getLsbD j && !decide (j = k)) := by
  have : ∀ k j : Fin 8, ∀ v : BitVec 8,
    ((v.zeroExtend 32 &&& ~~~ mask k.val).truncate 8 : BitVec 8).getLsbD j.val =
      (v.getLsbD j.val && !decide (j.val = k.val)) := by decide +kernel
  exact this ⟨k, hk⟩ ⟨j, hj⟩ v

theorem mask_mod (i : Nat) : mask i = mask (i % 8) := by unfold mask; rw [Nat.mod_mod]

/-- bits of a byte after it has been replaced -/
theorem get_store (N : Nat) (m : Data) (i j : Nat) (v : BitVec 8) (b : Bool)
    (hv : ∀ k, k < 8 → v.getLsbD k = if k = i % 8 then b else (m (i / 8)).getLsbD k) (hj : j < N) :
    get N (fun q => if q = i / 8 then v else m q) j = if i = j then some b else get N m j := by
  rw [get_eq _ _ _ hj, get_eq _ _ _ hj]
  by_cases hq : j / 8 = i / 8
  · rw [if_pos hq, hv _ (Nat.mod_lt _ (by omega)), hq]
    by_cases hij : i = j
    · subst hij; simp
    · rw [if_neg hij, if_neg (by omega)]
  · rw [if_neg hq, if_neg (by intro h; subst h; exact hq rfl)]

theorem set1_eq (N : Nat) (m : Data) (i : Nat) (h : i < N) :
    ∃ m', set1 N m i = some m' ∧ ∀ j, j < N → get N m' j = if i = j then some true else get N m j := by
  have hb : i / 8 < (N + 7) / 8 := by omega
  have h8 : i % 8 < 8 := Nat.mod_lt _ (by omega)
  simp only [set1, check, h, rd, wr, bytes, Nat.shiftRight_eq_div_pow, show (2 ^ 3 : Nat) = 8 from rfl, hb,
    if_true, Option.bind_eq_bind, Option.bind_some]
  refine ⟨_, rfl, fun j hj => get_store N m i j _ true (fun k hk => ?_) hj⟩
  rw [mask_mod, or_mask _ _ _ h8 hk]
  by_cases hki : k = i % 8 <;> simp [hki]

theorem reset1_eq (N : Nat) (m : Data) (i : Nat) (h : i < N) :
    ∃ m', reset1 N m i = some m' ∧
      ∀ j, j < N → get N m' j = if i = j then some false else get N m j := by
  have hb : i / 8 < (N + 7) / 8 := by omega
  have h8 : i % 8 < 8 := Nat.mod_lt _ (by omega)
  simp only [reset1, check, h, rd, wr, bytes, Nat.shiftRight_eq_div_pow, show (2 ^ 3 : Nat) = 8 from rfl, hb,
    if_true, Option.bind_eq_bind, Option.bind_some]
  refine ⟨_, rfl, fun j hj => get_store N m i j _ false (fun k hk => ?_) hj⟩
  rw [mask_mod, and_mask _ _ _ h8 hk]
  by_cases hki : k = i % 8 <;> simp [hki]

theorem put_true (N : Nat) (m : Data) (i : Nat) : put N m i true = set1 N m i := rfl
theorem put_false (N : Nat) (m : Data) (i : Nat) : put N m i false = reset1 N m i := rfl

/-- C26, single calls: each call with an index below `N` succeeds inside the array, index `j` then
shows the value the call stores for it, and every index for which it stores nothing is unchanged. -/
theorem C26_step (N : Nat) (m : Data) (op : Op) (h : op.InRange N) :
    ∃ m', step N m op = some m' ∧
      (∀ j, j < N → get N m' j = (op.stores j).or (get N m j)) ∧
      ∀ j, bytes N ≤ j → m' j = m j := by
  have frame : ∀ m', step N m op = some m' → ∀ j, bytes N ≤ j → m' j = m j := by
    intro m' hs j hj
    have w : ∀ i v, wr N m i v = some m' → m' j = m j := by
      intro i v hw
      unfold wr at hw
      split at hw
      · simp only [Option.some.injEq] at hw; subst hw; dsimp only; rw [if_neg (by omega)]
      · cases hw
    have r : ∀ i (f : BitVec 8 → BitVec 8), ((check N i).bind fun _ => (rd N m (i >>> 3)).bind fun v =>
        wr N m (i >>> 3) (f v)) = some m' → m' j = m j := by
      intro i f hb
      cases hc : check N i with
      | none => rw [hc] at hb; cases hb
      | some _ =>
      rw [hc, Option.bind_some] at hb
      cases hr : rd N m (i >>> 3) with
      | none => rw [hr] at hb; cases hb
      | some v => rw [hr] at hb; exact w _ _ hb
    cases op with
    | setAll => cases hs; simp [setAll, Nat.not_lt.mpr hj]
    | resetAll => cases hs; simp [resetAll, Nat.not_lt.mpr hj]
    | set i => exact r i _ hs
    | reset i => exact r i _ hs
    | put i b => cases b <;> exact r i _ hs
  suffices h : ∃ m', step N m op = some m' ∧
      (∀ j, j < N → get N m' j = (op.stores j).or (get N m j)) by
    obtain ⟨m', h1, h2⟩ := h
    exact ⟨m', h1, h2, frame m' h1⟩
  cases op with
  | setAll =>
    refine ⟨_, rfl, fun j hj => ?_⟩
    have hb : j / 8 < bytes N := by simp only [bytes, Nat.shiftRight_eq_div_pow]; omega
    have h8 : j % 8 < 8 := Nat.mod_lt _ (by omega)
    rw [get_eq _ _ _ hj]
    simp only [setAll, hb, if_true, Op.stores, Option.some_or, Option.some.injEq]
    have : ∀ k : Fin 8, (0xff : BitVec 8).getLsbD k.val = true := by decide
    exact this ⟨_, h8⟩
  | resetAll =>
    refine ⟨_, rfl, fun j hj => ?_⟩
    have hb : j / 8 < bytes N := by simp only [bytes, Nat.shiftRight_eq_div_pow]; omega
    rw [get_eq _ _ _ hj]
    simp [resetAll, hb, Op.stores]
  | set i =>
    obtain ⟨m', h1, h2⟩ := set1_eq N m i h
    refine ⟨m', h1, fun j hj => ?_⟩
    rw [h2 j hj]; simp only [Op.stores]; split <;> simp
  | reset i =>
    obtain ⟨m', h1, h2⟩ := reset1_eq N m i h
    refine ⟨m', h1, fun j hj => ?_⟩
    rw [h2 j hj]; simp only [Op.stores]; split <;> simp
  | put i b =>
    cases b with
    | true =>
      obtain ⟨m', h1, h2⟩ := set1_eq N m i h
      refine ⟨m', h1, fun j hj => ?_⟩
      rw [h2 j hj]; simp only [Op.stores]; split <;> simp
    | false =>
      obtain ⟨m', h1, h2⟩ := reset1_eq N m i h
      refine ⟨m', h1, fun j hj => ?_⟩
      rw [h2 j hj]; simp only [Op.stores]; split <;> simp

theorem lastStored_snoc (init : Bool) (i : Nat) (ops : List Op) (op : Op) :
    lastStored init i (ops ++ [op]) = (op.stores i).getD (lastStored init i ops) := by
  unfold lastStored
  rw [List.filterMap_append]
  cases h : op.stores i with
  | none => simp [h]
  | some b => simp [h]

/-- C26.  After any history of calls with indices below `N`, on arbitrary initial bytes, `b[i]` is
the value last stored for index `i`, or the initial one when there was no store; nothing outside the
array changes. -/
theorem C26_history (N : Nat) (m : Data) (ops : List Op) (h : ∀ op ∈ ops, op.InRange N) :
    ∃ m', run N m ops = some m' ∧
      (∀ i, i < N → ∃ b0, get N m i = some b0 ∧ get N m' i = some (lastStored b0 i ops)) ∧
      ∀ j, bytes N ≤ j → m' j = m j := by
  suffices hr : ∀ ops : List Op, (∀ op ∈ ops, op.InRange N) → ∀ m : Data,
      ∃ m', run N m ops = some m' ∧
      (∀ i, i < N → ∀ b0, get N m i = some b0 → get N m' i = some (lastStored b0 i ops)) ∧
      ∀ j, bytes N ≤ j → m' j = m j by
    obtain ⟨m', h1, h2, h3⟩ := hr ops h m
    exact ⟨m', h1, fun i hi => ⟨_, get_eq N m i hi, h2 i hi _ (get_eq N m i hi)⟩, h3⟩
  intro ops
  induction ops with
  | nil => exact fun _ m => ⟨m, rfl, fun i _ b0 hb => hb, fun _ _ => rfl⟩
  | cons op ops ih =>
    intro h m
    obtain ⟨m1, e1, e2, e3⟩ := C26_step N m op (h op (by simp))
    obtain ⟨m', f1, f2, f3⟩ := ih (fun o ho => h o (by simp [ho])) m1
    refine ⟨m', ?_, ?_, fun j hj => by rw [f3 j hj, e3 j hj]⟩
    · unfold run at f1 ⊢
      rw [List.foldlM_cons, e1]; exact f1
    · intro i hi b0 hb
      have := e2 i hi
      rw [hb] at this
      rw [f2 i hi ((op.stores i).getD b0) (by rw [this]; cases op.stores i <;> rfl)]
      congr 1
      unfold lastStored
      cases hs : op.stores i with
      | none => simp [hs]
      | some b =>
        simp only [List.filterMap_cons, hs, Option.getD_some, List.getLast?_cons]

/-- C26.  An index of `N` or more fails the assertion, although it may still lie in the last byte. -/
theorem C26_index_undefined (N : Nat) (m : Data) (i : Nat) (h : N ≤ i) (b : Bool) :
    get N m i = none ∧ set1 N m i = none ∧ reset1 N m i = none ∧ put N m i b = none := by
  have hc : check N i = none := if_neg (by omega)
  simp [get, set1, reset1, put, hc]

example : ∀ op ∈ ([.set 3, .resetAll, .put 9 true, .set 3, .reset 3] : List Op), op.InRange 10 := by
  simp [Op.InRange]
example : ((run 10 (fun _ => 0) [.set 3, .resetAll, .put 9 true, .set 2, .reset 3]).bind
    fun m => get 10 m 9) = some true := by decide +kernel

end CE.Bitset
