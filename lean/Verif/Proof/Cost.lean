import Verif.Model.Cost
import Verif.Proof.Sort
import Mathlib.Tactic.Ring
import Mathlib.Tactic.Linarith
/-! Counting comparisons: the counted functions are the functions, and bounds. -/
namespace CE.Cost

variable {α : Type} (lt : α → α → Bool) (o : Obj)

theorem tick_fst {β : Type} (c : Nat) (x : Option (β × Nat)) : (tick c x).map Prod.fst = x.map Prod.fst := by
  cases x <;> rfl

theorem free_fst {β : Type} (x : Option β) : (free x).map Prod.fst = x := by
  cases x <;> rfl

theorem tick_some {β : Type} {c : Nat} {x : Option (β × Nat)} {r : β × Nat} (h : tick c x = some r) :
    ∃ s, x = some s ∧ r = (s.1, s.2 + c) := by
  cases x with
  | none => cases h
  | some s => exact ⟨s, rfl, (Option.some.inj h).symm⟩

theorem free_some {β : Type} {x : Option β} {r : β × Nat} (h : free x = some r) : r.2 = 0 := by
  cases x with
  | none => cases h
  | some s => exact (Option.some.inj h) ▸ rfl

theorem bind_some {β γ : Type} {x : Option β} {f : β → Option γ} {r : γ} (h : x.bind f = some r) : ∃ s, x = some s ∧ f s = some r :=
  Option.bind_eq_some_iff.1 h

/-! ### erasure -/

theorem insertLoop_fst (a : Nat) (k : α) (q : Nat) (m : Nat → α) :
    (insertLoop lt o a k m q).map Prod.fst = Sorting.insertLoop lt o a k m q := by
  induction q generalizing m with
  | zero =>
    unfold insertLoop Sorting.insertLoop
    split
    · rfl
    · exact free_fst _
  | succ q ih =>
    unfold insertLoop Sorting.insertLoop
    split
    · cases o.rd m q with
      | none => rfl
      | some x =>
        show Option.map _ (if lt k x = true then _ else _) = (if lt k x = true then _ else _)
        split
        · cases o.wr m (q + 1) x with
          | none => rfl
          | some m => exact (tick_fst _ _).trans (ih m)
        · exact (tick_fst _ _).trans (free_fst _)
    · exact free_fst _

theorem insertionLoop_fst (a left p : Nat) (m : Nat → α) :
    (insertionLoop lt o a left p m).map Prod.fst = Sorting.insertionLoop lt o a left p m := by
  induction left generalizing p m with
  | zero => rfl
  | succ left ih =>
    unfold insertionLoop Sorting.insertionLoop
    cases o.rd m p with
    | none => rfl
    | some k =>
      show Option.map _ ((insertLoop lt o a k m p).bind _) = (Sorting.insertLoop lt o a k m p).bind _
      rw [← insertLoop_fst]
      cases insertLoop lt o a k m p with
      | none => rfl
      | some r => exact (tick_fst _ _).trans (ih _ _)

theorem insertionSort_fst (a b : Nat) (m : Nat → α) :
    (insertionSort lt o a b m).map Prod.fst = Sorting.insertionSort lt o a b m := insertionLoop_fst lt o _ _ _ _

theorem median_fst (a b c : Nat) (m : Nat → α) : (median lt o a b c m).map Prod.fst = Sorting.median lt o a b c m := by
  unfold median Sorting.median
  cases o.rd m a with
  | none => rfl
  | some va =>
    cases o.rd m b with
    | none => rfl
    | some vb =>
      cases o.rd m c with
      | none => rfl
      | some vc =>
        simp only [Option.bind_some, Option.bind_eq_bind, Option.pure_def]
        split
        · split
          · rfl
          · split <;> exact (tick_fst _ _).trans (free_fst _)
        · split
          · rfl
          · split <;> exact (tick_fst _ _).trans (free_fst _)

theorem partitionLoop_fst (k : α) (left p q : Nat) (m : Nat → α) :
    (partitionLoop lt o k left p q m).map Prod.fst = Sorting.partitionLoop lt o k left p q m := by
  induction left generalizing p q m with
  | zero => rfl
  | succ left ih =>
    unfold partitionLoop Sorting.partitionLoop
    cases o.rd m q with
    | none => rfl
    | some x =>
      show Option.map _ (if lt x k = true then _ else _) = (if lt x k = true then _ else _)
      split
      · cases o.swap m p q with
        | none => rfl
        | some m => exact (tick_fst _ _).trans (ih _ _ _)
      · exact (tick_fst _ _).trans (ih _ _ _)

theorem partition_fst (a b : Nat) (m : Nat → α) : (partition lt o a b m).map Prod.fst = Sorting.partition lt o a b m := by
  unfold partition Sorting.partition
  by_cases hb : b = 0
  · rw [if_pos hb]; simp only [if_pos hb]; rfl
  · rw [if_neg hb]
    simp only [if_neg hb]
    rw [← median_fst]
    cases median lt o a (b - 1) ((b - a) / 2 + a) m with
    | none => rfl
    | some r =>
      simp only [Option.bind_some, Option.bind_eq_bind, Option.map_some]
      cases o.rd r.1 (b - 1) with
      | none => rfl
      | some k =>
        simp only [Option.bind_some]
        rw [← partitionLoop_fst]
        cases partitionLoop lt o k (b - 1 - a) a a r.1 with
        | none => rfl
        | some s =>
          simp only [Option.bind_some, Option.map_some]
          cases o.swap s.1.2 s.1.1 (b - 1) <;> rfl

theorem introRec_fst (N depth a b intro : Nat) (m : Nat → α) :
    (introRec lt o N depth a b intro m).map Prod.fst = Sorting.introRec lt o N depth a b intro m := by
  induction depth generalizing a b intro m with
  | zero => rfl
  | succ depth ih =>
    unfold introRec Sorting.introRec
    dsimp only
    split
    · exact insertionSort_fst lt o a b m
    · rw [← partition_fst]
      cases partition lt o a b m with
      | none => rfl
      | some r =>
        simp only [Option.bind_some, Option.bind_eq_bind, Option.map_some]
        rw [← ih]
        cases introRec lt o N depth (r.1.1 + 1) b (intro / 2) r.1.2 with
        | none => rfl
        | some s => exact (tick_fst _ _).trans (ih _ _ _ _)

theorem introSort_fst (N depth a b : Nat) (m : Nat → α) :
    (introSort lt o N depth a b m).map Prod.fst = Sorting.introSort lt o N depth a b m := by
  unfold introSort Sorting.introSort
  dsimp only
  split
  · split
    · exact insertionSort_fst lt o a b m
    · rw [← partition_fst]
      cases partition lt o a b m with
      | none => rfl
      | some r =>
        simp only [Option.bind_some, Option.bind_eq_bind, Option.map_some]
        rw [← introRec_fst]
        cases introRec lt o N depth a r.1.1 (b - a) r.1.2 with
        | none => rfl
        | some s => exact (tick_fst _ _).trans (introRec_fst _ _ _ _ _ _ _ _)
  · rfl

theorem lowerLoop_fst (k : α) (m : Nat → α) (a n : Nat) :
    (lowerLoop lt o k m a n).map Prod.fst = Sorting.lowerLoop lt o k m a n := by
  induction n using Nat.strongRecOn generalizing a with
  | _ n ih =>
    unfold lowerLoop Sorting.lowerLoop
    split
    · dsimp only
      cases o.rd m (a + n / 2) with
      | none => rfl
      | some x =>
        show Option.map _ (if lt x k = true then _ else _) = (if lt x k = true then _ else _)
        split
        · exact (tick_fst _ _).trans (ih _ (by omega) _)
        · exact (tick_fst _ _).trans (ih _ (by omega) _)
    · rfl

theorem upperLoop_fst (k : α) (m : Nat → α) (a n : Nat) :
    (upperLoop lt o k m a n).map Prod.fst = Sorting.upperLoop lt o k m a n := by
  induction n using Nat.strongRecOn generalizing a with
  | _ n ih =>
    unfold upperLoop Sorting.upperLoop
    split
    · dsimp only
      cases o.rd m (a + n / 2) with
      | none => rfl
      | some x =>
        show Option.map _ (if (!lt k x) = true then _ else _) = (if (!lt k x) = true then _ else _)
        split
        · exact (tick_fst _ _).trans (ih _ (by omega) _)
        · exact (tick_fst _ _).trans (ih _ (by omega) _)
    · rfl

theorem heapRaise_fst (item : α) (m : Nat → α) (n : Nat) :
    (heapRaise lt o item m n).map Prod.fst = Heap.heapRaise lt o item m n := by
  induction n using Nat.strongRecOn generalizing m with
  | _ n ih =>
    unfold heapRaise Heap.heapRaise
    split
    · dsimp only
      cases o.rd m ((n - 1) / 2) with
      | none => rfl
      | some x =>
        show Option.map _ (if lt item x = true then _ else _) = (if lt item x = true then _ else _)
        split
        · cases o.wr m n x with
          | none => rfl
          | some m => exact (tick_fst _ _).trans (ih _ (by omega) _)
        · exact (tick_fst _ _).trans (free_fst _)
    · exact free_fst _

theorem pickChild_fst (size : Nat) (m : Nat → α) (p : Nat) :
    (pickChild lt o size m p).map Prod.fst = Heap.pickChild lt o size m p := by
  unfold pickChild Heap.pickChild
  split
  · cases o.rd m (p + 1) with
    | none => rfl
    | some y => cases o.rd m p <;> rfl
  · rfl

theorem heapLower_fst (size : Nat) (item : α) (m : Nat → α) (n : Nat) :
    (heapLower lt o size item m n).map Prod.fst = Heap.heapLower lt o size item m n := by
  induction hd : size - n using Nat.strongRecOn generalizing m n with
  | _ d ih =>
    rw [heapLower.eq_def, Heap.heapLower.eq_def]
    split
    · exact free_fst _
    · rw [← pickChild_fst]
      cases pickChild lt o size m (n * 2 + 1) with
      | none => rfl
      | some r =>
        simp only [Option.map_some]
        cases o.rd m r.1 with
        | none => rfl
        | some x =>
          dsimp only
          split
          · exact (tick_fst _ _).trans (free_fst _)
          · cases o.wr m n x with
            | none => rfl
            | some m =>
              dsimp only
              split
              · next h => exact (tick_fst _ _).trans (ih _ (by omega) m r.1 rfl)
              · rfl

/-! ### bounds -/

theorem insertLoop_cost (a : Nat) (k : α) (q : Nat) (m : Nat → α) {r} (h : insertLoop lt o a k m q = some r) : r.2 ≤ q - a := by
  induction q generalizing m r with
  | zero =>
    unfold insertLoop at h
    split at h
    · cases h
    · rw [free_some h]; omega
  | succ q ih =>
    unfold insertLoop at h
    split at h
    · obtain ⟨x, _, h⟩ := bind_some h
      split at h
      · obtain ⟨m', _, h⟩ := bind_some h
        obtain ⟨s, hs, rfl⟩ := tick_some h
        have := ih m' hs
        show s.2 + 1 ≤ _
        omega
      · obtain ⟨s, hs, rfl⟩ := tick_some h
        rw [free_some hs]; show 0 + 1 ≤ _; omega
    · rw [free_some h]; omega

theorem insertionLoop_cost (a left p : Nat) (m : Nat → α) (hp : a ≤ p) {r} (h : insertionLoop lt o a left p m = some r) :
    2 * r.2 ≤ left * (2 * (p - a) + (left - 1)) := by
  induction left generalizing p m r with
  | zero => cases h; simp
  | succ left ih =>
    unfold insertionLoop at h
    obtain ⟨k, _, h⟩ := bind_some h
    obtain ⟨s, hs, h⟩ := bind_some h
    obtain ⟨t, ht, rfl⟩ := tick_some h
    have h1 := insertLoop_cost lt o a k p m hs
    have h2 := ih (p + 1) s.1 (by omega) ht
    obtain ⟨d, rfl⟩ : ∃ d, p = a + d := ⟨p - a, by omega⟩
    rw [show a + d + 1 - a = d + 1 by omega] at h2
    rw [show a + d - a = d by omega] at h1 ⊢
    show 2 * (t.2 + s.2) ≤ _
    cases left with
    | zero => simp at h2; simp [h2]; omega
    | succ n =>
      rw [show n + 1 - 1 = n by omega] at h2
      rw [show n + 1 + 1 - 1 = n + 1 by omega]
      nlinarith

theorem insertionSort_cost (a b : Nat) (m : Nat → α) {r} (h : insertionSort lt o a b m = some r) :
    2 * r.2 ≤ (b - a) * (b - a - 1) := by
  have := insertionLoop_cost lt o a (b - a) a m (Nat.le_refl _) h
  simpa using this

theorem median_cost (a b c : Nat) (m : Nat → α) {r} (h : median lt o a b c m = some r) : r.2 ≤ 3 := by
  unfold median at h
  obtain ⟨x, _, h⟩ := bind_some h
  obtain ⟨y, _, h⟩ := bind_some h
  obtain ⟨z, _, h⟩ := bind_some h
  have key : ∀ w : Option (Nat → α), tick 3 (free w) = some r → r.2 ≤ 3 := by
    intro w hw
    obtain ⟨s, hs, rfl⟩ := tick_some hw
    show s.2 + 3 ≤ 3
    rw [free_some hs]
  split at h
  · split at h
    · cases h; show 2 ≤ 3; omega
    · split at h <;> exact key _ h
  · split at h
    · cases h; show 2 ≤ 3; omega
    · split at h <;> exact key _ h

theorem partitionLoop_cost (k : α) (left p q : Nat) (m : Nat → α) {r} (h : partitionLoop lt o k left p q m = some r) :
    r.2 = left ∧ p ≤ r.1.1 ∧ r.1.1 ≤ p + left := by
  induction left generalizing p q m r with
  | zero => cases h; exact ⟨rfl, Nat.le_refl _, Nat.le_refl _⟩
  | succ left ih =>
    unfold partitionLoop at h
    obtain ⟨x, _, h⟩ := bind_some h
    split at h
    · obtain ⟨m', _, h⟩ := bind_some h
      obtain ⟨s, hs, rfl⟩ := tick_some h
      obtain ⟨h1, h2, h3⟩ := ih _ _ _ hs
      refine ⟨?_, ?_, ?_⟩ <;> simp only <;> omega
    · obtain ⟨s, hs, rfl⟩ := tick_some h
      obtain ⟨h1, h2, h3⟩ := ih _ _ _ hs
      refine ⟨?_, ?_, ?_⟩ <;> simp only <;> omega

theorem partition_cost (a b : Nat) (m : Nat → α) (hab : a < b) {r} (h : partition lt o a b m = some r) :
    r.2 ≤ b - a + 2 ∧ b - a - 1 ≤ r.2 ∧ a ≤ r.1.1 ∧ r.1.1 < b := by
  unfold partition at h
  rw [if_neg (by omega)] at h
  obtain ⟨s, hs, h⟩ := bind_some h
  obtain ⟨k, _, h⟩ := bind_some h
  obtain ⟨t, ht, h⟩ := bind_some h
  obtain ⟨m', _, h⟩ := bind_some h
  cases h
  have h1 := median_cost lt o _ _ _ _ hs
  obtain ⟨h2, h3, h4⟩ := partitionLoop_cost lt o _ _ _ _ _ ht
  refine ⟨?_, ?_, ?_, ?_⟩ <;> simp only <;> omega

theorem split_cost {n i j x y z : Nat} (hn : n = i + j + 1) (hx : 2 * x ≤ i * (i + 5)) (hy : 2 * y ≤ j * (j + 5)) (hz : z ≤ n + 2) :
    2 * (x + y + z) ≤ n * (n + 5) := by
  subst hn
  nlinarith [Nat.zero_le (i * j)]

theorem introRec_cost (N : Nat) (hN : 1 ≤ N) (depth a b intro : Nat) (m : Nat → α) {r}
    (h : introRec lt o N depth a b intro m = some r) : 2 * r.2 ≤ (b - a) * (b - a + 5) := by
  induction depth generalizing a b intro m r with
  | zero => cases h
  | succ depth ih =>
    unfold introRec at h
    split at h
    · have := insertionSort_cost lt o a b m h
      exact this.trans (Nat.mul_le_mul_left _ (by omega))
    · obtain ⟨s, hs, h⟩ := bind_some h
      obtain ⟨t, ht, h⟩ := bind_some h
      obtain ⟨u, hu, rfl⟩ := tick_some h
      obtain ⟨h1, _, h2, h3⟩ := partition_cost lt o a b m (by omega) hs
      have h4 := ih _ _ _ _ ht
      have h5 := ih _ _ _ _ hu
      have := split_cost (n := b - a) (by omega) h4 h5 h1
      show 2 * (u.2 + (s.2 + t.2)) ≤ _
      omega

theorem introSort_cost (N : Nat) (hN : 1 ≤ N) (depth a b : Nat) (m : Nat → α) {r}
    (h : introSort lt o N depth a b m = some r) : 2 * r.2 ≤ (b - a) * (b - a + 5) := by
  unfold introSort at h
  split at h
  · next hab =>
    split at h
    · have := insertionSort_cost lt o a b m h
      exact this.trans (Nat.mul_le_mul_left _ (by omega))
    · obtain ⟨s, hs, h⟩ := bind_some h
      obtain ⟨t, ht, h⟩ := bind_some h
      obtain ⟨u, hu, rfl⟩ := tick_some h
      obtain ⟨h1, _, h2, h3⟩ := partition_cost lt o a b m hab hs
      have h4 := introRec_cost lt o N hN _ _ _ _ _ ht
      have h5 := introRec_cost lt o N hN _ _ _ _ _ hu
      have := split_cost (n := b - a) (by omega) h4 h5 h1
      show 2 * (u.2 + (s.2 + t.2)) ≤ _
      omega
  · cases h; simp

/-- number of binary digits -/
theorem size_half (n : Nat) (h : 0 < n) : Nat.log2 n = if n = 1 then 0 else Nat.log2 (n / 2) + 1 := by
  rw [Nat.log2_def]
  by_cases h1 : n = 1
  · subst h1; rfl
  · rw [if_neg h1, if_pos (by omega)]

theorem log2_mono {i j : Nat} (h : i ≤ j) : Nat.log2 i ≤ Nat.log2 j := by
  by_cases hi : i = 0
  · subst hi; simp
  · rw [Nat.le_log2 (by omega)]
    exact (Nat.log2_self_le hi).trans h

/-- comparisons of a search among `n` elements -/
def digits (n : Nat) : Nat := if n = 0 then 0 else Nat.log2 n + 1

theorem digits_mono {i j : Nat} (h : i ≤ j) : digits i ≤ digits j := by
  unfold digits
  have := log2_mono h
  split <;> split <;> omega

theorem digits_half (n : Nat) (h : 0 < n) : digits n = digits (n / 2) + 1 := by
  unfold digits
  rw [if_neg (by omega), size_half n h]
  by_cases h1 : n = 1
  · subst h1; rfl
  · rw [if_neg h1, if_neg (by omega)]

theorem lowerLoop_cost (k : α) (m : Nat → α) (a n : Nat) {r} (h : lowerLoop lt o k m a n = some r) : r.2 ≤ digits n := by
  induction n using Nat.strongRecOn generalizing a r with
  | _ n ih =>
    unfold lowerLoop at h
    split at h
    · next hn =>
      rw [digits_half n hn]
      obtain ⟨x, _, h⟩ := bind_some h
      split at h
      · obtain ⟨s, hs, rfl⟩ := tick_some h
        have := ih _ (by omega) _ hs
        have := digits_mono (show n - (n / 2 + 1) ≤ n / 2 by omega)
        show s.2 + 1 ≤ _
        omega
      · obtain ⟨s, hs, rfl⟩ := tick_some h
        have := ih _ (by omega) _ hs
        show s.2 + 1 ≤ _
        omega
    · cases h; simp

theorem upperLoop_cost (k : α) (m : Nat → α) (a n : Nat) {r} (h : upperLoop lt o k m a n = some r) : r.2 ≤ digits n := by
  induction n using Nat.strongRecOn generalizing a r with
  | _ n ih =>
    unfold upperLoop at h
    split at h
    · next hn =>
      rw [digits_half n hn]
      obtain ⟨x, _, h⟩ := bind_some h
      split at h
      · obtain ⟨s, hs, rfl⟩ := tick_some h
        have := ih _ (by omega) _ hs
        have := digits_mono (show n - (n / 2 + 1) ≤ n / 2 by omega)
        show s.2 + 1 ≤ _
        omega
      · obtain ⟨s, hs, rfl⟩ := tick_some h
        have := ih _ (by omega) _ hs
        show s.2 + 1 ≤ _
        omega
    · cases h; simp

theorem heapRaise_cost (item : α) (m : Nat → α) (n : Nat) {r} (h : heapRaise lt o item m n = some r) :
    r.2 ≤ Nat.log2 (n + 1) := by
  induction n using Nat.strongRecOn generalizing m r with
  | _ n ih =>
    unfold heapRaise at h
    split at h
    · next hn =>
      have e : Nat.log2 (n + 1) = Nat.log2 ((n - 1) / 2 + 1) + 1 := by
        rw [size_half (n + 1) (by omega), if_neg (by omega)]
        congr 2
        omega
      obtain ⟨x, _, h⟩ := bind_some h
      split at h
      · obtain ⟨m', _, h⟩ := bind_some h
        obtain ⟨s, hs, rfl⟩ := tick_some h
        have := ih _ (by omega) _ hs
        show s.2 + 1 ≤ _
        omega
      · obtain ⟨s, hs, rfl⟩ := tick_some h
        show s.2 + 1 ≤ _
        rw [free_some hs]; omega
    · rw [free_some h]; omega

theorem heapLower_cost (size : Nat) (item : α) (m : Nat → α) (n : Nat) {r} (h : heapLower lt o size item m n = some r) :
    r.2 ≤ 2 * Nat.log2 (size / (n + 1)) := by
  induction hd : size - n using Nat.strongRecOn generalizing m n r with
  | _ d ih =>
    rw [heapLower.eq_def] at h
    split at h
    · rw [free_some h]; omega
    · next hn =>
      have hge : 2 ≤ size / (n + 1) := by
        rw [Nat.le_div_iff_mul_le (by omega)]; omega
      have hl : Nat.log2 (size / (n + 1)) = Nat.log2 (size / (n + 1) / 2) + 1 := by
        rw [size_half _ (by omega), if_neg (by omega)]
      cases hp : pickChild lt o size m (n * 2 + 1) with
      | none => rw [hp] at h; cases h
      | some c =>
        rw [hp] at h
        dsimp only at h
        have hc : c.2 ≤ 1 ∧ n * 2 + 1 ≤ c.1 := by
          unfold pickChild at hp
          split at hp
          · obtain ⟨y, _, hp⟩ := bind_some hp
            obtain ⟨x, _, hp⟩ := bind_some hp
            cases hp
            refine ⟨Nat.le_refl _, ?_⟩
            dsimp only
            split <;> omega
          · cases hp; exact ⟨Nat.zero_le _, Nat.le_refl _⟩
        cases hx : o.rd m c.1 with
        | none => rw [hx] at h; cases h
        | some x =>
          rw [hx] at h
          dsimp only at h
          split at h
          · obtain ⟨s, hs, rfl⟩ := tick_some h
            show s.2 + _ ≤ _
            rw [free_some hs]; omega
          · cases hw : o.wr m n x with
            | none => rw [hw] at h; cases h
            | some m' =>
              rw [hw] at h
              dsimp only at h
              split at h
              · next hcond =>
                obtain ⟨s, hs, rfl⟩ := tick_some h
                have h1 := ih _ (by omega) m' c.1 hs rfl
                have h2 : size / (c.1 + 1) ≤ size / (n + 1) / 2 := by
                  rw [Nat.div_div_eq_div_mul]
                  exact Nat.div_le_div_left (by omega) (by omega)
                have h3 := log2_mono h2
                show s.2 + _ ≤ _
                omega
              · cases h

theorem enqueue_fst (N : Nat) (item : α) (q : Heap.Pq α) : (enqueue lt N item q).map Prod.fst = Heap.enqueue lt N item q := by
  unfold enqueue Heap.enqueue
  split
  · rw [← heapRaise_fst]
    cases heapRaise lt ⟨0, N⟩ item q.data q.size <;> rfl
  · rfl

theorem dequeue_aux (N n : Nat) (q : Heap.Pq α) (item : α) :
    Option.map Prod.fst
      (if n > 0 then
        ((Obj.mk 0 N).rd q.data n).bind fun last =>
        (heapLower lt ⟨0, N⟩ n last q.data 0).bind fun r => some ((item, (⟨n, r.1⟩ : Heap.Pq α)), r.2)
      else some ((item, ⟨n, q.data⟩), 0)) =
    if n > 0 then
      ((Obj.mk 0 N).rd q.data n).bind fun last =>
      (Heap.heapLower lt ⟨0, N⟩ n last q.data 0).bind fun m => some (item, (⟨n, m⟩ : Heap.Pq α))
    else some (item, ⟨n, q.data⟩) := by
  split
  · cases (Obj.mk 0 N).rd q.data n with
    | none => rfl
    | some last =>
      simp only [Option.bind_some]
      rw [← heapLower_fst]
      cases heapLower lt ⟨0, N⟩ n last q.data 0 <;> rfl
  · rfl

theorem dequeue_fst (N : Nat) (q : Heap.Pq α) : (dequeue lt N q).map Prod.fst = Heap.dequeue lt N q := by
  obtain ⟨n, hn⟩ : ∃ n, (q.size + (2 ^ 64 - 1)) % 2 ^ 64 = n := ⟨_, rfl⟩
  rw [dequeue.eq_def, Heap.dequeue.eq_def]
  simp only [hn]
  clear hn
  cases (Obj.mk 0 N).rd q.data 0 with
  | none => rfl
  | some item =>
    simp only [Option.bind_some, Option.bind_eq_bind, Option.pure_def]
    exact dequeue_aux lt N _ q item

theorem enqueue_cost (N : Nat) (item : α) (q : Heap.Pq α) {r} (h : enqueue lt N item q = some r) : r.2 ≤ Nat.log2 (q.size + 1) := by
  unfold enqueue at h
  split at h
  · obtain ⟨s, hs, h⟩ := bind_some h
    cases h
    exact heapRaise_cost lt _ _ _ _ hs
  · cases h; exact Nat.zero_le _

theorem dequeue_cost (N : Nat) (q : Heap.Pq α) (h0 : 0 < q.size) (h1 : q.size < 2 ^ 64) {r} (h : dequeue lt N q = some r) :
    r.2 ≤ 2 * Nat.log2 (q.size - 1) := by
  have e : (q.size + (2 ^ 64 - 1)) % 2 ^ 64 = q.size - 1 := by omega
  unfold dequeue at h
  generalize (q.size + (2 ^ 64 - 1)) % 2 ^ 64 = n at h e
  subst e
  obtain ⟨item, _, h⟩ := bind_some h
  split at h
  · obtain ⟨last, _, h⟩ := bind_some h
    obtain ⟨s, hs, h⟩ := bind_some h
    cases h
    have := heapLower_cost lt _ _ _ _ _ hs
    simpa using this
  · cases h; exact Nat.zero_le _

/-! ### sorted input -/

theorem upd_self (m : Nat → α) (i : Nat) : upd m i (m i) = m := by
  funext j
  unfold upd
  split
  · next h => rw [h]
  · rfl

theorem insertionLoop_sorted (a b left p : Nat) (m : Nat → α) (hs : Sorted lt (slice m a b)) (hap : a ≤ p) (hpb : p + left ≤ b)
    (hlo : o.lo ≤ a) (hhi : b ≤ o.hi) :
    insertionLoop lt o a left p m = some (m, if p = a then left - 1 else left) := by
  induction left generalizing p with
  | zero => unfold insertionLoop; split <;> rfl
  | succ left ih =>
    unfold insertionLoop
    rw [Obj.rd_eq o m p ⟨by omega, by omega⟩, Option.bind_some]
    have e : insertLoop lt o a (m p) m p = some (m, if p = a then 0 else 1) := by
      cases p with
      | zero =>
        unfold insertLoop
        rw [if_neg (by omega), Obj.wr_eq o m 0 _ ⟨by omega, by omega⟩, upd_self, if_pos (by omega)]; rfl
      | succ p =>
        unfold insertLoop
        by_cases hpa : p + 1 = a
        · rw [if_neg (by omega), Obj.wr_eq o m _ _ ⟨by omega, by omega⟩, upd_self, if_pos hpa]; rfl
        · rw [if_pos (by omega), Obj.rd_eq o m p ⟨by omega, by omega⟩, Option.bind_some,
            Sorting.sorted_get lt m a b hs p (p + 1) (by omega) (by omega) (by omega), if_neg (by simp),
            Obj.wr_eq o m _ _ ⟨by omega, by omega⟩, upd_self, if_neg hpa]; rfl
    rw [e, Option.bind_some, ih (p + 1) (by omega) (by omega), if_neg (show ¬ p + 1 = a by omega)]
    unfold tick
    rw [Option.map_some]
    by_cases hpa : p = a
    · simp [hpa]
    · simp [hpa]

/-! ### all elements equal -/

theorem introRec_const_cost (N : Nat) (hN : 1 ≤ N) (depth a b intro : Nat) (x : α) (hx : lt x x = false) (hab : a ≤ b)
    (hlo : o.lo ≤ a) (hhi : b ≤ o.hi) {r} (h : introRec lt o N depth a b intro (fun _ => x) = some r) :
    (b - a) * (b - a - 1) ≤ 2 * r.2 + N * (N - 1) := by
  induction depth generalizing a intro r with
  | zero => cases h
  | succ depth ih =>
    unfold introRec at h
    split at h
    · next hn => exact (Nat.mul_le_mul (by omega) (by omega)).trans (Nat.le_add_left _ _)
    · obtain ⟨s, hs, h⟩ := bind_some h
      obtain ⟨t, ht, h⟩ := bind_some h
      obtain ⟨u, hu, rfl⟩ := tick_some h
      obtain ⟨m', e1, e2⟩ := Sorting.partition_const lt o a b x hx (by omega) hlo hhi
      have e3 : m' = fun _ => x := funext e2
      have e4 : s.1 = (a, m') := by
        have := partition_fst lt o a b (fun _ => x)
        rw [hs, e1] at this
        exact Option.some.inj this
      obtain ⟨_, h2, _⟩ := partition_cost lt o a b _ (by omega) hs
      rw [e4, e3] at ht
      have h3 := ih (a + 1) _ (by omega) (by omega) ht
      show _ ≤ 2 * (u.2 + (s.2 + t.2)) + _
      obtain ⟨n, hn⟩ : ∃ n, b - a = n + 1 := ⟨b - a - 1, by omega⟩
      rw [show b - (a + 1) = n by omega] at h3
      rw [hn] at h2 ⊢
      rw [Nat.add_sub_cancel] at h2 ⊢
      cases n with
      | zero => simp
      | succ k =>
        rw [Nat.add_sub_cancel] at h3
        nlinarith

theorem introSort_const_cost (N : Nat) (hN : 1 ≤ N) (depth a b : Nat) (x : α) (hx : lt x x = false) (hab : a ≤ b)
    (hlo : o.lo ≤ a) (hhi : b ≤ o.hi) {r} (h : introSort lt o N depth a b (fun _ => x) = some r) :
    (b - a) * (b - a - 1) ≤ 2 * r.2 + N * (N - 1) := by
  unfold introSort at h
  split at h
  · next hlt =>
    split at h
    · next hn => exact (Nat.mul_le_mul (by omega) (by omega)).trans (Nat.le_add_left _ _)
    · obtain ⟨s, hs, h⟩ := bind_some h
      obtain ⟨t, ht, h⟩ := bind_some h
      obtain ⟨u, hu, rfl⟩ := tick_some h
      obtain ⟨m', e1, e2⟩ := Sorting.partition_const lt o a b x hx (by omega) hlo hhi
      have e3 : m' = fun _ => x := funext e2
      have e4 : s.1 = (a, m') := by
        have := partition_fst lt o a b (fun _ => x)
        rw [hs, e1] at this
        exact Option.some.inj this
      obtain ⟨_, h2, _⟩ := partition_cost lt o a b _ (by omega) hs
      rw [e4, e3] at ht
      have ht' : t.1 = fun _ => x := by
        have := introRec_fst lt o N depth a a (b - a) (fun _ => x)
        rw [ht] at this
        cases depth with
        | zero => cases ht
        | succ d =>
          unfold introRec at ht
          rw [if_pos (by omega)] at ht
          unfold insertionSort at ht
          rw [Nat.sub_self] at ht
          cases ht
          rfl
      rw [e4, ht'] at hu
      have h3 := introRec_const_cost lt o N hN _ _ _ _ x hx (by omega) (by omega) hhi hu
      show _ ≤ 2 * (u.2 + (s.2 + t.2)) + _
      obtain ⟨n, hn⟩ : ∃ n, b - a = n + 1 := ⟨b - a - 1, by omega⟩
      rw [show b - (a + 1) = n by omega] at h3
      rw [hn] at h2 ⊢
      rw [Nat.add_sub_cancel] at h2 ⊢
      cases n with
      | zero => simp
      | succ k =>
        rw [Nat.add_sub_cancel] at h3
        nlinarith
  · rw [show b - a = 0 by omega]; simp

theorem square_le_pow (j : Nat) (h : 6 ≤ j) : (j + 1) * (j + 1) ≤ 2 ^ j := by
  induction j, h using Nat.le_induction with
  | base => decide
  | succ j hj ih => rw [Nat.pow_succ]; nlinarith

/-- `n²` outgrows `n log n` -/
theorem outgrows (K D : Nat) : ∃ n, 0 < n ∧ 2 * (K * n * (Nat.log2 n + 1)) + D < n * (n - 1) := by
  obtain ⟨j, hj⟩ : ∃ j, j = 2 * K + D + 8 := ⟨_, rfl⟩
  refine ⟨2 ^ j, Nat.pos_of_ne_zero (by simp), ?_⟩
  rw [Nat.log2_two_pow]
  have h := square_le_pow j (by omega)
  have h1 : 2 * K * (j + 1) + D + 1 < 2 ^ j := by
    have : (2 * K + D + 8 + 1) * (j + 1) ≤ 2 ^ j := by rw [hj] at h ⊢; exact h
    nlinarith
  generalize 2 ^ j = n at *
  obtain ⟨n, rfl⟩ : ∃ k, n = k + 1 := ⟨n - 1, by omega⟩
  rw [Nat.add_sub_cancel]
  have h2 : 2 * K * (j + 1) + D + 1 ≤ n := by omega
  calc 2 * (K * (n + 1) * (j + 1)) + D ≤ (n + 1) * (2 * K * (j + 1)) + (n + 1) * D := by nlinarith
    _ < (n + 1) * (2 * K * (j + 1) + D + 1) := by nlinarith
    _ ≤ (n + 1) * n := Nat.mul_le_mul_left _ h2

end CE.Cost
