import Verif.Props.AnyOrder
/-!
# C135: counting with sort and search
-/
namespace CE.AnyOrder

open CE.Sorting

variable {α : Type}

theorem countP_split (p : α → Bool) (m : Nat → α) (a r b : Nat) (har : a ≤ r) (hrb : r ≤ b)
    (h1 : ∀ i, a ≤ i → i < r → p (m i) = true) (h2 : ∀ i, r ≤ i → i < b → p (m i) = false) :
    (slice m a b).countP p = r - a := by
  rw [slice_append m a r b har hrb, List.countP_append]
  have e1 : (slice m a r).countP p = (slice m a r).length := by
    rw [List.countP_eq_length]
    intro x hx
    rw [mem_slice] at hx
    obtain ⟨i, i1, i2, rfl⟩ := hx
    exact h1 i i1 i2
  have e2 : (slice m r b).countP p = 0 := by
    rw [List.countP_eq_zero]
    intro x hx
    rw [mem_slice] at hx
    obtain ⟨i, i1, i2, rfl⟩ := hx
    rw [h2 i i1 i2]; simp
  rw [e1, e2, slice_length]; omega

/-- C135.  Let `operator<` be a strict weak order among the elements of an array and a key.  After
`intro_sort`, `lower_bound` of the key is at as many elements as the array had that are less than the key,
and from there to `upper_bound` are as many as it had that are neither less nor greater; exactly those
places hold such elements. -/
theorem C135_equal_range (S : α → Prop) (lt : α → α → Bool) (h : StrictWeakOn S lt) (N : Nat) (hN : 1 ≤ N)
    (a b : Nat) (hab : a ≤ b) (m : Nat → α) (hm : ∀ i, a ≤ i → i < b → S (m i)) (k : α) (hk : S k)
    (depth : Nat) (hd : b - a < depth + N) (hd0 : 0 < depth) :
    ∃ m' lo hi, introSort lt ⟨a, b⟩ N depth a b m = some m' ∧ lowerBound lt ⟨a, b⟩ a b k m' = some lo ∧
      upperBound lt ⟨a, b⟩ a b k m' = some hi ∧ a ≤ lo ∧ lo ≤ hi ∧ hi ≤ b ∧
      lo - a = (slice m a b).countP (fun x => lt x k) ∧
      hi - lo = (slice m a b).countP (equiv lt k) ∧
      (∀ i, a ≤ i → i < b → (equiv lt k (m' i) = true ↔ lo ≤ i ∧ i < hi)) := by
  obtain ⟨m', e1, e2, e3, e4⟩ := C134_intro_sort_on S lt h N hN a b hab m hm depth hd hd0
  obtain ⟨⟨lo, l1, l2, l3⟩, ⟨hi, u1, u2, u3⟩⟩ := C134_searches lt a b hab k m'
  have hm' : ∀ i, a ≤ i → i < b → S (m' i) := fun i h1 h2 =>
    slice_in S a b m m' hm e3 _ ((mem_slice _ _ _ _).mpr ⟨i, h1, h2, rfl⟩)
  obtain ⟨hl, hu⟩ := C134_searches_on S lt h a b hab k hk m' hm' e2
  obtain ⟨p1, p2⟩ := hl lo l1
  obtain ⟨q1, q2⟩ := hu hi u1
  have asym : ∀ x y, S x → S y → lt x y = true → lt y x = false := by
    intro x y hx hy hxy
    by_contra hc
    have := h.trans x y x hx hy hx hxy (by simpa using hc)
    rw [h.irrefl x hx] at this; cases this
  have hlh : lo ≤ hi := by
    by_contra hc
    have t1 := p1 hi (by omega) (by omega)
    have t2 := q2 hi (by omega) (by omega)
    rw [asym _ _ (hm' hi u2 (by omega)) hk t1] at t2; cases t2
  have eqv : ∀ i, a ≤ i → i < b → (equiv lt k (m' i) = true ↔ lo ≤ i ∧ i < hi) := by
    intro i h1 h2
    unfold equiv
    simp only [Bool.and_eq_true, Bool.not_eq_true']
    constructor
    · rintro ⟨h3, h4⟩
      constructor
      · by_contra hc
        rw [p1 i h1 (by omega)] at h4; cases h4
      · by_contra hc
        rw [q2 i (by omega) h2] at h3; cases h3
    · rintro ⟨h3, h4⟩
      exact ⟨q1 i h1 h4, p2 i h3 h2⟩
  refine ⟨m', lo, hi, e1, l1, u1, l2, hlh, u3, ?_, ?_, eqv⟩
  · rw [← e3.countP_eq]
    exact (countP_split (fun x => lt x k) m' a lo b l2 l3 p1 p2).symm
  · rw [← e3.countP_eq, slice_append m' a lo b l2 l3, List.countP_append]
    have z : (slice m' a lo).countP (equiv lt k) = 0 := by
      rw [List.countP_eq_zero]
      intro x hx hc
      rw [mem_slice] at hx
      obtain ⟨i, i1, i2, rfl⟩ := hx
      have := (eqv i i1 (by omega)).1 hc
      omega
    rw [z, countP_split (equiv lt k) m' lo hi b hlh u3]
    · omega
    · intro i h1 h2; exact (eqv i (by omega) (by omega)).2 ⟨h1, h2⟩
    · intro i h1 h2
      by_contra hc
      have := (eqv i (by omega) h2).1 (by simpa using hc)
      omega

/-- C135.  In particular a key is found by `lower_bound` after `intro_sort` exactly if an element
equivalent to it is in the array. -/
theorem C135_found (S : α → Prop) (lt : α → α → Bool) (h : StrictWeakOn S lt) (N : Nat) (hN : 1 ≤ N)
    (a b : Nat) (hab : a ≤ b) (m : Nat → α) (hm : ∀ i, a ≤ i → i < b → S (m i)) (k : α) (hk : S k)
    (depth : Nat) (hd : b - a < depth + N) (hd0 : 0 < depth) :
    ∃ m' lo, introSort lt ⟨a, b⟩ N depth a b m = some m' ∧ lowerBound lt ⟨a, b⟩ a b k m' = some lo ∧
      ((lo < b ∧ lt k (m' lo) = false) ↔ ∃ i, a ≤ i ∧ i < b ∧ equiv lt k (m i) = true) := by
  obtain ⟨m', lo, hi, e1, l1, u1, l2, hlh, u3, c1, c2, eqv⟩ :=
    C135_equal_range S lt h N hN a b hab m hm k hk depth hd hd0
  obtain ⟨m'', f1, f2, f3, -⟩ := C134_intro_sort_on S lt h N hN a b hab m hm depth hd hd0
  rw [e1] at f1
  cases f1
  have hm' : ∀ i, a ≤ i → i < b → S (m' i) := fun i h1 h2 =>
    slice_in S a b m m' hm f3 _ ((mem_slice _ _ _ _).mpr ⟨i, h1, h2, rfl⟩)
  obtain ⟨hl, -⟩ := C134_searches_on S lt h a b hab k hk m' hm' f2
  obtain ⟨p1, p2⟩ := hl lo l1
  refine ⟨m', lo, e1, l1, ?_⟩
  have key : (∃ i, a ≤ i ∧ i < b ∧ equiv lt k (m i) = true) ↔ lo < hi := by
    rw [← Nat.sub_pos_iff_lt, c2, List.countP_pos_iff]
    constructor
    · rintro ⟨i, h1, h2, h3⟩; exact ⟨m i, (mem_slice _ _ _ _).mpr ⟨i, h1, h2, rfl⟩, h3⟩
    · rintro ⟨x, hx, h3⟩
      rw [mem_slice] at hx
      obtain ⟨i, h1, h2, rfl⟩ := hx
      exact ⟨i, h1, h2, h3⟩
  rw [key]
  constructor
  · rintro ⟨h1, h2⟩
    have : equiv lt k (m' lo) = true := by
      unfold equiv; rw [h2, p2 lo (by omega) h1]; rfl
    exact ((eqv lo l2 h1).1 this).2
  · intro h1
    have := (eqv lo l2 (by omega)).2 ⟨by omega, h1⟩
    unfold equiv at this
    simp only [Bool.and_eq_true, Bool.not_eq_true'] at this
    exact ⟨by omega, this.1⟩

/-- numbers without a NaN, three of them equal to the key -/
example : (introSort less ⟨0, 5⟩ 2 5 0 5 (fun i => [some 4, some 2, some 4, some 9, some 4].getD i none)).bind
    (fun m => (lowerBound less ⟨0, 5⟩ 0 5 (some 4) m).bind fun lo =>
      (upperBound less ⟨0, 5⟩ 0 5 (some 4) m).map fun hi => (lo, hi)) = some (1, 4) := by decide +kernel

end CE.AnyOrder
