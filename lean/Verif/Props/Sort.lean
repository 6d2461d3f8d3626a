import Verif.Proof.Sort
import Mathlib.Data.Nat.Log
import Mathlib.Tactic.Ring
/-!
# C21 - C24: sorting and binary search
-/
namespace CE.Sorting

variable {α : Type}

/-- C21.  `insertion_sort(a, b)` stays inside `[a, b)` (it succeeds although `[a, b)` is all that
may be accessed), sorts, permutes, keeps the order of equivalent elements, and changes nothing
outside. -/
theorem C21_insertion_sort (lt : α → α → Bool) (h : StrictWeak lt) (a b : Nat) (hab : a ≤ b)
    (m : Nat → α) :
    ∃ m', insertionSort lt ⟨a, b⟩ a b m = some m' ∧
      Sorted lt (slice m' a b) ∧ (slice m' a b).Perm (slice m a b) ∧
      (∀ z, (slice m' a b).filter (equiv lt z) = (slice m a b).filter (equiv lt z)) ∧
      SameOutside a b m m' := by
  obtain ⟨m', h1, h2, h3, h4⟩ := insertionLoop_eq lt ⟨a, b⟩ h a b (b - a) a m (Nat.le_refl _)
    (by omega) (Nat.le_refl _) (Nat.le_refl _) (by rw [slice_nil]; exact List.Pairwise.nil)
  exact ⟨m', h1, h3, h2.1, h4, h2.2⟩

/-- pairs compared by their first component are a strict weak order that is not total -/
theorem strictWeak_fst : StrictWeak (fun x y : Nat × Nat => decide (x.1 < y.1)) where
  irrefl := by simp
  trans := by intro a b c; simp; omega
  negtrans := by intro a b c; simp; omega

example : (insertionSort (fun x y : Nat × Nat => decide (x.1 < y.1)) ⟨0, 4⟩ 0 4
    (fun i => [(3, 0), (1, 1), (3, 2), (1, 3)].getD i (0, 0))).map (slice · 0 4) =
    some [(1, 1), (1, 3), (3, 0), (3, 2)] := by decide +kernel

/-- C22.  `intro_sort<N>(a, b)` for `N ≥ 1` stays inside `[a, b)`, sorts, permutes and changes
nothing outside, if there is room for a recursion as deep as the number of elements. -/
theorem C22_intro_sort (lt : α → α → Bool) (h : StrictWeak lt) (N : Nat) (hN : 1 ≤ N) (a b : Nat)
    (hab : a ≤ b) (m : Nat → α) (depth : Nat) (hd : b - a < depth + N) (hd0 : 0 < depth) :
    ∃ m', introSort lt ⟨a, b⟩ N depth a b m = some m' ∧
      Sorted lt (slice m' a b) ∧ (slice m' a b).Perm (slice m a b) ∧ SameOutside a b m m' := by
  obtain ⟨m', h1, h2, h3⟩ := introSort_eq lt ⟨a, b⟩ h N hN depth a b m (Nat.le_refl _)
    (Nat.le_refl _) hab ⟨hd, hd0⟩
  exact ⟨m', h1, h3, h2.1, h2.2⟩

example : (introSort (fun x y : Nat => decide (x < y)) ⟨0, 6⟩ 2 5 0 6
    (fun i => [3, 1, 4, 1, 5, 9].getD i 0)).map (slice · 0 6) =
    some [1, 1, 3, 4, 5, 9] := by decide +kernel

/-- C22.  The condition `N ≥ 1` is needed: `intro_sort<0>` on a non-empty range never ends well. -/
theorem C22_cutoff_zero_undefined (lt : α → α → Bool) (a b : Nat) (hab : a < b) (o : Obj)
    (m : Nat → α) (depth : Nat) : introSort lt o 0 depth a b m = none := by
  have key : ∀ depth a b intro (m : Nat → α), introRec lt o 0 depth a b intro m = none := by
    intro depth
    induction depth with
    | zero => intros; rfl
    | succ depth ih =>
      intro a b intro m
      unfold introRec
      simp only [Nat.not_lt_zero, if_false, Option.bind_eq_bind]
      cases partition lt o a b m with
      | none => rfl
      | some q => simp only [Option.bind_some, ih]; rfl
  unfold introSort
  rw [if_pos hab]
  simp only [Nat.not_lt_zero, if_false, Option.bind_eq_bind]
  cases partition lt o a b m with
  | none => rfl
  | some q => simp only [Option.bind_some, key]; rfl

/-- C23 fails: on an array of equal elements the recursion is as deep as there are elements beyond
the cutoff. -/
theorem C23_equal_elements_linear_depth (lt : α → α → Bool) (x : α) (hx : lt x x = false) (N : Nat)
    (hN : 1 ≤ N) (a b : Nat) (hab : a < b) (hn : N ≤ b - a) (depth : Nat)
    (hd : depth + N ≤ b - a) :
    introSort lt ⟨a, b⟩ N depth a b (fun _ => x) = none := by
  unfold introSort
  rw [if_pos hab]
  simp only [if_neg (show ¬ (b - a < N) by omega)]
  obtain ⟨m', e1, e2⟩ := partition_const lt ⟨a, b⟩ a b x hx hab (Nat.le_refl _) (Nat.le_refl _)
  have : m' = fun _ => x := funext e2
  subst this
  simp only [Option.bind_eq_bind, e1, Option.bind_some]
  cases depth with
  | zero => rfl
  | succ depth =>
    have h0 : introRec lt ⟨a, b⟩ N (depth + 1) a a (b - a) (fun _ => x) = some (fun _ => x) := by
      unfold introRec
      simp only [Nat.sub_self, if_pos (show 0 < N by omega), insertionSort]
      rfl
    rw [h0, Option.bind_some]
    exact introRec_const lt ⟨a, b⟩ N hN (depth + 1) (a + 1) b (b - a) x hx (by omega)
      (by simp) (by simp) (by omega)

/-- C23 fails: no multiple of the logarithm of the number of elements bounds the depth (with the
default cutoff 128). -/
theorem C23_depth_logarithmic_false :
    ¬ ∃ C, ∀ (b : Nat) (m : Nat → Nat),
      introSort (fun x y => decide (x < y)) ⟨0, b⟩ 128 (C * (Nat.log 2 b + 1)) 0 b m ≠ none := by
  rintro ⟨C, h⟩
  -- `2^k` elements with `k` large
  obtain ⟨k, hk⟩ : ∃ k, C * (k + 1) + 128 ≤ 2 ^ k := by
    refine ⟨2 * C + 16, ?_⟩
    have h1 : ∀ n, n + 1 ≤ 2 ^ n := fun n => Nat.lt_two_pow_self
    have e : 2 ^ (2 * C + 16) = 2 ^ C * 2 ^ C * 65536 := by
      rw [Nat.pow_add, two_mul, Nat.pow_add]
    have h2 : (C + 1) * (C + 1) ≤ 2 ^ C * 2 ^ C := Nat.mul_le_mul (h1 C) (h1 C)
    rw [e]
    have h3 : (C + 1) * (C + 1) = C * C + 2 * C + 1 := by ring
    have h4 : C * (2 * C + 16 + 1) = 2 * (C * C) + 17 * C := by ring
    rw [h4]
    generalize 2 ^ C * 2 ^ C = y at h2 ⊢
    rw [h3] at h2
    generalize C * C = z at h2 ⊢
    omega
  apply h (2 ^ k) (fun _ => 0)
  rw [Nat.log_pow (by omega)]
  exact C23_equal_elements_linear_depth _ 0 (by simp) 128 (by omega) 0 (2 ^ k) (by omega)
    (by omega) _ (by omega)

/-- C23, what is left: the depth is never more than the number of elements beyond the cutoff plus
one (so the sort ends), see `C22_intro_sort`. -/
theorem C23_depth_linear_partial (lt : α → α → Bool) (h : StrictWeak lt) (N : Nat) (hN : 1 ≤ N)
    (a b : Nat) (hab : a ≤ b) (m : Nat → α) :
    introSort lt ⟨a, b⟩ N (b - a + 1 - N + 1) a b m ≠ none := by
  obtain ⟨m', h1, _⟩ := C22_intro_sort lt h N hN a b hab m (b - a + 1 - N + 1) (by omega) (by omega)
  rw [h1]; simp

/-- C24.  `lower_bound` on any range stays in bounds and returns a position in `[a, b]`. -/
theorem C24_lower_bound_in_bounds (lt : α → α → Bool) (a b : Nat) (hab : a ≤ b) (k : α)
    (m : Nat → α) : ∃ r, lowerBound lt ⟨a, b⟩ a b k m = some r ∧ a ≤ r ∧ r ≤ b := by
  obtain ⟨r, h1, h2, h3, _⟩ := lowerLoop_eq lt ⟨a, b⟩ k m a (b - a) (Nat.le_refl _) (by simp; omega)
  exact ⟨r, h1, h2, by omega⟩

/-- C24.  On a sorted range `lower_bound` returns the first position whose element is not less than
the key: all before are less, all from there on are not. -/
theorem C24_lower_bound (lt : α → α → Bool) (h : StrictWeak lt) (a b : Nat) (hab : a ≤ b) (k : α)
    (m : Nat → α) (hs : Sorted lt (slice m a b)) (r : Nat)
    (hr : lowerBound lt ⟨a, b⟩ a b k m = some r) :
    (∀ i, a ≤ i → i < r → lt (m i) k = true) ∧ (∀ i, r ≤ i → i < b → lt (m i) k = false) := by
  obtain ⟨r', h1, h2, h3, h4⟩ := lowerLoop_eq lt ⟨a, b⟩ k m a (b - a) (Nat.le_refl _)
    (by simp; omega)
  have : r' = r := by
    rw [lowerBound, h1] at hr; simpa using hr
  subst this
  have H := h4 (fun i j hi hij hj hk => ?_)
  · exact ⟨H.1, fun i h h' => H.2 i h (by omega)⟩
  · rcases Nat.eq_or_lt_of_le hij with rfl | hij
    · exact hk
    · have hp := sorted_get lt m a b hs i j hi hij (by omega)
      rcases h.negtrans (m j) k (m i) hk with h' | h'
      · rw [hp] at h'; exact absurd h' (by simp)
      · exact h'

/-- C24.  `upper_bound` on any range stays in bounds; on a sorted range it returns the first
position whose element is greater than the key. -/
theorem C24_upper_bound (lt : α → α → Bool) (a b : Nat) (hab : a ≤ b) (k : α) (m : Nat → α) :
    ∃ r, upperBound lt ⟨a, b⟩ a b k m = some r ∧ a ≤ r ∧ r ≤ b ∧
      (StrictWeak lt → Sorted lt (slice m a b) →
        (∀ i, a ≤ i → i < r → lt k (m i) = false) ∧ (∀ i, r ≤ i → i < b → lt k (m i) = true)) := by
  obtain ⟨r, h1, h2, h3, h4⟩ := lowerLoop_eq (fun x y => !lt y x) ⟨a, b⟩ k m a (b - a)
    (Nat.le_refl _) (by simp; omega)
  refine ⟨r, by rw [upperBound, upperLoop_eq]; exact h1, h2, by omega, fun h hs => ?_⟩
  have H := h4 (fun i j hi hij hj hk => ?_)
  · exact ⟨fun i h h' => by simpa using H.1 i h h', fun i h h' => by simpa using H.2 i h (by omega)⟩
  · rcases Nat.eq_or_lt_of_le hij with rfl | hij
    · exact hk
    · have hp := sorted_get lt m a b hs i j hi hij (by omega)
      simp only [Bool.not_eq_true'] at hk ⊢
      by_contra hc
      rcases h.negtrans k (m i) (m j) (by simpa using hc) with h' | h'
      · rw [hk] at h'; exact absurd h' (by simp)
      · rw [hp] at h'; exact absurd h' (by simp)

example : Sorted (fun x y : Nat => decide (x < y)) (slice (fun i => [1, 3, 3, 7].getD i 0) 0 4) ∧
    lowerBound (fun x y : Nat => decide (x < y)) ⟨0, 4⟩ 0 4 3 (fun i => [1, 3, 3, 7].getD i 0) = some 1 ∧
    upperBound (fun x y : Nat => decide (x < y)) ⟨0, 4⟩ 0 4 3 (fun i => [1, 3, 3, 7].getD i 0) = some 3 := by
  refine ⟨by unfold Sorted; decide, by decide +kernel, by decide +kernel⟩

end CE.Sorting
