import Verif.Model.Sort
import Verif.Spec.Sort
import Mathlib.Logic.Equiv.Basic
import Mathlib.Data.List.Perm.Basic
import Mathlib.Data.List.Nodup
import Mathlib.Data.List.Induction
import Mathlib.Order.Basic
import Mathlib.Order.Nat
namespace CE

variable {α : Type}

theorem StrictWeak.asymm {lt : α → α → Bool} (h : StrictWeak lt) (a b : α) (hab : lt a b = true) :
    lt b a = false := by
  by_contra hba
  have := h.trans a b a hab (by simpa using hba)
  rw [h.irrefl] at this
  exact absurd this (by simp)

theorem slice_nil (m : Nat → α) (a : Nat) : slice m a a = [] := by simp [slice]

theorem slice_snoc (m : Nat → α) (a b : Nat) (h : a ≤ b) : slice m a (b + 1) = slice m a b ++ [m b] := by
  unfold slice
  rw [show b + 1 - a = (b - a) + 1 by omega, List.range'_concat]
  simp; congr 1; omega

theorem slice_append (m : Nat → α) (a b c : Nat) (h : a ≤ b) (h' : b ≤ c) :
    slice m a c = slice m a b ++ slice m b c := by
  unfold slice
  rw [show c - a = (b - a) + (c - b) by omega, ← List.range'_append_1, List.map_append]
  congr 3; omega

theorem slice_cons (m : Nat → α) (a b : Nat) (h : a < b) : slice m a b = m a :: slice m (a + 1) b := by
  unfold slice
  rw [show b - a = (b - (a + 1)) + 1 by omega, List.range'_succ]; simp

theorem slice_congr (m m' : Nat → α) (a b : Nat) (h : ∀ i, a ≤ i → i < b → m i = m' i) :
    slice m a b = slice m' a b := by
  unfold slice
  apply List.map_congr_left
  intro i hi
  rw [List.mem_range'_1] at hi
  exact h i hi.1 (by omega)

theorem mem_slice (m : Nat → α) (a b : Nat) (x : α) :
    x ∈ slice m a b ↔ ∃ i, a ≤ i ∧ i < b ∧ m i = x := by
  unfold slice
  simp only [List.mem_map, List.mem_range'_1]
  constructor
  · rintro ⟨i, ⟨h1, h2⟩, rfl⟩; exact ⟨i, h1, by omega, rfl⟩
  · rintro ⟨i, h1, h2, rfl⟩; exact ⟨i, ⟨h1, by omega⟩, rfl⟩

theorem slice_length (m : Nat → α) (a b : Nat) : (slice m a b).length = b - a := by simp [slice]

/-- `m'` is a rearrangement of `m` inside `[a, b)` -/
def PermOn (a b : Nat) (m m' : Nat → α) : Prop :=
  (slice m' a b).Perm (slice m a b) ∧ SameOutside a b m m'

theorem PermOn.refl (a b : Nat) (m : Nat → α) : PermOn a b m m := ⟨List.Perm.refl _, fun _ _ => rfl⟩

theorem PermOn.trans {a b : Nat} {m m' m'' : Nat → α} (h : PermOn a b m m') (h' : PermOn a b m' m'') :
    PermOn a b m m'' := ⟨h'.1.trans h.1, fun i hi => (h'.2 i hi).trans (h.2 i hi)⟩

theorem PermOn.mono {a b c d : Nat} {m m' : Nat → α} (h : PermOn c d m m') (hac : a ≤ c) (hcd : c ≤ d)
    (hdb : d ≤ b) : PermOn a b m m' := by
  refine ⟨?_, fun i hi => h.2 i (by omega)⟩
  rw [slice_append m' a c b hac (by omega), slice_append m' c d b hcd hdb,
    slice_append m a c b hac (by omega), slice_append m c d b hcd hdb]
  rw [slice_congr m' m a c (fun i _ h2 => h.2 i (by omega)),
    slice_congr m' m d b (fun i h1 _ => h.2 i (by omega))]
  exact List.Perm.append_left _ (List.Perm.append_right _ h.1)

theorem PermOn.forall {a b : Nat} {m m' : Nat → α} (h : PermOn a b m m') (P : α → Prop)
    (hP : ∀ i, a ≤ i → i < b → P (m i)) : ∀ i, a ≤ i → i < b → P (m' i) := by
  intro i h1 h2
  have : m' i ∈ slice m' a b := (mem_slice _ _ _ _).mpr ⟨i, h1, h2, rfl⟩
  rw [h.1.mem_iff, mem_slice] at this
  obtain ⟨j, j1, j2, e⟩ := this
  rw [← e]; exact hP j j1 j2

theorem Obj.rd_eq (o : Obj) (m : Nat → α) (i : Nat) (h : o.lo ≤ i ∧ i < o.hi) : o.rd m i = some (m i) := by
  simp [Obj.rd, h]

theorem Obj.wr_eq (o : Obj) (m : Nat → α) (i : Nat) (x : α) (h : o.lo ≤ i ∧ i < o.hi) :
    o.wr m i x = some (upd m i x) := by
  simp [Obj.wr, h]

/-- what `swap` does -/
def swapped (m : Nat → α) (i j : Nat) : Nat → α := upd (upd m i (m j)) j (m i)

theorem Obj.swap_eq (o : Obj) (m : Nat → α) (i j : Nat) (hi : o.lo ≤ i ∧ i < o.hi)
    (hj : o.lo ≤ j ∧ j < o.hi) : o.swap m i j = some (swapped m i j) := by
  simp [Obj.swap, Obj.rd_eq, Obj.wr_eq, hi, hj, swapped]

theorem swapped_eq (m : Nat → α) (i j : Nat) : swapped m i j = fun x => m (Equiv.swap i j x) := by
  funext x
  unfold swapped upd
  by_cases hj : x = j
  · subst hj; simp
  · by_cases hi : x = i
    · subst hi; simp [hj]
    · simp [hi, hj, Equiv.swap_apply_of_ne_of_ne hi hj]

theorem swapped_perm (m : Nat → α) (a b i j : Nat) (hi : a ≤ i ∧ i < b) (hj : a ≤ j ∧ j < b) :
    PermOn a b m (swapped m i j) := by
  constructor
  · rw [swapped_eq]
    unfold slice
    rw [show (fun x => m (Equiv.swap i j x)) = m ∘ (Equiv.swap i j) from rfl, ← List.map_map]
    apply List.Perm.map
    rw [List.perm_ext_iff_of_nodup (List.Nodup.map (Equiv.injective _) List.nodup_range')
      List.nodup_range']
    intro x
    simp only [List.mem_map, List.mem_range'_1]
    constructor
    · rintro ⟨y, hy, rfl⟩
      by_cases h1 : y = i
      · subst h1; simp; omega
      · by_cases h2 : y = j
        · subst h2; simp; omega
        · rw [Equiv.swap_apply_of_ne_of_ne h1 h2]; exact hy
    · intro hx
      refine ⟨Equiv.swap i j x, ?_, by simp⟩
      by_cases h1 : x = i
      · subst h1; simp; omega
      · by_cases h2 : x = j
        · subst h2; simp; omega
        · rw [Equiv.swap_apply_of_ne_of_ne h1 h2]; exact hx
  · intro x hx
    unfold swapped upd
    rw [if_neg (by omega), if_neg (by omega)]

namespace Sorting

variable (lt : α → α → Bool) (o : Obj)

/-! ### insertion sort -/

/-- insert behind the last element that is not greater -/
def ins (k : α) (xs : List α) : List α :=
  (xs.reverse.dropWhile (lt k)).reverse ++ k :: (xs.reverse.takeWhile (lt k)).reverse

theorem ins_nil (k : α) : ins lt k [] = [k] := rfl

theorem ins_snoc (k : α) (xs : List α) (x : α) :
    ins lt k (xs ++ [x]) = if lt k x then ins lt k xs ++ [x] else xs ++ [x, k] := by
  unfold ins
  simp only [List.reverse_append, List.reverse_cons, List.reverse_nil, List.nil_append,
    List.cons_append, List.dropWhile_cons, List.takeWhile_cons]
  by_cases h : lt k x <;> simp [h]

theorem ins_perm (k : α) (xs : List α) : (ins lt k xs).Perm (xs ++ [k]) := by
  induction xs using List.reverseRecOn with
  | nil => exact List.Perm.refl _
  | append_singleton xs x ih =>
    rw [ins_snoc]
    split
    · refine (ih.append_right [x]).trans ?_
      rw [List.append_assoc, List.append_assoc]
      exact List.Perm.append_left _ (List.Perm.swap _ _ _)
    · simp

theorem ins_sorted (h : StrictWeak lt) (k : α) (xs : List α) (hs : Sorted lt xs) :
    Sorted lt (ins lt k xs) := by
  induction xs using List.reverseRecOn with
  | nil => simp [ins_nil, Sorted]
  | append_singleton xs x ih =>
    rw [ins_snoc]
    unfold Sorted at hs ih ⊢
    rw [List.pairwise_append] at hs
    obtain ⟨h1, -, h2⟩ := hs
    have h2 : ∀ a ∈ xs, lt x a = false := fun a ha => h2 a ha x (by simp)
    split
    · rename_i hk
      rw [List.pairwise_append]
      refine ⟨ih h1, by simp, ?_⟩
      intro a ha b hb
      simp only [List.mem_singleton] at hb
      subst hb
      rw [(ins_perm lt k xs).mem_iff, List.mem_append, List.mem_singleton] at ha
      rcases ha with ha | rfl
      · exact h2 a ha
      · exact h.asymm _ _ hk
    · rename_i hk
      have hk : lt k x = false := by simpa using hk
      rw [List.pairwise_append]
      refine ⟨h1, by simp [hk], ?_⟩
      intro a ha b hb
      simp only [List.mem_cons, List.not_mem_nil, or_false] at hb
      rcases hb with rfl | rfl
      · exact h2 a ha
      · by_contra hc
        rcases h.negtrans b a x (by simpa using hc) with h' | h'
        · rw [hk] at h'; exact absurd h' (by simp)
        · rw [h2 a ha] at h'; exact absurd h' (by simp)

theorem ins_stable (h : StrictWeak lt) (k : α) (xs : List α) (z : α) :
    (ins lt k xs).filter (equiv lt z) = (xs ++ [k]).filter (equiv lt z) := by
  induction xs using List.reverseRecOn with
  | nil => rfl
  | append_singleton xs x ih =>
    rw [ins_snoc]
    split
    · rename_i hk
      rw [List.filter_append, ih, List.filter_append, List.filter_append, List.filter_append]
      rw [List.append_assoc, List.append_assoc]
      congr 1
      -- `k` and `x` are not both equivalent to `z`
      by_cases hz : equiv lt z k = true
      · have hx : equiv lt z x = false := by
          by_contra hx
          simp only [equiv, Bool.and_eq_true, Bool.not_eq_true', Bool.not_eq_false] at hz hx
          rcases h.negtrans k x z hk with h' | h'
          · rw [hz.2] at h'; exact absurd h' (by simp)
          · rw [hx.1] at h'; exact absurd h' (by simp)
        simp [hx, hz]
      · simp [hz]
    · simp

theorem insertLoop_eq (a p : Nat) (k : α) (m : Nat → α) (q : Nat) (haq : a ≤ q) (hqp : q ≤ p)
    (hlo : o.lo ≤ a) (hhi : p < o.hi) :
    ∃ m', insertLoop lt o a k m q = some m' ∧ slice m' a (q + 1) = ins lt k (slice m a q) ∧
      SameOutside a (q + 1) m m' := by
  induction q generalizing m with
  | zero =>
    have : a = 0 := by omega
    subst this
    refine ⟨upd m 0 k, ?_, ?_, ?_⟩
    · simp [insertLoop, o.wr_eq m 0 k ⟨hlo, by omega⟩]
    · rw [slice_snoc _ _ _ le_rfl, slice_nil, slice_nil, ins_nil]; simp [upd]
    · intro i hi; unfold upd; rw [if_neg (by omega)]
  | succ q ih =>
    have stop : (slice (upd m (q + 1) k) a (q + 1 + 1) = slice m a (q + 1) ++ [k]) ∧
        SameOutside a (q + 1 + 1) m (upd m (q + 1) k) := by
      constructor
      · rw [slice_snoc _ _ _ haq]
        congr 1
        · apply slice_congr
          intro i _ h2; unfold upd; rw [if_neg (by omega)]
        · simp [upd]
      · intro i hi; unfold upd; rw [if_neg (by omega)]
    unfold insertLoop
    by_cases h : q + 1 > a
    · rw [if_pos h, o.rd_eq m q ⟨by omega, by omega⟩]
      simp only [Option.bind_eq_bind, Option.bind_some]
      rw [o.wr_eq _ _ _ ⟨by omega, by omega⟩, o.wr_eq _ _ _ ⟨by omega, by omega⟩]
      simp only [Option.bind_some]
      rw [slice_snoc m a q (by omega), ins_snoc]
      by_cases hk : lt k (m q) = true
      · rw [if_pos hk, if_pos hk]
        obtain ⟨m', h1, h2, h3⟩ := ih (upd m (q + 1) (m q)) (by omega) (by omega)
        refine ⟨m', h1, ?_, ?_⟩
        · rw [slice_snoc _ _ _ haq, h2]
          have e : m' (q + 1) = m q := by
            rw [h3 _ (by omega)]; simp [upd]
          rw [e]
          congr 2
          apply slice_congr
          intro i _ hi; unfold upd; rw [if_neg (by omega)]
        · intro i hi
          rw [h3 i (by omega)]; unfold upd; rw [if_neg (by omega)]
      · rw [if_neg hk, if_neg hk]
        refine ⟨_, rfl, ?_, stop.2⟩
        rw [stop.1, slice_snoc m a q (by omega)]; simp
    · have : a = q + 1 := by omega
      subst this
      rw [if_neg h, o.wr_eq _ _ _ ⟨by omega, by omega⟩]
      refine ⟨_, rfl, ?_, stop.2⟩
      rw [stop.1, slice_nil]; rfl

theorem insertionLoop_eq (h : StrictWeak lt) (a b : Nat) (left p : Nat) (m : Nat → α) (hap : a ≤ p)
    (hpb : p + left = b) (hlo : o.lo ≤ a) (hhi : b ≤ o.hi) (hs : Sorted lt (slice m a p)) :
    ∃ m', insertionLoop lt o a left p m = some m' ∧ PermOn a b m m' ∧ Sorted lt (slice m' a b) ∧
      ∀ z, (slice m' a b).filter (equiv lt z) = (slice m a b).filter (equiv lt z) := by
  induction left generalizing p m with
  | zero =>
    have : p = b := by omega
    subst this
    exact ⟨m, rfl, PermOn.refl _ _ _, hs, fun _ => rfl⟩
  | succ left ih =>
    unfold insertionLoop
    rw [o.rd_eq m p ⟨by omega, by omega⟩]
    obtain ⟨m₁, e1, e2, e3⟩ := insertLoop_eq lt o a p (m p) m p hap le_rfl hlo (by omega)
    simp only [Option.bind_eq_bind, Option.bind_some, e1]
    obtain ⟨m', f1, f2, f3, f4⟩ := ih (p + 1) m₁ (by omega) (by omega)
      (by rw [e2]; exact ins_sorted lt h _ _ hs)
    have hp : PermOn a (p + 1) m m₁ := by
      refine ⟨?_, e3⟩
      rw [e2, slice_snoc m a p hap]
      exact ins_perm lt _ _
    refine ⟨m', f1, (hp.mono le_rfl (by omega) (by omega)).trans f2, f3, ?_⟩
    intro z
    rw [f4, slice_append m₁ a (p + 1) b (by omega) (by omega),
      slice_append m a (p + 1) b (by omega) (by omega), List.filter_append, List.filter_append, e2,
      ins_stable lt h, slice_snoc m a p hap]
    congr 2
    apply slice_congr
    intro i h1 _
    exact e3 i (by omega)

/-! ### partition -/

theorem median_eq (a b c : Nat) (m : Nat → α) (x y : Nat) (hx : o.lo ≤ x) (hy : y ≤ o.hi)
    (ha : x ≤ a ∧ a < y) (hb : x ≤ b ∧ b < y) (hc : x ≤ c ∧ c < y) :
    ∃ m', median lt o a b c m = some m' ∧ PermOn x y m m' := by
  unfold median
  simp only [o.rd_eq m a ⟨by omega, by omega⟩, o.rd_eq m b ⟨by omega, by omega⟩,
    o.rd_eq m c ⟨by omega, by omega⟩, Option.bind_eq_bind, Option.bind_some,
    o.swap_eq m b c ⟨by omega, by omega⟩ ⟨by omega, by omega⟩,
    o.swap_eq m b a ⟨by omega, by omega⟩ ⟨by omega, by omega⟩]
  have h1 := swapped_perm m x y b c hb hc
  have h2 := swapped_perm m x y b a hb ha
  have h0 := PermOn.refl x y m
  by_cases c1 : lt (m a) (m b) = true <;> by_cases c2 : lt (m b) (m c) = true <;>
    by_cases c3 : lt (m a) (m c) = true <;> by_cases c4 : lt (m c) (m b) = true <;>
    simp only [c1, c2, c3, c4, if_true, if_false, Bool.false_eq_true] <;>
    first
    | exact ⟨_, rfl, h0⟩
    | exact ⟨_, rfl, h1⟩
    | exact ⟨_, rfl, h2⟩

theorem partitionLoop_eq (k : α) (a e : Nat) (left p q : Nat) (m : Nat → α) (hap : a ≤ p)
    (hpq : p ≤ q) (hqe : q + left = e) (hlo : o.lo ≤ a) (hhi : e ≤ o.hi)
    (h1 : ∀ i, a ≤ i → i < p → lt (m i) k = true) (h2 : ∀ i, p ≤ i → i < q → lt (m i) k = false) :
    ∃ p' m', partitionLoop lt o k left p q m = some (p', m') ∧ a ≤ p' ∧ p' ≤ e ∧ PermOn a e m m' ∧
      (∀ i, a ≤ i → i < p' → lt (m' i) k = true) ∧ (∀ i, p' ≤ i → i < e → lt (m' i) k = false) := by
  induction left generalizing p q m with
  | zero =>
    exact ⟨p, m, rfl, hap, by omega, PermOn.refl _ _ _, h1, fun i hi hi' => h2 i hi (by omega)⟩
  | succ left ih =>
    unfold partitionLoop
    rw [o.rd_eq m q ⟨by omega, by omega⟩]
    simp only [Option.bind_eq_bind, Option.bind_some]
    rw [o.swap_eq m p q ⟨by omega, by omega⟩ ⟨by omega, by omega⟩]
    simp only [Option.bind_some]
    by_cases hk : lt (m q) k = true
    · rw [if_pos hk]
      obtain ⟨p', m', f1, f2, f3, f4, f5, f6⟩ := ih (p + 1) (q + 1) (swapped m p q) (by omega)
        (by omega) (by omega)
        (by
          intro i hi hi'
          unfold swapped upd
          by_cases hpi : i = p
          · subst hpi
            split
            · rename_i hh; rw [hh]; exact hk
            · simp [hk]
          · rw [if_neg (by omega), if_neg hpi]; exact h1 i hi (by omega))
        (by
          intro i hi hi'
          unfold swapped upd
          by_cases hqi : i = q
          · rw [if_pos hqi]
            exact h2 p le_rfl (by omega)
          · rw [if_neg hqi, if_neg (by omega)]; exact h2 i (by omega) (by omega))
      exact ⟨p', m', f1, f2, f3, (swapped_perm m a e p q ⟨by omega, by omega⟩
        ⟨by omega, by omega⟩).trans f4, f5, f6⟩
    · rw [if_neg hk]
      apply ih p (q + 1) m hap (by omega) (by omega) h1
      intro i hi hi'
      by_cases hqi : i = q
      · subst hqi; simpa using hk
      · exact h2 i hi (by omega)

theorem partition_eq (a b : Nat) (m : Nat → α) (hab : a < b) (hlo : o.lo ≤ a) (hhi : b ≤ o.hi) :
    ∃ p m', partition lt o a b m = some (p, m') ∧ a ≤ p ∧ p < b ∧ PermOn a b m m' ∧
      (∀ i, a ≤ i → i < p → lt (m' i) (m' p) = true) ∧
      (∀ i, p < i → i < b → lt (m' i) (m' p) = false) := by
  unfold partition
  rw [if_neg (by omega)]
  obtain ⟨m₁, e1, e2⟩ := median_eq lt o a (b - 1) ((b - a) / 2 + a) m a b hlo hhi ⟨le_rfl, hab⟩
    ⟨by omega, by omega⟩ ⟨by omega, by omega⟩
  simp only [Option.bind_eq_bind, e1, Option.bind_some]
  rw [o.rd_eq m₁ (b - 1) ⟨by omega, by omega⟩]
  simp only [Option.bind_some]
  obtain ⟨p, m₂, f1, f2, f3, f4, f5, f6⟩ := partitionLoop_eq lt o (m₁ (b - 1)) a (b - 1)
    (b - 1 - a) a a m₁ le_rfl le_rfl (by omega) hlo (by omega) (fun i _ _ => by omega)
    (fun i _ _ => by omega)
  rw [f1]
  simp only [Option.bind_some]
  rw [o.swap_eq m₂ p (b - 1) ⟨by omega, by omega⟩ ⟨by omega, by omega⟩]
  have hk : m₂ (b - 1) = m₁ (b - 1) := f4.2 _ (by omega)
  have hp : swapped m₂ p (b - 1) p = m₁ (b - 1) := by
    rw [← hk]; unfold swapped upd
    split
    · rename_i hh; rw [hh]
    · simp
  refine ⟨p, _, rfl, f2, by omega, ?_, ?_, ?_⟩
  · exact (e2.trans (f4.mono le_rfl (by omega) (by omega))).trans
      (swapped_perm m₂ a b p (b - 1) ⟨f2, by omega⟩ ⟨by omega, by omega⟩)
  · intro i hi hi'
    rw [hp]
    have : swapped m₂ p (b - 1) i = m₂ i := by
      unfold swapped upd; rw [if_neg (by omega), if_neg (by omega)]
    rw [this]; exact f5 i hi hi'
  · intro i hi hi'
    rw [hp]
    unfold swapped upd
    by_cases hb : i = b - 1
    · rw [if_pos hb]; exact f6 p le_rfl (by omega)
    · rw [if_neg hb, if_neg (by omega)]; exact f6 i (by omega) (by omega)

/-! ### intro sort -/

/-- joining the two sorted parts around the pivot -/
theorem join_sorted (h : StrictWeak lt) (a p b : Nat) (m : Nat → α) (hap : a ≤ p) (hpb : p < b)
    (hl : Sorted lt (slice m a p)) (hr : Sorted lt (slice m (p + 1) b))
    (h1 : ∀ i, a ≤ i → i < p → lt (m i) (m p) = true)
    (h2 : ∀ i, p < i → i < b → lt (m i) (m p) = false) : Sorted lt (slice m a b) := by
  unfold Sorted at *
  rw [slice_append m a p b hap (by omega), slice_cons m p b hpb, List.pairwise_append]
  refine ⟨hl, ?_, ?_⟩
  · rw [List.pairwise_cons]
    refine ⟨?_, hr⟩
    intro x hx
    rw [mem_slice] at hx
    obtain ⟨i, h3, h4, rfl⟩ := hx
    exact h2 i (by omega) h4
  · intro x hx y hy
    rw [mem_slice] at hx
    obtain ⟨i, i1, i2, rfl⟩ := hx
    rw [List.mem_cons] at hy
    rcases hy with rfl | hy
    · exact h.asymm _ _ (h1 i i1 i2)
    · rw [mem_slice] at hy
      obtain ⟨j, j1, j2, rfl⟩ := hy
      by_contra hc
      rcases h.negtrans (m j) (m i) (m p) (by simpa using hc) with h' | h'
      · rw [h2 j (by omega) j2] at h'; exact absurd h' (by simp)
      · rw [h.asymm _ _ (h1 i i1 i2)] at h'; exact absurd h' (by simp)

theorem introRec_eq (h : StrictWeak lt) (N : Nat) (hN : 1 ≤ N) (depth a b intro : Nat) (m : Nat → α)
    (hab : a ≤ b) (hlo : o.lo ≤ a) (hhi : b ≤ o.hi) (hd : b - a + 1 < depth + N ∧ 0 < depth) :
    ∃ m', introRec lt o N depth a b intro m = some m' ∧ PermOn a b m m' ∧
      Sorted lt (slice m' a b) := by
  induction depth generalizing a b intro m with
  | zero => omega
  | succ depth ih =>
    unfold introRec
    by_cases hn : b - a < N
    · simp only [if_pos hn]
      obtain ⟨m', h1, h2, h3, _⟩ := insertionLoop_eq lt o h a b (b - a) a m le_rfl (by omega) hlo hhi
        (by rw [slice_nil]; exact List.Pairwise.nil)
      exact ⟨m', h1, h2, h3⟩
    · simp only [if_neg hn]
      obtain ⟨p, m₁, e1, e2, e3, e4, e5, e6⟩ := partition_eq lt o a b m (by omega) hlo hhi
      simp only [Option.bind_eq_bind, e1, Option.bind_some]
      obtain ⟨m₂, f1, f2, f3⟩ := ih (p + 1) b (intro / 2) m₁ (by omega) (by omega) hhi
        (by omega)
      rw [f1]
      simp only [Option.bind_some]
      obtain ⟨m₃, g1, g2, g3⟩ := ih a p (intro / 2) m₂ e2 hlo (by omega) (by omega)
      refine ⟨m₃, g1, ?_, ?_⟩
      · exact (e4.trans (f2.mono (by omega) (by omega) le_rfl)).trans (g2.mono le_rfl e2 (by omega))
      · have hp : m₃ p = m₁ p := (g2.2 p (by omega)).trans (f2.2 p (by omega))
        apply join_sorted lt h a p b m₃ e2 e3 g3
        · rw [slice_congr m₃ m₂ (p + 1) b (fun i h1 _ => g2.2 i (by omega))]
          exact f3
        · rw [hp]
          apply g2.forall (fun x => lt x (m₁ p) = true)
          intro i i1 i2
          rw [f2.2 i (by omega)]; exact e5 i i1 i2
        · rw [hp]
          intro i i1 i2
          rw [g2.2 i (by omega)]
          exact f2.forall (fun x => lt x (m₁ p) = false) (fun j j1 j2 => e6 j (by omega) j2) i
            (by omega) i2

theorem introSort_eq (h : StrictWeak lt) (N : Nat) (hN : 1 ≤ N) (depth a b : Nat) (m : Nat → α)
    (hlo : o.lo ≤ a) (hhi : b ≤ o.hi) (hab : a ≤ b) (hd : b - a < depth + N ∧ 0 < depth) :
    ∃ m', introSort lt o N depth a b m = some m' ∧ PermOn a b m m' ∧ Sorted lt (slice m' a b) := by
  unfold introSort
  by_cases hlt : a < b
  · rw [if_pos hlt]
    by_cases hn : b - a < N
    · simp only [if_pos hn]
      obtain ⟨m', h1, h2, h3, _⟩ := insertionLoop_eq lt o h a b (b - a) a m le_rfl (by omega) hlo hhi
        (by rw [slice_nil]; exact List.Pairwise.nil)
      exact ⟨m', h1, h2, h3⟩
    · simp only [if_neg hn]
      obtain ⟨p, m₁, e1, e2, e3, e4, e5, e6⟩ := partition_eq lt o a b m (by omega) hlo hhi
      simp only [Option.bind_eq_bind, e1, Option.bind_some]
      obtain ⟨m₂, f1, f2, f3⟩ := introRec_eq lt o h N hN depth a p (b - a) m₁ e2 hlo (by omega)
        (by omega)
      rw [f1]
      simp only [Option.bind_some]
      obtain ⟨m₃, g1, g2, g3⟩ := introRec_eq lt o h N hN depth (p + 1) b (b - a) m₂ (by omega)
        (by omega) hhi (by omega)
      refine ⟨m₃, g1, ?_, ?_⟩
      · exact (e4.trans (f2.mono le_rfl e2 (by omega))).trans (g2.mono (by omega) (by omega) le_rfl)
      · have hp : m₃ p = m₁ p := (g2.2 p (by omega)).trans (f2.2 p (by omega))
        apply join_sorted lt h a p b m₃ e2 e3 _ g3
        · rw [hp]
          intro i i1 i2
          rw [g2.2 i (by omega)]
          exact f2.forall (fun x => lt x (m₁ p) = true) (fun j j1 j2 => e5 j j1 j2) i i1 i2
        · rw [hp]
          apply g2.forall (fun x => lt x (m₁ p) = false)
          intro i i1 i2
          rw [f2.2 i (by omega)]; exact e6 i (by omega) i2
        · rw [slice_congr m₃ m₂ a p (fun i h1 _ => g2.2 i (by omega))]
          exact f3
  · have : a = b := by omega
    subst this
    rw [if_neg hlt]
    exact ⟨m, rfl, PermOn.refl _ _ _, by rw [slice_nil]; exact List.Pairwise.nil⟩

/-! ### all elements equal -/

theorem partition_const (a b : Nat) (x : α) (hx : lt x x = false) (hab : a < b) (hlo : o.lo ≤ a)
    (hhi : b ≤ o.hi) : ∃ m', partition lt o a b (fun _ => x) = some (a, m') ∧
      ∀ i, m' i = x := by
  obtain ⟨p, m', e1, e2, e3, e4, e5, e6⟩ := partition_eq lt o a b (fun _ => x) hab hlo hhi
  have hc : ∀ i, m' i = x := by
    intro i
    by_cases hi : a ≤ i ∧ i < b
    · exact e4.forall (fun y => y = x) (fun _ _ _ => rfl) i hi.1 hi.2
    · exact e4.2 i hi
  have : p = a := by
    by_contra hp
    have := e5 a le_rfl (by omega)
    rw [hc, hc, hx] at this
    exact absurd this (by simp)
  subst this
  exact ⟨m', e1, hc⟩

theorem introRec_const (N : Nat) (hN : 1 ≤ N) (depth a b intro : Nat) (x : α) (hx : lt x x = false)
    (hab : a ≤ b) (hlo : o.lo ≤ a) (hhi : b ≤ o.hi) (hd : depth + N ≤ b - a + 1) :
    introRec lt o N depth a b intro (fun _ => x) = none := by
  induction depth generalizing a intro with
  | zero => rfl
  | succ depth ih =>
    unfold introRec
    simp only [if_neg (show ¬ (b - a < N) by omega)]
    obtain ⟨m', e1, e2⟩ := partition_const lt o a b x hx (by omega) hlo hhi
    have : m' = fun _ => x := funext e2
    subst this
    simp only [Option.bind_eq_bind, e1, Option.bind_some]
    rw [ih (a + 1) (intro / 2) (by omega) (by omega) (by omega)]
    rfl

theorem partition_empty (a : Nat) (m : Nat → α) (ha : a = o.lo ∨ a = o.hi) (hlo : o.lo ≤ a) (hb : a ≤ o.hi) :
    partition lt o a a m = none := by
  unfold partition
  by_cases h : a = 0
  · simp [h]
  · rw [if_neg h]
    simp only [Option.bind_eq_bind]
    have : median lt o a (a - 1) ((a - a) / 2 + a) m = none := by
      unfold median
      rcases ha with h' | h'
      · have : o.rd m (a - 1) = none := by unfold Obj.rd; rw [if_neg (by omega)]
        rw [this]
        cases o.rd m a <;> rfl
      · have : o.rd m a = none := by unfold Obj.rd; rw [if_neg (by omega)]
        rw [this]; rfl
    rw [this]; rfl

/-! ### binary search -/

theorem lowerLoop_eq (k : α) (m : Nat → α) (a n : Nat) (hlo : o.lo ≤ a) (hhi : a + n ≤ o.hi) :
    ∃ r, lowerLoop lt o k m a n = some r ∧ a ≤ r ∧ r ≤ a + n ∧
      ((∀ i j, a ≤ i → i ≤ j → j < a + n → lt (m j) k = true → lt (m i) k = true) →
        (∀ i, a ≤ i → i < r → lt (m i) k = true) ∧
        (∀ i, r ≤ i → i < a + n → lt (m i) k = false)) := by
  induction n using Nat.strong_induction_on generalizing a with
  | _ n ih =>
    unfold lowerLoop
    by_cases hn : n > 0
    · rw [dif_pos hn]
      dsimp only
      rw [o.rd_eq m (a + n / 2) ⟨by omega, by omega⟩]
      simp only [Option.bind_eq_bind, Option.bind_some]
      by_cases hk : lt (m (a + n / 2)) k = true
      · rw [if_pos hk]
        obtain ⟨r, h1, h2, h3, h4⟩ := ih (n - (n / 2 + 1)) (by omega) (a + n / 2 + 1) (by omega)
          (by omega)
        refine ⟨r, h1, by omega, by omega, fun H => ?_⟩
        obtain ⟨h5, h6⟩ := h4 (fun i j h h' h'' => H i j (by omega) h' (by omega))
        refine ⟨fun i hi hi' => ?_, fun i hi hi' => h6 i hi (by omega)⟩
        by_cases hc : i ≤ a + n / 2
        · exact H i _ hi hc (by omega) hk
        · exact h5 i (by omega) hi'
      · rw [if_neg hk]
        obtain ⟨r, h1, h2, h3, h4⟩ := ih (n / 2) (by omega) a hlo (by omega)
        refine ⟨r, h1, h2, by omega, fun H => ?_⟩
        obtain ⟨h5, h6⟩ := h4 (fun i j h h' h'' => H i j h h' (by omega))
        refine ⟨h5, fun i hi hi' => ?_⟩
        by_cases hc : i < a + n / 2
        · exact h6 i hi hc
        · by_contra hh
          exact hk (H _ i (by omega) (by omega) hi' (by simpa using hh))
    · rw [dif_neg hn]
      exact ⟨a, rfl, le_rfl, by omega, fun _ => ⟨fun i _ _ => by omega, fun i _ _ => by omega⟩⟩

theorem upperLoop_eq (k : α) (m : Nat → α) (a n : Nat) :
    upperLoop lt o k m a n = lowerLoop (fun x y => !lt y x) o k m a n := by
  induction n using Nat.strong_induction_on generalizing a with
  | _ n ih =>
    unfold upperLoop lowerLoop
    by_cases hn : n > 0
    · rw [dif_pos hn, dif_pos hn]
      dsimp only
      rw [ih (n - (n / 2 + 1)) (by omega), ih (n / 2) (by omega)]
    · rw [dif_neg hn, dif_neg hn]

theorem sorted_get (m : Nat → α) (a b : Nat) (hs : Sorted lt (slice m a b)) (i j : Nat) (hi : a ≤ i)
    (hij : i < j) (hj : j < b) : lt (m j) (m i) = false := by
  have := List.pairwise_iff_getElem.mp hs (i - a) (j - a) (by rw [slice_length]; omega)
    (by rw [slice_length]; omega) (by omega)
  unfold slice at this
  simp only [List.getElem_map, List.getElem_range', Nat.one_mul] at this
  rw [show a + (i - a) = i by omega, show a + (j - a) = j by omega] at this
  exact this

end Sorting
end CE
