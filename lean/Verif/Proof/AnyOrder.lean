import Verif.Spec.AnyOrder
import Verif.Proof.Heap
namespace CE

variable {α : Type}

/-- the order extended to all values: those outside `S` come last -/
noncomputable def extend (S : α → Prop) (lt : α → α → Bool) : α → α → Bool := by
  classical exact fun x y => if S x then (if S y then lt x y else true) else false

theorem extend_in (S : α → Prop) (lt : α → α → Bool) (x y : α) (hx : S x) (hy : S y) :
    extend S lt x y = lt x y := by simp [extend, hx, hy]

theorem extend_weak (S : α → Prop) (lt : α → α → Bool) (h : StrictWeakOn S lt) :
    StrictWeak (extend S lt) where
  irrefl a := by
    by_cases ha : S a
    · rw [extend_in S lt a a ha ha]; exact h.irrefl a ha
    · simp [extend, ha]
  trans a b c h1 h2 := by
    by_cases ha : S a <;> by_cases hb : S b <;> by_cases hc : S c <;>
      simp only [extend, ha, hb, hc, if_true, if_false, Bool.false_eq_true] at h1 h2 ⊢
    exact h.trans a b c ha hb hc h1 h2
  negtrans a b c h1 := by
    by_cases ha : S a <;> by_cases hb : S b <;> by_cases hc : S c <;>
      simp only [extend, ha, hb, hc, if_true, if_false, Bool.false_eq_true, or_true, true_or] at h1 ⊢
    exact h.negtrans a b c ha hb hc h1

/-- two comparisons that agree on `S` -/
def Agree (S : α → Prop) (lt lt' : α → α → Bool) : Prop := ∀ x y, S x → S y → lt x y = lt' x y

/-- the elements of `[a, b)` are in `S` -/
def Within (S : α → Prop) (a b : Nat) (m : Nat → α) : Prop := ∀ i, a ≤ i → i < b → S (m i)

theorem Within.perm {S : α → Prop} {a b : Nat} {m m' : Nat → α} (h : Within S a b m) (hp : PermOn a b m m') :
    Within S a b m' := hp.forall S h

theorem Within.sub {S : α → Prop} {a b c d : Nat} {m : Nat → α} (h : Within S a b m) (hc : a ≤ c) (hd : d ≤ b) :
    Within S c d m := fun i h1 h2 => h i (by omega) (by omega)

namespace Sorting

variable (lt lt' : α → α → Bool) (o : Obj)

/-! ### any comparison -/

theorem insertionLoop_any (a b : Nat) (left p : Nat) (m : Nat → α) (hap : a ≤ p) (hpb : p + left = b)
    (hlo : o.lo ≤ a) (hhi : b ≤ o.hi) :
    ∃ m', insertionLoop lt o a left p m = some m' ∧ PermOn a b m m' := by
  induction left generalizing p m with
  | zero => exact ⟨m, rfl, PermOn.refl _ _ _⟩
  | succ left ih =>
    unfold insertionLoop
    rw [o.rd_eq m p ⟨by omega, by omega⟩]
    obtain ⟨m₁, e1, e2, e3⟩ := insertLoop_eq lt o a p (m p) m p hap le_rfl hlo (by omega)
    simp only [Option.bind_eq_bind, Option.bind_some, e1]
    obtain ⟨m', f1, f2⟩ := ih (p + 1) m₁ (by omega) (by omega)
    have hp : PermOn a (p + 1) m m₁ := by
      refine ⟨?_, e3⟩
      rw [e2, slice_snoc m a p hap]
      exact ins_perm lt _ _
    exact ⟨m', f1, (hp.mono le_rfl (by omega) (by omega)).trans f2⟩

theorem insertionSort_any (a b : Nat) (m : Nat → α) (hab : a ≤ b) (hlo : o.lo ≤ a) (hhi : b ≤ o.hi) :
    ∃ m', insertionSort lt o a b m = some m' ∧ PermOn a b m m' :=
  insertionLoop_any lt o a b (b - a) a m le_rfl (by omega) hlo hhi

theorem introRec_any (N : Nat) (hN : 1 ≤ N) (depth a b intro : Nat) (m : Nat → α)
    (hab : a ≤ b) (hlo : o.lo ≤ a) (hhi : b ≤ o.hi) (hd : b - a + 1 < depth + N ∧ 0 < depth) :
    ∃ m', introRec lt o N depth a b intro m = some m' ∧ PermOn a b m m' := by
  induction depth generalizing a b intro m with
  | zero => omega
  | succ depth ih =>
    unfold introRec
    by_cases hn : b - a < N
    · simp only [if_pos hn]
      exact insertionSort_any lt o a b m hab hlo hhi
    · simp only [if_neg hn]
      obtain ⟨p, m₁, e1, e2, e3, e4, _, _⟩ := partition_eq lt o a b m (by omega) hlo hhi
      simp only [Option.bind_eq_bind, e1, Option.bind_some]
      obtain ⟨m₂, f1, f2⟩ := ih (p + 1) b (intro / 2) m₁ (by omega) (by omega) hhi (by omega)
      rw [f1]
      simp only [Option.bind_some]
      obtain ⟨m₃, g1, g2⟩ := ih a p (intro / 2) m₂ e2 hlo (by omega) (by omega)
      exact ⟨m₃, g1, (e4.trans (f2.mono (by omega) (by omega) le_rfl)).trans (g2.mono le_rfl e2 (by omega))⟩

theorem introSort_any (N : Nat) (hN : 1 ≤ N) (depth a b : Nat) (m : Nat → α)
    (hlo : o.lo ≤ a) (hhi : b ≤ o.hi) (hab : a ≤ b) (hd : b - a < depth + N ∧ 0 < depth) :
    ∃ m', introSort lt o N depth a b m = some m' ∧ PermOn a b m m' := by
  unfold introSort
  by_cases hlt : a < b
  · rw [if_pos hlt]
    by_cases hn : b - a < N
    · simp only [if_pos hn]
      exact insertionSort_any lt o a b m hab hlo hhi
    · simp only [if_neg hn]
      obtain ⟨p, m₁, e1, e2, e3, e4, _, _⟩ := partition_eq lt o a b m (by omega) hlo hhi
      simp only [Option.bind_eq_bind, e1, Option.bind_some]
      obtain ⟨m₂, f1, f2⟩ := introRec_any lt o N hN depth a p (b - a) m₁ e2 hlo (by omega) (by omega)
      rw [f1]
      simp only [Option.bind_some]
      obtain ⟨m₃, g1, g2⟩ := introRec_any lt o N hN depth (p + 1) b (b - a) m₂ (by omega) (by omega) hhi
        (by omega)
      exact ⟨m₃, g1, (e4.trans (f2.mono le_rfl e2 (by omega))).trans (g2.mono (by omega) (by omega) le_rfl)⟩
  · rw [if_neg hlt]
    exact ⟨m, rfl, PermOn.refl _ _ _⟩

/-! ### comparisons that agree -/

variable {lt lt'} {S : α → Prop} (hA : Agree S lt lt')
include hA

theorem insertLoop_congr (a : Nat) (k : α) (hk : S k) : ∀ (q : Nat) (m : Nat → α), Within S a q m →
    insertLoop lt o a k m q = insertLoop lt' o a k m q := by
  intro q
  induction q with
  | zero => intro m _; rfl
  | succ q ih =>
    intro m hm
    unfold insertLoop
    by_cases h : q + 1 > a
    · rw [if_pos h, if_pos h]
      cases hr : o.rd m q with
      | none => rfl
      | some x =>
        have hx : x = m q := by
          unfold Obj.rd at hr
          split at hr
          · simpa using hr.symm
          · cases hr
        subst hx
        simp only [Option.bind_eq_bind, Option.bind_some]
        rw [hA k (m q) hk (hm q (by omega) (by omega))]
        split
        · cases hw : o.wr m (q + 1) (m q) with
          | none => rfl
          | some m₁ =>
            simp only [Option.bind_some]
            apply ih
            intro i h1 h2
            have e : m₁ = upd m (q + 1) (m q) := by
              unfold Obj.wr at hw
              split at hw
              · simpa using hw.symm
              · cases hw
            rw [e]; unfold upd; rw [if_neg (by omega)]; exact hm i h1 (by omega)
        · rfl
    · rw [if_neg h, if_neg h]

theorem insertionLoop_congr (a b : Nat) (hlo : o.lo ≤ a) (hhi : b ≤ o.hi) : ∀ (left p : Nat) (m : Nat → α),
    a ≤ p → p + left = b → Within S a b m →
    insertionLoop lt o a left p m = insertionLoop lt' o a left p m := by
  intro left
  induction left with
  | zero => intros; rfl
  | succ left ih =>
    intro p m hap hpb hm
    unfold insertionLoop
    rw [o.rd_eq m p ⟨by omega, by omega⟩]
    simp only [Option.bind_eq_bind, Option.bind_some]
    rw [insertLoop_congr o hA a (m p) (hm p hap (by omega)) p m (hm.sub le_rfl (by omega))]
    obtain ⟨m₁, e1, e2, e3⟩ := insertLoop_eq lt' o a p (m p) m p hap le_rfl hlo (by omega)
    rw [e1]
    simp only [Option.bind_some]
    apply ih (p + 1) m₁ (by omega) (by omega)
    have hp : PermOn a (p + 1) m m₁ := by
      refine ⟨?_, e3⟩
      rw [e2, slice_snoc m a p hap]
      exact ins_perm lt' _ _
    exact hm.perm (hp.mono le_rfl (by omega) (by omega))

theorem insertionSort_congr (a b : Nat) (hab : a ≤ b) (hlo : o.lo ≤ a) (hhi : b ≤ o.hi) (m : Nat → α)
    (hm : Within S a b m) : insertionSort lt o a b m = insertionSort lt' o a b m :=
  insertionLoop_congr o hA a b hlo hhi (b - a) a m le_rfl (by omega) hm

theorem median_congr (a b c : Nat) (m : Nat → α) (x y : Nat) (hx : o.lo ≤ x) (hy : y ≤ o.hi)
    (ha : x ≤ a ∧ a < y) (hb : x ≤ b ∧ b < y) (hc : x ≤ c ∧ c < y) (hm : Within S x y m) :
    median lt o a b c m = median lt' o a b c m := by
  have sa := hm a ha.1 ha.2
  have sb := hm b hb.1 hb.2
  have sc := hm c hc.1 hc.2
  unfold median
  simp only [o.rd_eq m a ⟨by omega, by omega⟩, o.rd_eq m b ⟨by omega, by omega⟩,
    o.rd_eq m c ⟨by omega, by omega⟩, Option.bind_eq_bind, Option.bind_some,
    hA _ _ sa sb, hA _ _ sb sc, hA _ _ sa sc, hA _ _ sc sb]

theorem partitionLoop_congr (k : α) (hk : S k) (a e : Nat) (hlo : o.lo ≤ a) (hhi : e ≤ o.hi) :
    ∀ (left p q : Nat) (m : Nat → α), a ≤ p → p ≤ q → q + left = e → Within S a e m →
    partitionLoop lt o k left p q m = partitionLoop lt' o k left p q m := by
  intro left
  induction left with
  | zero => intros; rfl
  | succ left ih =>
    intro p q m hap hpq hqe hm
    unfold partitionLoop
    rw [o.rd_eq m q ⟨by omega, by omega⟩]
    simp only [Option.bind_eq_bind, Option.bind_some]
    rw [o.swap_eq m p q ⟨by omega, by omega⟩ ⟨by omega, by omega⟩, hA _ _ (hm q (by omega) (by omega)) hk]
    simp only [Option.bind_some]
    rw [ih (p + 1) (q + 1) (swapped m p q) (by omega) (by omega) (by omega)
      (hm.perm (swapped_perm m a e p q ⟨by omega, by omega⟩ ⟨by omega, by omega⟩)),
      ih p (q + 1) m hap (by omega) (by omega) hm]

theorem partition_congr (a b : Nat) (m : Nat → α) (hab : a < b) (hlo : o.lo ≤ a) (hhi : b ≤ o.hi)
    (hm : Within S a b m) : partition lt o a b m = partition lt' o a b m := by
  unfold partition
  rw [if_neg (by omega), if_neg (by omega)]
  dsimp only
  rw [median_congr o hA a (b - 1) ((b - a) / 2 + a) m a b hlo hhi ⟨le_rfl, hab⟩
    ⟨by omega, by omega⟩ ⟨by omega, by omega⟩ hm]
  obtain ⟨m₁, e1, e2⟩ := median_eq lt' o a (b - 1) ((b - a) / 2 + a) m a b hlo hhi ⟨le_rfl, hab⟩
    ⟨by omega, by omega⟩ ⟨by omega, by omega⟩
  simp only [Option.bind_eq_bind, e1, Option.bind_some]
  rw [o.rd_eq m₁ (b - 1) ⟨by omega, by omega⟩]
  simp only [Option.bind_some]
  have h1 := hm.perm e2
  rw [partitionLoop_congr o hA (m₁ (b - 1)) (h1 _ (by omega) (by omega)) a (b - 1) hlo (by omega)
    (b - 1 - a) a a m₁ le_rfl le_rfl (by omega) (h1.sub le_rfl (by omega))]

theorem introRec_congr (N : Nat) (hN : 1 ≤ N) : ∀ (depth a b intro : Nat) (m : Nat → α), a ≤ b → o.lo ≤ a →
    b ≤ o.hi → b - a + 1 < depth + N ∧ 0 < depth → Within S a b m →
    introRec lt o N depth a b intro m = introRec lt' o N depth a b intro m := by
  intro depth
  induction depth with
  | zero => intros; rfl
  | succ depth ih =>
    intro a b intro m hab hlo hhi hd hm
    unfold introRec
    by_cases hn : b - a < N
    · simp only [if_pos hn]
      exact insertionSort_congr o hA a b hab hlo hhi m hm
    · simp only [if_neg hn]
      rw [partition_congr o hA a b m (by omega) hlo hhi hm]
      obtain ⟨p, m₁, e1, e2, e3, e4, _, _⟩ := partition_eq lt' o a b m (by omega) hlo hhi
      simp only [Option.bind_eq_bind, e1, Option.bind_some]
      have h1 := hm.perm e4
      rw [ih (p + 1) b (intro / 2) m₁ (by omega) (by omega) hhi (by omega) (h1.sub (by omega) le_rfl)]
      obtain ⟨m₂, f1, f2⟩ := introRec_any lt' o N hN depth (p + 1) b (intro / 2) m₁ (by omega) (by omega) hhi
        (by omega)
      rw [f1]
      simp only [Option.bind_some]
      exact ih a p (intro / 2) m₂ e2 hlo (by omega) (by omega)
        ((h1.perm (f2.mono (by omega) (by omega) le_rfl)).sub le_rfl (by omega))

theorem introSort_congr (N : Nat) (hN : 1 ≤ N) (depth a b : Nat) (m : Nat → α)
    (hlo : o.lo ≤ a) (hhi : b ≤ o.hi) (hd : b - a < depth + N ∧ 0 < depth) (hm : Within S a b m) :
    introSort lt o N depth a b m = introSort lt' o N depth a b m := by
  unfold introSort
  by_cases hlt : a < b
  · rw [if_pos hlt, if_pos hlt]
    by_cases hn : b - a < N
    · simp only [if_pos hn]
      exact insertionSort_congr o hA a b (by omega) hlo hhi m hm
    · simp only [if_neg hn]
      rw [partition_congr o hA a b m (by omega) hlo hhi hm]
      obtain ⟨p, m₁, e1, e2, e3, e4, _, _⟩ := partition_eq lt' o a b m (by omega) hlo hhi
      simp only [Option.bind_eq_bind, e1, Option.bind_some]
      have h1 := hm.perm e4
      rw [introRec_congr o hA N hN depth a p (b - a) m₁ e2 hlo (by omega) (by omega)
        (h1.sub le_rfl (by omega))]
      obtain ⟨m₂, f1, f2⟩ := introRec_any lt' o N hN depth a p (b - a) m₁ e2 hlo (by omega) (by omega)
      rw [f1]
      simp only [Option.bind_some]
      exact introRec_congr o hA N hN depth (p + 1) b (b - a) m₂ (by omega) (by omega) hhi (by omega)
        ((h1.perm (f2.mono le_rfl e2 (by omega))).sub (by omega) le_rfl)
  · rw [if_neg hlt, if_neg hlt]

end Sorting

namespace Heap

variable (lt lt' : α → α → Bool) (o : Obj)

theorem heapRaise_any (size : Nat) (item : α) (m : Nat → α) (n : Nat) (hn : n < size) (hlo : o.lo = 0)
    (hhi : size ≤ o.hi) :
    ∃ m', heapRaise lt o item m n = some m' ∧ PermOn 0 size (upd m n item) m' := by
  induction n using Nat.strong_induction_on generalizing m with
  | _ n ih =>
    unfold heapRaise
    by_cases h0 : n > 0
    · have hp : (n - 1) / 2 ≠ n := by omega
      rw [dif_pos h0]
      dsimp only
      rw [o.rd_eq m _ ⟨by omega, by omega⟩]
      simp only [Option.bind_eq_bind, Option.bind_some]
      rw [o.wr_eq _ _ _ ⟨by omega, by omega⟩, o.wr_eq _ _ _ ⟨by omega, by omega⟩]
      simp only [Option.bind_some]
      split
      · obtain ⟨m', h1, h2⟩ := ih ((n - 1) / 2) (by omega) (upd m n (m ((n - 1) / 2))) (by omega)
        refine ⟨m', h1, PermOn.trans ?_ h2⟩
        rw [upd_upd_swap m n ((n - 1) / 2) item hp.symm]
        exact swapped_perm _ 0 size n _ ⟨by omega, hn⟩ ⟨by omega, by omega⟩
      · exact ⟨_, rfl, PermOn.refl _ _ _⟩
    · rw [dif_neg h0, o.wr_eq _ _ _ ⟨by omega, by omega⟩]
      exact ⟨_, rfl, PermOn.refl _ _ _⟩

theorem pickChild_any (size : Nat) (m : Nat → α) (n : Nat) (hp : n * 2 + 1 < size)
    (hlo : o.lo = 0) (hhi : size ≤ o.hi) :
    ∃ p, pickChild lt o size m (n * 2 + 1) = some p ∧ n < p ∧ p < size := by
  unfold pickChild
  by_cases hs : n * 2 + 1 + 1 < size
  · rw [if_pos hs, o.rd_eq m _ ⟨by omega, by omega⟩, o.rd_eq m _ ⟨by omega, by omega⟩]
    by_cases hl : lt (m (n * 2 + 1 + 1)) (m (n * 2 + 1)) = true
    · exact ⟨n * 2 + 1 + 1, by simp [hl], by omega, hs⟩
    · exact ⟨n * 2 + 1, by simp [hl], by omega, by omega⟩
  · rw [if_neg hs]
    exact ⟨n * 2 + 1, rfl, by omega, by omega⟩

theorem heapLower_any (size : Nat) (item : α) (m : Nat → α) (n : Nat) (hn : n < size) (hlo : o.lo = 0)
    (hhi : size ≤ o.hi) :
    ∃ m', heapLower lt o size item m n = some m' ∧ PermOn 0 size (upd m n item) m' := by
  generalize hk : size - n = k
  induction k using Nat.strong_induction_on generalizing m n with
  | _ k ih =>
    unfold heapLower
    by_cases hs : n * 2 + 1 ≥ size
    · rw [if_pos hs, o.wr_eq _ _ _ ⟨by omega, by omega⟩]
      exact ⟨_, rfl, PermOn.refl _ _ _⟩
    · rw [if_neg hs]
      obtain ⟨p, e1, e2, e3⟩ := pickChild_any lt o size m n (by omega) hlo hhi
      rw [e1]
      dsimp only
      rw [o.rd_eq m p ⟨by omega, by omega⟩]
      dsimp only
      rw [o.wr_eq _ _ _ ⟨by omega, by omega⟩, o.wr_eq _ _ _ ⟨by omega, by omega⟩]
      dsimp only
      split
      · exact ⟨_, rfl, PermOn.refl _ _ _⟩
      · rw [dif_pos ⟨e2, hn⟩]
        have hnp : n ≠ p := by omega
        obtain ⟨m', h1, h3⟩ := ih (size - p) (by omega) (upd m n (m p)) p e3 rfl
        refine ⟨m', h1, PermOn.trans ?_ h3⟩
        rw [upd_upd_swap m n p item hnp]
        exact swapped_perm _ 0 size n p ⟨by omega, hn⟩ ⟨by omega, e3⟩

theorem enqueue_any (N : Nat) (q : Pq α) (x : α) (hs : q.size < N) :
    ∃ q', enqueue lt N x q = some (true, q') ∧ content q' = x ::ₘ content q ∧ q'.size = q.size + 1 := by
  obtain ⟨m', h1, h3⟩ := heapRaise_any lt ⟨0, N⟩ (q.size + 1) x q.data q.size (by omega) rfl
    (by simp; omega)
  refine ⟨⟨q.size + 1, m'⟩, ?_, ?_, rfl⟩
  · unfold enqueue
    rw [if_pos hs, h1]; rfl
  · unfold content
    have := h3.1
    rw [slice_snoc (upd q.data q.size x) 0 q.size (by omega), upd_same] at this
    rw [Multiset.coe_eq_coe.mpr this]
    rw [slice_congr _ q.data 0 q.size (fun i _ hi => upd_ne _ _ _ _ (by omega))]
    rw [Multiset.cons_coe, Multiset.coe_eq_coe]
    exact List.perm_append_singleton _ _

theorem dequeue_any (N : Nat) (hN : N < 2 ^ 64) (q : Pq α) (hsz : q.size ≤ N) (hs : 0 < q.size) :
    ∃ x q', dequeue lt N q = some (x, q') ∧ content q = x ::ₘ content q' ∧ q'.size + 1 = q.size := by
  have hmod : (q.size + (2 ^ 64 - 1)) % 2 ^ 64 = q.size - 1 := by omega
  unfold dequeue
  rw [Obj.rd_eq _ _ _ ⟨Nat.le_refl _, by simp; omega⟩, hmod]
  simp only [Option.bind_eq_bind, Option.bind_some]
  by_cases h1 : q.size - 1 > 0
  · rw [if_pos h1, Obj.rd_eq _ _ _ ⟨Nat.zero_le _, by simp; omega⟩]
    simp only [Option.bind_some]
    obtain ⟨m', e1, e3⟩ := heapLower_any lt ⟨0, N⟩ (q.size - 1) (q.data (q.size - 1)) q.data 0
      h1 rfl (by simp; omega)
    rw [e1]
    refine ⟨_, _, rfl, ?_, by simp; omega⟩
    unfold content
    rw [Multiset.coe_eq_coe.mpr e3.1]
    clear hmod e1 e3 hN
    rw [slice_cons _ 0 (q.size - 1) h1, upd_same]
    have ec : slice (upd q.data 0 (q.data (q.size - 1))) (0 + 1) (q.size - 1) =
        slice q.data (0 + 1) (q.size - 1) :=
      slice_congr _ _ _ _ (fun i hi _ => upd_ne _ _ _ _ (by omega))
    rw [ec]
    have e : slice q.data 0 q.size =
        q.data 0 :: (slice q.data (0 + 1) (q.size - 1) ++ [q.data (q.size - 1)]) := by
      rw [slice_cons _ 0 q.size hs, ← slice_snoc _ _ _ (by omega),
        show q.size - 1 + 1 = q.size by omega]
    rw [e, ← Multiset.cons_coe, Multiset.cons_inj_right, Multiset.coe_eq_coe]
    exact List.perm_append_singleton _ _
  · rw [if_neg h1]
    refine ⟨_, _, rfl, ?_, by simp; omega⟩
    unfold content
    have : q.size = 1 := by omega
    rw [this, slice_cons _ 0 1 (by omega)]
    simp [slice]

/-! ### comparisons that agree -/

variable {lt lt'} {S : α → Prop} (hA : Agree S lt lt')
include hA

theorem heapRaise_congr (item : α) (hi : S item) (m : Nat → α) (n : Nat) (hlo : o.lo = 0)
    (hhi : n < o.hi) (hm : Within S 0 n m) : heapRaise lt o item m n = heapRaise lt' o item m n := by
  induction n using Nat.strong_induction_on generalizing m with
  | _ n ih =>
    unfold heapRaise
    by_cases h0 : n > 0
    · rw [dif_pos h0, dif_pos h0]
      dsimp only
      rw [o.rd_eq m _ ⟨by omega, by omega⟩]
      simp only [Option.bind_eq_bind, Option.bind_some]
      rw [o.wr_eq _ _ _ ⟨by omega, by omega⟩, hA _ _ hi (hm _ (by omega) (by omega))]
      simp only [Option.bind_some]
      rw [ih ((n - 1) / 2) (by omega) _ (by omega)]
      intro i h1 h2
      rw [upd_ne _ _ _ _ (by omega)]; exact hm i h1 (by omega)
    · rw [dif_neg h0, dif_neg h0]

theorem pickChild_congr (size : Nat) (m : Nat → α) (n : Nat) (hp : n * 2 + 1 < size)
    (hlo : o.lo = 0) (hhi : size ≤ o.hi) (hm : ∀ i, n < i → i < size → S (m i)) :
    pickChild lt o size m (n * 2 + 1) = pickChild lt' o size m (n * 2 + 1) := by
  unfold pickChild
  by_cases hs : n * 2 + 1 + 1 < size
  · rw [if_pos hs, if_pos hs, o.rd_eq m _ ⟨by omega, by omega⟩, o.rd_eq m _ ⟨by omega, by omega⟩]
    simp only [Option.bind_eq_bind, Option.bind_some]
    rw [hA _ _ (hm _ (by omega) hs) (hm _ (by omega) (by omega))]
  · rw [if_neg hs, if_neg hs]

theorem heapLower_congr (size : Nat) (item : α) (hi : S item) (m : Nat → α) (n : Nat) (hn : n < size)
    (hlo : o.lo = 0) (hhi : size ≤ o.hi) (hm : ∀ i, n < i → i < size → S (m i)) :
    heapLower lt o size item m n = heapLower lt' o size item m n := by
  generalize hk : size - n = k
  induction k using Nat.strong_induction_on generalizing m n with
  | _ k ih =>
    unfold heapLower
    by_cases hs : n * 2 + 1 ≥ size
    · rw [if_pos hs, if_pos hs]
    · rw [if_neg hs, if_neg hs, pickChild_congr o hA size m n (by omega) hlo hhi hm]
      obtain ⟨p, e1, e2, e3⟩ := pickChild_any lt' o size m n (by omega) hlo hhi
      rw [e1]
      dsimp only
      rw [o.rd_eq m p ⟨by omega, by omega⟩]
      dsimp only
      rw [o.wr_eq _ _ _ ⟨by omega, by omega⟩, o.wr_eq _ _ _ ⟨by omega, by omega⟩, hA _ _ hi (hm p e2 e3)]
      dsimp only
      split
      · rfl
      · rw [dif_pos ⟨e2, hn⟩, dif_pos ⟨e2, hn⟩]
        apply ih (size - p) (by omega) (upd m n (m p)) p e3 _ rfl
        intro i h1 h2
        rw [upd_ne _ _ _ _ (by omega)]; exact hm i (by omega) h2

theorem step_congr (N : Nat) (hN : N < 2 ^ 64) (q : Pq α) (op : Op α) (hsz : q.size ≤ N)
    (hd : (depth N q.size [op]).isSome) (ho : op.In S) (hq : Within S 0 q.size q.data) :
    step lt N q op = step lt' N q op := by
  cases op with
  | enqueue x =>
    simp only [step, enqueue]
    by_cases hs : q.size < N
    · rw [if_pos hs, if_pos hs, heapRaise_congr ⟨0, N⟩ hA x ho q.data q.size rfl hs hq]
    · rw [if_neg hs, if_neg hs]
  | dequeue =>
    have hs : 0 < q.size := by
      by_contra hc
      have : q.size = 0 := by omega
      simp [depth, this] at hd
    have hmod : (q.size + (2 ^ 64 - 1)) % 2 ^ 64 = q.size - 1 := by omega
    simp only [step, dequeue]
    rw [Obj.rd_eq _ _ _ ⟨Nat.le_refl _, by simp; omega⟩, hmod]
    simp only [Option.bind_eq_bind, Option.bind_some]
    by_cases h1 : q.size - 1 > 0
    · rw [if_pos h1, if_pos h1, Obj.rd_eq _ _ _ ⟨Nat.zero_le _, by simp; omega⟩]
      simp only [Option.bind_some]
      rw [heapLower_congr ⟨0, N⟩ hA (q.size - 1) (q.data (q.size - 1)) (hq _ (by omega) (by omega)) q.data 0
        h1 rfl (by simp; omega) (fun i _ h2 => hq i (by omega) (by omega))]
    · rw [if_neg h1, if_neg h1]

end Heap
end CE
