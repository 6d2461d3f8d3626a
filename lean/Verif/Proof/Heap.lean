import Verif.Spec.Heap
import Verif.Proof.Sort
import Mathlib.Data.Multiset.Basic
namespace CE.Heap

variable {α : Type} (lt : α → α → Bool) (o : Obj)

/-- no element of `[0, size)` is less than its parent -/
def IsHeap (size : Nat) (m : Nat → α) : Prop :=
  ∀ i, 0 < i → i < size → lt (m i) (m ((i - 1) / 2)) = false

theorem heap_min (h : StrictWeak lt) (size : Nat) (m : Nat → α) (hm : IsHeap lt size m) (i : Nat)
    (hi : i < size) : lt (m i) (m 0) = false := by
  induction i using Nat.strong_induction_on with
  | _ i ih =>
    rcases Nat.eq_zero_or_pos i with rfl | h0
    · exact h.irrefl _
    · have h1 := hm i h0 hi
      have h2 := ih ((i - 1) / 2) (by omega) (by omega)
      by_contra hc
      rcases h.negtrans (m i) (m 0) (m ((i - 1) / 2)) (by simpa using hc) with h' | h'
      · rw [h1] at h'; exact absurd h' (by simp)
      · rw [h2] at h'; exact absurd h' (by simp)

theorem upd_same (m : Nat → α) (i : Nat) (x : α) : upd m i x i = x := by simp [upd]
theorem upd_ne (m : Nat → α) (i j : Nat) (x : α) (h : j ≠ i) : upd m i x j = m j := by simp [upd, h]

/-- the intermediate state of `heap_raise`, with the item put in the hole -/
structure RaiseInv (size n : Nat) (v : Nat → α) : Prop where
  heap : ∀ i, 0 < i → i < size → i ≠ n → lt (v i) (v ((i - 1) / 2)) = false
  grand : ∀ i, 0 < i → i < size → (i - 1) / 2 = n → 0 < n → lt (v i) (v ((n - 1) / 2)) = false

theorem raise_swap (h : StrictWeak lt) (size n : Nat) (v : Nat → α) (hn : 0 < n) (hns : n < size)
    (inv : RaiseInv lt size n v) (hlt : lt (v n) (v ((n - 1) / 2)) = true) :
    RaiseInv lt size ((n - 1) / 2) (swapped v n ((n - 1) / 2)) := by
  have hp : (n - 1) / 2 ≠ n := by omega
  generalize hpd : (n - 1) / 2 = p at *
  have sn : swapped v n p n = v p := by simp [swapped, upd, hp.symm]
  have sp : swapped v n p p = v n := by simp [swapped, upd]
  have so : ∀ i, i ≠ n → i ≠ p → swapped v n p i = v i := fun i h1 h2 => by
    simp [swapped, upd, h1, h2]
  constructor
  · intro i h0 hi hip
    by_cases hin : i = n
    · subst hin
      rw [sn, hpd, sp]; exact h.asymm _ _ hlt
    · rw [so i hin hip]
      by_cases hpn : (i - 1) / 2 = n
      · rw [hpn, sn]
        have := inv.grand i h0 hi hpn hn
        rwa [hpd] at this
      · by_cases hpp : (i - 1) / 2 = p
        · rw [hpp, sp]
          have := inv.heap i h0 hi hin
          rw [hpp] at this
          by_contra hc
          have := h.trans _ _ _ (by simpa using hc) hlt
          simp_all
        · rw [so _ hpn hpp]; exact inv.heap i h0 hi hin
  · intro i h0 hi hip hp0
    have hpp : (p - 1) / 2 ≠ p := by omega
    have hpn : (p - 1) / 2 ≠ n := by omega
    rw [so _ hpn hpp]
    have hp' := inv.heap p hp0 (by omega) hp
    by_cases hin : i = n
    · subst hin; rw [sn]; exact hp'
    · rw [so i hin (by omega)]
      have := inv.heap i h0 hi hin
      rw [hip] at this
      by_contra hc
      rcases h.negtrans (v i) (v ((p - 1) / 2)) (v p) (by simpa using hc) with h' | h'
      · rw [this] at h'; exact absurd h' (by simp)
      · rw [hp'] at h'; exact absurd h' (by simp)

theorem upd_upd_swap (m : Nat → α) (n p : Nat) (x : α) (h : n ≠ p) :
    upd (upd m n (m p)) p x = swapped (upd m n x) n p := by
  funext i
  unfold swapped upd
  by_cases h1 : i = p
  · subst h1; simp
  · by_cases h2 : i = n
    · subst h2; simp [h1, Ne.symm h]
    · simp [h1, h2]

theorem heapRaise_eq (h : StrictWeak lt) (size : Nat) (item : α) (m : Nat → α) (n : Nat)
    (hn : n < size) (hlo : o.lo = 0) (hhi : size ≤ o.hi) (inv : RaiseInv lt size n (upd m n item)) :
    ∃ m', heapRaise lt o item m n = some m' ∧ IsHeap lt size m' ∧ PermOn 0 size (upd m n item) m' := by
  induction n using Nat.strong_induction_on generalizing m with
  | _ n ih =>
    unfold heapRaise
    by_cases h0 : n > 0
    · have hp : (n - 1) / 2 ≠ n := by omega
      rw [dif_pos h0]
      dsimp only
      rw [o.rd_eq m _ ⟨by omega, by omega⟩]
      simp only [Option.bind_eq_bind, Option.bind_some]
      rw [o.wr_eq _ _ _ ⟨by omega, by omega⟩, o.wr_eq _ _ _ ⟨by omega, by omega⟩]
      simp only [Option.bind_some]
      by_cases hlt : lt item (m ((n - 1) / 2)) = true
      · rw [if_pos hlt]
        have e := upd_upd_swap m n ((n - 1) / 2) item hp.symm
        have inv' := raise_swap lt h size n _ h0 hn inv
          (by rw [upd_same, upd_ne _ _ _ _ hp]; exact hlt)
        rw [← e] at inv'
        obtain ⟨m', h1, h2, h3⟩ := ih ((n - 1) / 2) (by omega) (upd m n (m ((n - 1) / 2)))
          (by omega) inv'
        refine ⟨m', h1, h2, PermOn.trans ?_ h3⟩
        rw [e]
        exact swapped_perm _ 0 size n _ ⟨by omega, hn⟩ ⟨by omega, by omega⟩
      · rw [if_neg hlt]
        refine ⟨_, rfl, ?_, PermOn.refl _ _ _⟩
        intro i hi hi'
        by_cases hin : i = n
        · subst hin
          rw [upd_same, upd_ne _ _ _ _ hp]; simpa using hlt
        · exact inv.heap i hi hi' hin
    · rw [dif_neg h0, o.wr_eq _ _ _ ⟨by omega, by omega⟩]
      refine ⟨_, rfl, ?_, PermOn.refl _ _ _⟩
      intro i hi hi'
      exact inv.heap i hi hi' (by omega)

/-- the intermediate state of `heap_lower`, with the item put in the hole -/
structure LowerInv (size n : Nat) (v : Nat → α) : Prop where
  heap : ∀ i, 0 < i → i < size → (i - 1) / 2 ≠ n → lt (v i) (v ((i - 1) / 2)) = false
  grand : ∀ i, 0 < i → i < size → (i - 1) / 2 = n → 0 < n → lt (v i) (v ((n - 1) / 2)) = false

theorem pickChild_eq (h : StrictWeak lt) (size : Nat) (m : Nat → α) (n : Nat) (hp : n * 2 + 1 < size)
    (hlo : o.lo = 0) (hhi : size ≤ o.hi) :
    ∃ p, pickChild lt o size m (n * 2 + 1) = some p ∧ n < p ∧ p < size ∧ (p - 1) / 2 = n ∧
      ∀ i, 0 < i → i < size → (i - 1) / 2 = n → lt (m i) (m p) = false := by
  unfold pickChild
  by_cases hs : n * 2 + 1 + 1 < size
  · rw [if_pos hs, o.rd_eq m _ ⟨by omega, by omega⟩, o.rd_eq m _ ⟨by omega, by omega⟩]
    by_cases hl : lt (m (n * 2 + 1 + 1)) (m (n * 2 + 1)) = true
    · refine ⟨n * 2 + 1 + 1, by simp [hl], by omega, hs, by omega, ?_⟩
      intro i h0 hi hin
      have : i = n * 2 + 1 ∨ i = n * 2 + 1 + 1 := by omega
      rcases this with rfl | rfl
      · exact h.asymm _ _ hl
      · exact h.irrefl _
    · refine ⟨n * 2 + 1, by simp [hl], by omega, by omega, by omega, ?_⟩
      intro i h0 hi hin
      have : i = n * 2 + 1 ∨ i = n * 2 + 1 + 1 := by omega
      rcases this with rfl | rfl
      · exact h.irrefl _
      · simpa using hl
  · rw [if_neg hs]
    refine ⟨n * 2 + 1, rfl, by omega, by omega, by omega, ?_⟩
    intro i h0 hi hin
    have : i = n * 2 + 1 := by omega
    subst this
    exact h.irrefl _

theorem heapLower_eq (h : StrictWeak lt) (size : Nat) (item : α) (m : Nat → α) (n : Nat)
    (hn : n < size) (hlo : o.lo = 0) (hhi : size ≤ o.hi) (inv : LowerInv lt size n (upd m n item)) :
    ∃ m', heapLower lt o size item m n = some m' ∧ IsHeap lt size m' ∧
      PermOn 0 size (upd m n item) m' := by
  generalize hk : size - n = k
  induction k using Nat.strong_induction_on generalizing m n with
  | _ k ih =>
    unfold heapLower
    by_cases hs : n * 2 + 1 ≥ size
    · rw [if_pos hs, o.wr_eq _ _ _ ⟨by omega, by omega⟩]
      refine ⟨_, rfl, ?_, PermOn.refl _ _ _⟩
      intro i hi hi'
      exact inv.heap i hi hi' (by omega)
    · rw [if_neg hs]
      obtain ⟨p, e1, e2, e3, e4, e5⟩ := pickChild_eq lt o h size m n (by omega) hlo hhi
      rw [e1]
      dsimp only
      rw [o.rd_eq m p ⟨by omega, by omega⟩]
      dsimp only
      rw [o.wr_eq _ _ _ ⟨by omega, by omega⟩, o.wr_eq _ _ _ ⟨by omega, by omega⟩]
      dsimp only
      by_cases hlt : lt item (m p) = true
      · rw [if_pos hlt]
        refine ⟨_, rfl, ?_, PermOn.refl _ _ _⟩
        intro i hi hi'
        by_cases hin : (i - 1) / 2 = n
        · rw [hin, upd_same, upd_ne _ _ _ _ (by omega)]
          have := e5 i hi hi' hin
          by_contra hc
          have := h.trans _ _ _ (by simpa using hc) hlt
          simp_all
        · exact inv.heap i hi hi' hin
      · rw [if_neg hlt, dif_pos ⟨e2, hn⟩]
        have hnp : n ≠ p := by omega
        have e := upd_upd_swap m n p item hnp
        have inv' : LowerInv lt size p (upd (upd m n (m p)) p item) := by
          rw [e]
          have sn : swapped (upd m n item) n p n = m p := by
            simp [swapped, upd, hnp, hnp.symm]
          have sp : swapped (upd m n item) n p p = item := by simp [swapped, upd]
          have so : ∀ i, i ≠ n → i ≠ p → swapped (upd m n item) n p i = m i := fun i h1 h2 => by
            simp [swapped, upd, h1, h2]
          constructor
          · intro i h0 hi hip
            by_cases hin : i = n
            · subst hin
              rw [sn, so _ (by omega) hip]
              have := inv.grand p (by omega) e3 e4 h0
              rwa [upd_ne _ _ _ _ (by omega), upd_ne _ _ _ _ (by omega)] at this
            · by_cases hip' : i = p
              · subst hip'
                rw [sp, e4, sn]; simpa using hlt
              · rw [so i hin hip']
                by_cases hpn : (i - 1) / 2 = n
                · rw [hpn, sn]; exact e5 i h0 hi hpn
                · rw [so _ hpn hip]
                  have := inv.heap i h0 hi hpn
                  rwa [upd_ne _ _ _ _ hin, upd_ne _ _ _ _ hpn] at this
          · intro i h0 hi hip hp0
            rw [e4, sn, so i (by omega) (by omega)]
            have := inv.heap i h0 hi (by omega)
            rwa [upd_ne _ _ _ _ (by omega), upd_ne _ _ _ _ (by omega), hip] at this
        obtain ⟨m', h1, h2, h3⟩ := ih (size - p) (by omega) (upd m n (m p)) p e3 inv' rfl
        refine ⟨m', h1, h2, PermOn.trans ?_ h3⟩
        rw [e]
        exact swapped_perm _ 0 size n p ⟨by omega, hn⟩ ⟨by omega, e3⟩

/-- content of the queue -/
def content (q : Pq α) : Multiset α := (slice q.data 0 q.size : List α)

/-- invariant of the queue -/
structure Inv (N : Nat) (q : Pq α) : Prop where
  size : q.size ≤ N
  heap : IsHeap lt q.size q.data

theorem card_content (q : Pq α) : Multiset.card (content q) = q.size := by
  simp [content, slice_length]

theorem enqueue_eq (h : StrictWeak lt) (N : Nat) (q : Pq α) (inv : Inv lt N q) (x : α) (hs : q.size < N) :
    ∃ q', enqueue lt N x q = some (true, q') ∧ Inv lt N q' ∧ content q' = x ::ₘ content q ∧
      q'.size = q.size + 1 := by
  have hr : RaiseInv lt (q.size + 1) q.size (upd q.data q.size x) := by
    constructor
    · intro i h0 hi hin
      rw [upd_ne _ _ _ _ hin, upd_ne _ _ _ _ (by omega)]
      exact inv.heap i h0 (by omega)
    · intro i h0 hi hin _; omega
  obtain ⟨m', h1, h2, h3⟩ := heapRaise_eq lt ⟨0, N⟩ h (q.size + 1) x q.data q.size (by omega) rfl
    (by simp; omega) hr
  refine ⟨⟨q.size + 1, m'⟩, ?_, ⟨by simp; omega, h2⟩, ?_, rfl⟩
  · unfold enqueue
    rw [if_pos hs, h1]; rfl
  · unfold content
    have := h3.1
    rw [slice_snoc (upd q.data q.size x) 0 q.size (by omega), upd_same] at this
    rw [Multiset.coe_eq_coe.mpr this]
    rw [slice_congr _ q.data 0 q.size (fun i _ hi => upd_ne _ _ _ _ (by omega))]
    rw [Multiset.cons_coe, Multiset.coe_eq_coe]
    exact List.perm_append_singleton _ _

theorem dequeue_eq (h : StrictWeak lt) (N : Nat) (hN : N < 2 ^ 64) (q : Pq α) (inv : Inv lt N q)
    (hs : 0 < q.size) :
    ∃ x q', dequeue lt N q = some (x, q') ∧ Inv lt N q' ∧ content q = x ::ₘ content q' ∧
      x = q.data 0 ∧ q'.size + 1 = q.size := by
  have hsz := inv.size
  have hmod : (q.size + (2 ^ 64 - 1)) % 2 ^ 64 = q.size - 1 := by omega
  unfold dequeue
  rw [Obj.rd_eq _ _ _ ⟨Nat.le_refl _, by simp; omega⟩, hmod]
  simp only [Option.bind_eq_bind, Option.bind_some]
  by_cases h1 : q.size - 1 > 0
  · rw [if_pos h1, Obj.rd_eq _ _ _ ⟨Nat.zero_le _, by simp; omega⟩]
    simp only [Option.bind_some]
    have hl : LowerInv lt (q.size - 1) 0 (upd q.data 0 (q.data (q.size - 1))) := by
      constructor
      · intro i h0 hi hin
        rw [upd_ne _ _ _ _ (by omega), upd_ne _ _ _ _ hin]
        exact inv.heap i h0 (by omega)
      · intro i _ _ _ h0; omega
    obtain ⟨m', e1, e2, e3⟩ := heapLower_eq lt ⟨0, N⟩ h (q.size - 1) (q.data (q.size - 1)) q.data 0
      h1 rfl (by simp; omega) hl
    rw [e1]
    refine ⟨_, _, rfl, ⟨by simp; omega, e2⟩, ?_, rfl, by simp; omega⟩
    unfold content
    rw [Multiset.coe_eq_coe.mpr e3.1]
    clear hmod e1 e2 e3 hl hN
    rw [slice_cons _ 0 (q.size - 1) h1, upd_same]
    have ec : slice (upd q.data 0 (q.data (q.size - 1))) (0 + 1) (q.size - 1) =
        slice q.data (0 + 1) (q.size - 1) :=
      slice_congr _ _ _ _ (fun i hi _ => upd_ne _ _ _ _ (by omega))
    rw [ec]
    have e : slice q.data 0 q.size =
        q.data 0 :: (slice q.data (0 + 1) (q.size - 1) ++ [q.data (q.size - 1)]) := by
      rw [slice_cons _ 0 q.size hs, ← slice_snoc _ _ _ (by omega),
        show q.size - 1 + 1 = q.size by omega]
    rw [e, ← Multiset.cons_coe, Multiset.cons_inj_right, Multiset.coe_eq_coe]
    exact List.perm_append_singleton _ _
  · rw [if_neg h1]
    refine ⟨_, _, rfl, ⟨by simp; omega, ?_⟩, ?_, rfl, by simp; omega⟩
    · intro i h0 hi; simp at hi; omega
    · unfold content
      have : q.size = 1 := by omega
      rw [this, slice_cons _ 0 1 (by omega)]
      simp [slice]

end CE.Heap
