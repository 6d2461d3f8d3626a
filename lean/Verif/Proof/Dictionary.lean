import Verif.Spec.Dictionary
import Mathlib.Tactic.ByContra
namespace CE.Dictionary

variable {K V : Type} [DecidableEq K] (ge : K → K → Bool) (N : Nat)

theorem upd_ne {β : Type} (m : Nat → β) (i j : Nat) (x : β) (h : j ≠ i) : upd m i x j = m j := by
  simp [upd, h]
theorem upd_same {β : Type} (m : Nat → β) (i : Nat) (x : β) : upd m i x i = x := by simp [upd]

theorem rdName_eq (d : Dict K V) (i : Nat) (h : i < N) : rdName N d i = some (d.names i) := by
  simp [rdName, Obj.rd, h]

/-- the linear scan gives the first match -/
theorem linearScan_eq (d : Dict K V) (n : K) (left i : Nat) (h : i + left ≤ N) :
    ∃ p, linearScan N d n left i = some p ∧
      ((i ≤ p ∧ p < i + left ∧ d.names p = n ∧ ∀ j, i ≤ j → j < p → d.names j ≠ n) ∨
       (p = 0 ∧ ∀ j, i ≤ j → j < i + left → d.names j ≠ n)) := by
  induction left generalizing i with
  | zero => exact ⟨0, rfl, .inr ⟨rfl, fun j h1 h2 => by omega⟩⟩
  | succ left ih =>
    unfold linearScan
    rw [rdName_eq N d i (by omega)]
    simp only [Option.bind_eq_bind, Option.bind_some]
    by_cases hn : d.names i = n
    · rw [if_pos hn]
      exact ⟨i, rfl, .inl ⟨Nat.le_refl _, by omega, hn, fun j h1 h2 => by omega⟩⟩
    · rw [if_neg hn]
      obtain ⟨p, e1, e2⟩ := ih (i + 1) (by omega)
      refine ⟨p, e1, ?_⟩
      rcases e2 with ⟨h1, h2, h3, h4⟩ | ⟨h1, h2⟩
      · refine .inl ⟨by omega, by omega, h3, fun j h5 h6 => ?_⟩
        by_cases hj : j = i
        · subst hj; exact hn
        · exact h4 j (by omega) h6
      · refine .inr ⟨h1, fun j h5 h6 => ?_⟩
        by_cases hj : j = i
        · subst hj; exact hn
        · exact h2 j (by omega) (by omega)

theorem heapScan_none (d : Dict K V) (n : K) (i : Nat) (h : d.heap ≤ i) :
    heapScan ge N d n i = some 0 := by
  unfold heapScan; rw [dif_neg (by omega)]

/-- invariant of a dictionary used through `bind` -/
structure Inv (k0 : K) (d : Dict K V) (σ : Abs K V) : Prop where
  cap : 2 ≤ N
  heap : d.heap = 0
  zero : d.names 0 = k0
  le : d.size ≤ N
  size : (d.size = 0 ∧ σ.count = 0) ∨ (2 ≤ d.size ∧ σ.count + 1 = d.size)
  ne : ∀ i, 1 ≤ i → i < d.size → d.names i ≠ k0
  inj : ∀ i j, 1 ≤ i → i < d.size → 1 ≤ j → j < d.size → d.names i = d.names j → i = j
  handle : ∀ n p, σ.handle n = some p ↔ 1 ≤ p ∧ p < d.size ∧ d.names p = n
  value : ∀ n p, σ.handle n = some p → d.data p = σ.value p

theorem find_eq (k0 : K) (d : Dict K V) (σ : Abs K V) (h : Inv N k0 d σ) (n : K) (hn : n ≠ k0) :
    find ge N d n = some ((σ.handle n).getD 0) := by
  have hle := h.le
  unfold find
  rw [heapScan_none ge N d n 1 (by rw [h.heap]; omega), h.heap]
  simp only [Option.bind_eq_bind, Option.bind_some, ne_eq, not_true_eq_false, if_false, Nat.sub_zero]
  obtain ⟨p, e1, e2⟩ := linearScan_eq N d n d.size 0 (by omega)
  rw [e1]
  congr 1
  rcases e2 with ⟨_, h2, h3, _⟩ | ⟨h1, h2⟩
  · have hp : p ≠ 0 := by rintro rfl; rw [h.zero] at h3; exact hn h3.symm
    rw [(h.handle n p).mpr ⟨by omega, by omega, h3⟩]; rfl
  · cases hh : σ.handle n with
    | none => exact h1
    | some q =>
      obtain ⟨a, b, c⟩ := (h.handle n q).mp hh
      exact absurd c (h2 q (by omega) (by omega))

theorem step_sim (k0 : K) (d : Dict K V) (σ : Abs K V) (h : Inv N k0 d σ) (op : Op K V)
    (hav : op.Avoids k0) (hp : Pre σ op) :
    ∃ r d' σ', step ge N d op = some (r, d') ∧ SpecStep N σ op r σ' ∧ Inv N k0 d' σ' := by
  have hle := h.le
  have hcap := h.cap
  have hlt : ∀ n p, σ.handle n = some p → p < N := fun n p hh => by
    have := (h.handle n p).mp hh; omega
  have chk : ∀ n p, σ.handle n = some p → check d p = some () := fun n p hh => by
    have := (h.handle n p).mp hh
    exact if_pos ⟨by omega, this.2.1⟩
  have wrOk : ∀ n p v, σ.handle n = some p →
      Inv N k0 { d with data := upd d.data p v } { σ with value := upd σ.value p v } := by
    intro n p v hh
    refine ⟨h.cap, h.heap, h.zero, h.le, h.size, h.ne, h.inj, h.handle, fun m q hq => ?_⟩
    show upd d.data p v q = upd σ.value p v q
    by_cases hqp : q = p
    · subst hqp; rw [upd_same, upd_same]
    · rw [upd_ne _ _ _ _ hqp, upd_ne _ _ _ _ hqp]; exact h.value m q hq
  cases op with
  | find n =>
    have hf := find_eq ge N k0 d σ h n hav
    cases hh : σ.handle n with
    | none => exact ⟨_, _, _, by simp only [step, hf, hh]; rfl, .findNil n hh, h⟩
    | some p => exact ⟨_, _, _, by simp only [step, hf, hh]; rfl, .find n p hh, h⟩
  | bind n v =>
    have hf := find_eq ge N k0 d σ h n hav
    cases hh : σ.handle n with
    | some p =>
      refine ⟨.ptr p, _, _, ?_, .rebind n v p hh, wrOk n p v hh⟩
      have := (h.handle n p).mp hh
      have hpN := hlt n p hh
      simp only [step, bind, hf, hh, Option.getD_some, Option.bind_eq_bind, Option.bind_some]
      rw [if_neg (by omega)]
      simp [Obj.wr, hpN]
    | none =>
      by_cases hfull : d.size ≥ N
      · refine ⟨.ptr 0, _, _, ?_, .bindFull n v hh (by rcases h.size with h | h <;> omega), h⟩
        simp only [step, bind, hf, hh, Option.getD_none, Option.bind_eq_bind, Option.bind_some]
        simp [hfull]
      · generalize hi : d.size + (if d.size = 0 then 1 else 0) = i
        have hi1 : i = σ.count + 1 ∧ i < N ∧ d.size ≤ i ∧ (i = d.size ∨ (d.size = 0 ∧ i = 1)) := by
          rcases h.size with h | h
          · rw [if_pos h.1] at hi; omega
          · rw [if_neg (by omega)] at hi; omega
        have hnew : ∀ n', σ.handle n' ≠ some i := by
          intro n' hc
          have := (h.handle n' i).mp hc; omega
        have hold : ∀ q, 1 ≤ q → q < i → q < d.size := by
          intro q h1 h2; omega
        have hnn : ∀ q, 1 ≤ q → q < d.size → d.names q ≠ n := by
          intro q h1 h2 he
          have := (h.handle n q).mpr ⟨h1, h2, he⟩
          rw [hh] at this; cases this
        refine ⟨.ptr i, ⟨i + 1, upd d.data i v, d.heap, upd d.names i n⟩, _, ?_,
          .bind n v i hh (by omega) (by omega) (by omega) hnew, ?_⟩
        · simp only [step, bind, hf, hh, Option.getD_none, Option.bind_eq_bind, Option.bind_some]
          rw [if_pos trivial, if_neg hfull, hi]
          simp [Obj.wr, hi1.2.1]
        · have hnames : ∀ q, q ≠ i → upd d.names i n q = d.names q := fun q hq => upd_ne _ _ _ _ hq
          refine ⟨hcap, h.heap, ?_, ?_, .inr ⟨?_, ?_⟩, ?_, ?_, ?_, ?_⟩
          · show upd d.names i n 0 = k0
            rw [hnames 0 (by omega)]; exact h.zero
          · show i + 1 ≤ N; omega
          · show 2 ≤ i + 1; omega
          · show σ.count + 1 + 1 = i + 1; omega
          · intro q h1 h2
            show upd d.names i n q ≠ k0
            by_cases hq : q = i
            · subst hq; rw [upd_same]; exact hav
            · rw [hnames q hq]; exact h.ne q h1 (hold q h1 (by dsimp only at h2; omega))
          · intro a b ha1 ha2 hb1 hb2 hab
            change upd d.names i n a = upd d.names i n b at hab
            dsimp only at ha2 hb2
            by_cases ha : a = i
            · by_cases hb : b = i
              · omega
              · rw [ha, upd_same, hnames b hb] at hab
                exact absurd hab.symm (hnn b hb1 (hold b hb1 (by omega)))
            · by_cases hb : b = i
              · rw [hb, upd_same, hnames a ha] at hab
                exact absurd hab (hnn a ha1 (hold a ha1 (by omega)))
              · rw [hnames a ha, hnames b hb] at hab
                exact h.inj a b ha1 (hold a ha1 (by omega)) hb1 (hold b hb1 (by omega)) hab
          · intro m q
            show Abs.upd σ.handle n (some i) m = some q ↔ 1 ≤ q ∧ q < i + 1 ∧ upd d.names i n q = m
            unfold Abs.upd
            by_cases hq : q = i
            · subst hq
              rw [upd_same]
              by_cases hm : m = n
              · subst hm; simp; omega
              · rw [if_neg hm]
                exact ⟨fun hc => absurd hc (hnew m), fun hc => absurd hc.2.2.symm hm⟩
            · rw [hnames q hq]
              by_cases hm : m = n
              · subst hm
                rw [if_pos rfl]
                constructor
                · intro hc; simp at hc; exact absurd hc.symm hq
                · rintro ⟨h1, h2, h3⟩
                  exact absurd h3 (hnn q h1 (hold q h1 (by omega)))
              · rw [if_neg hm, h.handle m q]
                constructor
                · rintro ⟨h1, h2, h3⟩; exact ⟨h1, by omega, h3⟩
                · rintro ⟨h1, h2, h3⟩; exact ⟨h1, hold q h1 (by omega), h3⟩
          · intro m q hq
            show upd d.data i v q = upd σ.value i v q
            by_cases hqi : q = i
            · subst hqi; rw [upd_same, upd_same]
            · rw [upd_ne _ _ _ _ hqi, upd_ne _ _ _ _ hqi]
              change Abs.upd σ.handle n (some i) m = some q at hq
              unfold Abs.upd at hq
              split at hq
              · simp at hq; exact absurd hq.symm hqi
              · exact h.value m q hq
  | get p =>
    obtain ⟨n, hn⟩ := hp
    have hc := chk n p hn
    refine ⟨_, _, _, ?_, .get n p hn, h⟩
    simp only [step, get, hc, Obj.rd, Nat.zero_le, true_and, if_pos (hlt n p hn), h.value n p hn]; rfl
  | put p v =>
    obtain ⟨n, hn⟩ := hp
    have hc := chk n p hn
    refine ⟨_, _, _, ?_, .put n p v hn, wrOk n p v hn⟩
    simp only [step, put, hc, Obj.wr, Nat.zero_le, true_and, if_pos (hlt n p hn)]; rfl
  | getName n =>
    have hf := find_eq ge N k0 d σ h n hav
    cases hh : σ.handle n with
    | none => simp [Pre, hh] at hp
    | some p =>
      have hc := chk n p hh
      refine ⟨_, _, _, ?_, .getName n p hh, h⟩
      simp only [step, getName, hf, hh, Option.getD_some, get, hc, Obj.rd, Nat.zero_le, true_and,
        if_pos (hlt n p hh), h.value n p hh, Option.bind_eq_bind, Option.bind_some]; rfl

/-- two subtrees of one node cover its subtree -/
theorem inSubtree_split (i j : Nat) (h : InSubtree i j) :
    j = i ∨ InSubtree (2 * i) j ∨ InSubtree (2 * i + 1) j := by
  obtain ⟨k, hk⟩ := h
  cases k with
  | zero => left; simpa using hk
  | succ k =>
    right
    rw [Nat.pow_succ, ← Nat.div_div_eq_div_mul] at hk
    have : j / 2 ^ k = 2 * i ∨ j / 2 ^ k = 2 * i + 1 := by omega
    rcases this with h | h
    · exact .inl ⟨k, h⟩
    · exact .inr ⟨k, h⟩

theorem inSubtree_ge (i j : Nat) (h : InSubtree i j) : i ≤ j := by
  obtain ⟨k, rfl⟩ := h
  exact Nat.div_le_self _ _

/-- every node is in the tree rooted at 1 -/
theorem inSubtree_root (j : Nat) (h : 1 ≤ j) : InSubtree 1 j := by
  induction j using Nat.strongRecOn with
  | _ j ih =>
    by_cases hj : j = 1
    · subst hj; exact ⟨0, by simp⟩
    · obtain ⟨k, hk⟩ := ih (j / 2) (by omega) (by omega)
      refine ⟨k + 1, ?_⟩
      rw [Nat.pow_succ, Nat.mul_comm, ← Nat.div_div_eq_div_mul]; exact hk

theorem heapScan_eq (lt : K → K → Prop) (hge : ∀ a b, ge a b = true ↔ ¬ lt a b)
    (hasym : ∀ a b, lt a b → ¬ lt b a)
    (d : Dict K V) (hN : d.heap ≤ N) (ht : SearchTree lt d) (n : K) (i : Nat) (hi : 1 ≤ i)
    (hin : ∀ j, 1 ≤ j → j < d.heap → d.names j = n → InSubtree i j) :
    ∃ p, heapScan ge N d n i = some p ∧
      ((1 ≤ p ∧ p < d.heap ∧ d.names p = n) ∨ (p = 0 ∧ ∀ j, 1 ≤ j → j < d.heap → d.names j ≠ n)) := by
  generalize hm : d.heap - i = m
  induction m using Nat.strongRecOn generalizing i with
  | _ m ih =>
    unfold heapScan
    by_cases h : i < d.heap
    · rw [dif_pos ⟨h, hi⟩, rdName_eq N d i (by omega)]
      dsimp only
      by_cases hn : d.names i = n
      · rw [if_pos hn]; exact ⟨i, rfl, .inl ⟨hi, h, hn⟩⟩
      · rw [if_neg hn]
        refine ih _ ?_ (i + (i + (ge (d.names i) n).toNat)) (by omega) ?_ rfl
        · omega
        · intro j h1 h2 h3
          have hs := ht i j hi h h2
          rcases inSubtree_split i j (hin j h1 h2 h3) with rfl | h4 | h4
          · exact absurd h3 hn
          · have := hs.2 h4
            rw [h3] at this
            have hg : ge (d.names i) n = false := by
              by_contra hc
              exact (hge _ _).mp (by simpa using hc) this
            rw [hg]
            have e : i + (i + false.toNat) = 2 * i := by simp; omega
            rw [e]; exact h4
          · have := hs.1 h4
            rw [h3] at this
            have hg : ge (d.names i) n = true := (hge _ _).mpr (hasym _ _ this)
            rw [hg]
            have e : i + (i + true.toNat) = 2 * i + 1 := by simp; omega
            rw [e]; exact h4
    · rw [dif_neg (by omega)]
      refine ⟨0, rfl, .inr ⟨rfl, fun j h1 h2 h3 => ?_⟩⟩
      have := inSubtree_ge i j (hin j h1 h2 h3)
      omega

end CE.Dictionary
