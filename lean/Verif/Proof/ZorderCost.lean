import Mathlib.Data.Nat.Size
import Mathlib.Algebra.Order.BigOperators.Group.Finset
import Verif.Model.ZorderCost
import Verif.Spec.ZorderCost
import Verif.Proof.ZorderCorners
/-!
# The cost of `z_query`
-/
namespace CE.ZorderCost
open CE.Zorder

/-! ### the second result changes nothing -/

theorem lowerLoop_fst (data : Nat → Nat) (z : Nat) : ∀ n a, (lowerLoop data z a n).1 = CE.Zorder.lowerLoop data z a n := by
  intro n
  induction n using Nat.strongRecOn with
  | _ n ih =>
    intro a
    rw [lowerLoop, CE.Zorder.lowerLoop]
    by_cases h : n > 0
    · rw [dif_pos h, dif_pos h]
      dsimp only
      by_cases hd : data (a + n / 2) < z
      · rw [if_pos hd, if_pos hd, ih _ (by omega)]
      · rw [if_neg hd, if_neg hd, ih _ (by omega)]
    · rw [dif_neg h, dif_neg h]

theorem queryLoop_fst (data : Nat → Nat) (last : Nat) : ∀ n i b, last - i ≤ n →
    (queryLoop data last i b).map (·.1) = CE.Zorder.queryLoop data last i b := by
  intro n
  induction n with
  | zero =>
    intro i b h
    rw [queryLoop, CE.Zorder.queryLoop, dif_neg (by omega), dif_neg (by omega)]; rfl
  | succ n ih =>
    intro i b h
    rw [queryLoop, CE.Zorder.queryLoop]
    by_cases hl : i < last
    · rw [dif_pos hl, dif_pos hl]
      dsimp only
      cases popTo (data i) b.lo b.hi b.stack with
      | none => rfl
      | some b =>
        dsimp only
        cases look (data i) 64 b with
        | overflow => rfl
        | jump b =>
          dsimp only
          have e : (lowerBound data (i + 1) last b.lo).1 = CE.Zorder.lowerBound data (i + 1) last b.lo := lowerLoop_fst _ _ _ _
          rw [Option.map_map, ← ih _ _ (by omega), e]; rfl
        | emit b =>
          dsimp only
          rw [← ih _ _ (by omega), Option.map_map, Option.map_map]; rfl
    · rw [dif_neg hl, dif_neg hl]; rfl

theorem query_fst (lo hi size : Nat) (data : Nat → Nat) :
    (query lo hi size data).map (·.1) = CE.Zorder.query lo hi size data := by
  unfold query CE.Zorder.query
  dsimp only
  have e : (lowerBound data 0 size (add64 hi 0xffff)).1 = CE.Zorder.lowerBound data 0 size (add64 hi 0xffff) := lowerLoop_fst _ _ _ _
  rw [Option.map_map, ← queryLoop_fst data _ _ _ _ (le_refl _), e]; rfl

/-! ### reads of one search -/

theorem lowerLoop_reads (data : Nat → Nat) (z : Nat) : ∀ n a, (lowerLoop data z a n).2 ≤ Nat.size n := by
  intro n
  induction n using Nat.strongRecOn with
  | _ n ih =>
    intro a
    rw [lowerLoop]
    by_cases h : n > 0
    · rw [dif_pos h]
      dsimp only
      have hs : Nat.size (n / 2) + 1 ≤ Nat.size n := by
        have : 2 ^ Nat.size (n / 2) ≤ n ∨ n / 2 = 0 := by
          by_cases h0 : n / 2 = 0
          · exact Or.inr h0
          · left
            have h1 : Nat.size (n / 2) ≠ 0 := fun h => h0 (Nat.size_eq_zero.1 h)
            have h2 : 2 ^ (Nat.size (n / 2) - 1) ≤ n / 2 := Nat.lt_size.1 (by omega)
            have h3 : 2 ^ Nat.size (n / 2) = 2 ^ (Nat.size (n / 2) - 1) * 2 := by
              rw [← Nat.pow_succ]; congr 1; omega
            omega
        rcases this with h1 | h1
        · exact Nat.lt_size.2 h1
        · rw [h1, Nat.size_zero]
          exact Nat.lt_size.2 (by rw [Nat.pow_zero]; exact h)
      by_cases hd : data (a + n / 2) < z
      · rw [if_pos hd]
        have h1 := ih (n - (n / 2 + 1)) (by omega) (a + n / 2 + 1)
        have h2 : Nat.size (n - (n / 2 + 1)) ≤ Nat.size (n / 2) := Nat.size_le_size (by omega)
        omega
      · rw [if_neg hd]
        have h1 := ih (n / 2) (by omega) a
        omega
    · rw [dif_neg h]; exact Nat.zero_le _

/-! ### every lower corner is the beginning of a run -/

/-- what is kept about a box with corners `p`, in a query from `lo0` to the cell `H` -/
def Good (lo0 H : Nat) (p : Nat × Nat) : Prop :=
  Enters (cell lo0) H (cell p.1) ∧ p.1 = max lo0 (cell p.1 * 2 ^ 16) ∧ InBox (cell lo0) H (cell p.2) ∧
    ∀ d, cell p.1 ≤ d → d ≤ cell p.2 → InBox (cell lo0) H d → InBox (cell p.1) (cell p.2) d

theorem popTo_mem {z : Nat} : ∀ {S lo hi b}, popTo z lo hi S = some b →
    ∀ p ∈ (b.lo, b.hi) :: b.stack, p ∈ (lo, hi) :: S := by
  intro S
  induction S with
  | nil =>
    intro lo hi b h
    rw [popTo] at h
    split at h
    · cases h
    · cases h; exact fun p hp => hp
  | cons q S ih =>
    obtain ⟨l, u⟩ := q
    intro lo hi b h
    rw [popTo] at h
    split at h
    · exact fun p hp => List.mem_cons_of_mem _ (ih h p hp)
    · cases h; exact fun p hp => hp

theorem look_good {z lo0 H : Nat} : ∀ {fuel S lo hi}, WF2 lo hi S → (∀ p ∈ (lo, hi) :: S, Good lo0 H p) → ∀ b,
    (look z fuel ⟨lo, hi, S⟩ = .jump b ∨ look z fuel ⟨lo, hi, S⟩ = .emit b) →
      ∀ p ∈ (b.lo, b.hi) :: b.stack, Good lo0 H p := by
  intro fuel
  induction fuel with
  | zero => intro S lo hi _ _ b h; rcases h with h | h <;> cases h
  | succ fuel ih =>
    intro S lo hi hw hg b h
    rw [look] at h
    dsimp only at h
    have hlo64 := hw.ok.1
    have hhi64 : hi < 2 ^ 64 := Nat.lt_of_le_of_lt (Nat.le_add_right _ _) hw.ok.2.1
    by_cases hlo : z < lo
    · rw [if_pos hlo] at h
      rcases h with h | h <;> cases h
      exact hg
    · rw [if_neg hlo] at h
      by_cases hLH : cell lo = cell hi
      · rw [split_any_same hlo64 hhi64 hLH] at h
        simp only [Bool.false_eq_true, if_false] at h
        rcases h with h | h <;> cases h
        exact hg
      · obtain ⟨J, I, P, hs, hh, hP, hab⟩ := split_cells hw.ok.valid hLH
        rw [split_any hlo64 hhi64 hLH, hs] at h
        dsimp only at h
        have hlt := hh.lt
        have hJ : OkBox lo (J * 2 ^ 16) := by
          refine ⟨hlo64, ?_, by rw [cell_mul]; exact hh.v1.2.2.1, by rw [cell_mul]; exact hh.v1.2.2.2⟩
          rw [← add_low hh.v1.2.1]
          exact Nat.mod_lt _ (by norm_num)
        have hI : OkBox (I * 2 ^ 16) hi :=
          ⟨up_lt hh.v2.1, hw.ok.2.1, by rw [cell_mul]; exact hh.v2.2.2.1, by rw [cell_mul]; exact hh.v2.2.2.2⟩
        by_cases hgo : J + 1 < I
        · rw [if_pos (by simpa using hgo)] at h
          obtain ⟨g1, g2, g3, g4⟩ := hg _ List.mem_cons_self
          dsimp only at g1 g2 g3 g4
          have hJlo := InBox.ge hh.j_in
          have hIhi := InBox.le hh.i_in
          have gI : Good lo0 H (I * 2 ^ 16, hi) := by
            refine ⟨⟨?_, Or.inr ?_⟩, ?_, g3, ?_⟩
            · dsimp only; rw [cell_mul]; exact InBox.trans g1.1 g3 hh.i_in
            · dsimp only
              rw [cell_mul]
              intro hc
              have := g4 (I - 1) (by omega) (by omega) hc
              rcases (hh.cover _).1 this with h1 | h1
              · have := InBox.le h1; omega
              · have := InBox.ge h1; omega
            · dsimp only
              rw [cell_mul]
              have h1 := InBox.ge g1.1
              unfold cell at h1 hJlo
              omega
            · dsimp only
              rw [cell_mul]
              intro d h1 h2 h3
              rcases (hh.cover d).1 (g4 d (by omega) h2 h3) with h4 | h4
              · have := InBox.le h4; omega
              · exact h4
          have gJ : Good lo0 H (lo, J * 2 ^ 16) := by
            refine ⟨g1, g2, ?_, ?_⟩
            · dsimp only; rw [cell_mul]; exact InBox.trans g1.1 g3 hh.j_in
            · dsimp only
              rw [cell_mul]
              intro d h1 h2 h3
              rcases (hh.cover d).1 (g4 d h1 (by omega) h3) with h4 | h4
              · exact h4
              · have := InBox.ge h4; omega
          have gS : ∀ p ∈ S, Good lo0 H p := fun p hp => hg p (List.mem_cons_of_mem _ hp)
          by_cases hz : z > add64 (J * 2 ^ 16) 0xffff
          · rw [if_pos hz] at h
            refine ih (hw.lo hI) (fun p hp => ?_) b h
            rcases List.mem_cons.1 hp with rfl | hp
            · exact gI
            · exact gS p hp
          · rw [if_neg hz] at h
            have hwf : WF2 lo (J * 2 ^ 16) ((I * 2 ^ 16, hi) :: S) :=
              ⟨hJ, by rw [cell_mul, cell_mul]; exact hlt, hw.lo hI⟩
            by_cases hcap : S.length < 32
            · rw [if_pos hcap] at h
              refine ih hwf (fun p hp => ?_) b h
              rcases List.mem_cons.1 hp with rfl | hp
              · exact gJ
              · rcases List.mem_cons.1 hp with rfl | hp
                · exact gI
                · exact gS p hp
            · rw [if_neg hcap] at h
              rcases h with h | h <;> cases h
        · rw [if_neg (by simpa using hgo)] at h
          rcases h with h | h <;> cases h
          exact hg

theorem enters_mem {L H c : Nat} (h : Enters L H c) : c ∈ entries L H := by
  unfold entries
  rw [Finset.mem_filter, Finset.mem_range]
  exact ⟨by have := InBox.le h.1; omega, h⟩

/-- beginnings of runs still ahead of the code `z` -/
def ahead (lo0 H z : Nat) : Finset Nat := (entries (cell lo0) H).filter fun e => z < max lo0 (e * 2 ^ 16)

theorem ahead_mono {lo0 H z z' : Nat} (h : z ≤ z') : (ahead lo0 H z').card ≤ (ahead lo0 H z).card := by
  apply Finset.card_le_card
  intro e he
  unfold ahead at *
  rw [Finset.mem_filter] at *
  exact ⟨he.1, by omega⟩

theorem ahead_lt {lo0 H z z' c : Nat} (hc : c ∈ entries (cell lo0) H) (h1 : z < max lo0 (c * 2 ^ 16))
    (h2 : max lo0 (c * 2 ^ 16) ≤ z') : (ahead lo0 H z').card < (ahead lo0 H z).card := by
  apply Finset.card_lt_card
  rw [Finset.ssubset_iff_of_subset]
  · refine ⟨c, ?_, ?_⟩
    · unfold ahead; rw [Finset.mem_filter]; exact ⟨hc, h1⟩
    · unfold ahead; rw [Finset.mem_filter]; intro h; have := h.2; omega
  · intro e he
    unfold ahead at *
    rw [Finset.mem_filter] at *
    exact ⟨he.1, Nat.lt_of_le_of_lt (Nat.le_of_lt (Nat.lt_of_lt_of_le h1 h2)) he.2⟩

theorem queryLoop_cost {data : Nat → Nat} {lo0 H last size : Nat} (hsort : Sorted data last) (hsize : last ≤ size) :
    ∀ n i, last - i ≤ n → ∀ {lo hi S}, WF2 lo hi S → (∀ p ∈ (lo, hi) :: S, Good lo0 H p) →
      ∀ m, (i < last → (ahead lo0 H (data i)).card ≤ m) → ∀ q, queryLoop data last i ⟨lo, hi, S⟩ = some q →
        q.2 ≤ q.1.length + 1 + m * (Nat.size size + 1) := by
  intro n
  induction n with
  | zero =>
    intro i hi lo hi S _ _ m _ q hq
    rw [queryLoop, dif_neg (by omega)] at hq
    cases hq
    exact Nat.zero_le _
  | succ n ih =>
    intro i hn lo hi S hw hg m hm q hq
    rw [queryLoop] at hq
    by_cases hl : i < last
    · rw [dif_pos hl] at hq
      dsimp only at hq
      cases hpop : popTo (data i) lo hi S with
      | none =>
        rw [hpop] at hq
        cases hq
        dsimp only [List.length_nil]
        omega
      | some b1 =>
        rw [hpop] at hq
        dsimp only at hq
        obtain ⟨hw1, hz1, -, -⟩ := (popTo_any (z := data i) hw).2 b1 hpop
        have hg1 : ∀ p ∈ (b1.lo, b1.hi) :: b1.stack, Good lo0 H p := fun p hp => hg p (popTo_mem hpop p hp)
        obtain ⟨lo1, hi1, S1⟩ := b1
        dsimp only at hw1 hz1 hg1
        have hla := look_any (z := data i) (fuel := 64) hw1 hz1
        have hlg := look_good (z := data i) (lo0 := lo0) (H := H) (fuel := 64) hw1 hg1
        cases hlk : look (data i) 64 ⟨lo1, hi1, S1⟩ with
        | overflow => rw [hlk] at hq; cases hq
        | jump b2 =>
          rw [hlk] at hq
          dsimp only at hq
          obtain ⟨hw2, hz2, -, -⟩ := hla.2.1 b2 hlk
          have hg2 := hlg b2 (Or.inl hlk)
          obtain ⟨lo2, hi2, S2⟩ := b2
          dsimp only at hw2 hz2 hg2 hq
          rw [Option.map_eq_some_iff] at hq
          obtain ⟨q', hq', rfl⟩ := hq
          obtain ⟨k1, k2, -, -⟩ := hg2 _ List.mem_cons_self
          dsimp only at k1 k2 ⊢
          have hr := lowerLoop_reads data lo2 (last - (i + 1)) (i + 1)
          have hr2 : Nat.size (last - (i + 1)) ≤ Nat.size size := Nat.size_le_size (by omega)
          have hlb := lowerLoop_spec (data := data) (z := lo2) (last - (i + 1)) (i + 1)
            (fun a b h1 h2 => hsort a b h1 (by omega))
          unfold lowerBound at hq' ⊢
          rw [← lowerLoop_fst] at hlb
          generalize lowerLoop data lo2 (i + 1) (last - (i + 1)) = r at *
          rw [show max (i + 1) r.1 = r.1 by omega] at hq'
          have hpos : 1 ≤ (ahead lo0 H (data i)).card := by
            apply Finset.card_pos.2
            exact ⟨cell lo2, by unfold ahead; rw [Finset.mem_filter]; exact ⟨enters_mem k1, by omega⟩⟩
          have hm1 := hm hl
          have := ih r.1 (by omega) hw2 hg2 (m - 1) (fun hrl => by
            have h3 := hlb.2.2.2 r.1 (le_refl _) (by omega)
            have h4 := ahead_lt (z := data i) (z' := data r.1) (enters_mem k1) (by omega) (by omega)
            omega) q' hq'
          obtain ⟨m', rfl⟩ : ∃ m', m = m' + 1 := ⟨m - 1, by omega⟩
          rw [Nat.add_sub_cancel] at this
          have e : (m' + 1) * (Nat.size size + 1) = m' * (Nat.size size + 1) + Nat.size size + 1 := by ring
          rw [e]
          omega
        | emit b2 =>
          rw [hlk] at hq
          dsimp only at hq
          obtain ⟨hw2, -, -⟩ := hla.2.2 b2 hlk
          have hg2 := hlg b2 (Or.inr hlk)
          obtain ⟨lo2, hi2, S2⟩ := b2
          dsimp only at hw2 hg2 hq
          rw [Option.map_eq_some_iff] at hq
          obtain ⟨q', hq', rfl⟩ := hq
          have := ih (i + 1) (by omega) hw2 hg2 m (fun hrl =>
            Nat.le_trans (ahead_mono (hsort i (i + 1) (by omega) hrl)) (hm hl)) q' hq'
          dsimp only [List.length_cons]
          omega
    · rw [dif_neg hl] at hq
      cases hq
      exact Nat.zero_le _

theorem query_cost {data : Nat → Nat} {lo hi size : Nat} (hsort : Sorted data size) (ho : OkBox lo hi) {q : List Nat × Nat}
    (h : query lo hi size data = some q) :
    q.2 ≤ q.1.length + 1 + Nat.size size + (entries (cell lo) (cell hi)).card * (Nat.size size + 1) := by
  unfold query at h
  dsimp only at h
  rw [Option.map_eq_some_iff] at h
  obtain ⟨q', hq', rfl⟩ := h
  have hr := lowerLoop_reads data (add64 hi 0xffff) (size - 0) 0
  have hlb := lowerLoop_spec (data := data) (z := add64 hi 0xffff) (size - 0) 0 (fun a b h1 h2 => hsort a b h1 (by omega))
  unfold lowerBound at hq' ⊢
  rw [← lowerLoop_fst] at hlb
  rw [Nat.sub_zero] at *
  generalize lowerLoop data (add64 hi 0xffff) 0 size = r at *
  have hv := ho.valid
  have := queryLoop_cost (lo0 := lo) (H := cell hi) (size := size) (fun i j a b => hsort i j a (by omega)) (by omega) _ 0 (le_refl _)
    (S := []) ho (fun p hp => by
      rw [List.mem_singleton] at hp
      subst hp
      refine ⟨⟨⟨le_refl _, hv.2.2.1, le_refl _, hv.2.2.2⟩, ?_⟩, ?_, ⟨hv.2.2.1, le_refl _, hv.2.2.2, le_refl _⟩, fun d _ _ h => h⟩
      · by_cases h0 : cell lo = 0
        · exact Or.inl h0
        · right
          intro hc
          have := InBox.ge hc
          dsimp only at this
          omega
      · dsimp only; unfold cell; omega) (entries (cell lo) (cell hi)).card (fun _ => Finset.card_le_card (Finset.filter_subset _ _)) q' hq'
  dsimp only
  omega

/-! ### how many runs a rectangle has -/

/-- coordinates of the predecessor -/
theorem pred_coords (c : Nat) (hc : 0 < c) : ∃ j,
    (cx c = cx (c - 1) + 1 ∧ 2 ^ j ∣ cx c ∧ ¬ 2 ^ (j + 1) ∣ cx c ∧ 2 ^ j ∣ cy c ∧ cy (c - 1) + 1 = cy c + 2 ^ j) ∨
    (cy c = cy (c - 1) + 1 ∧ 2 ^ j ∣ cy c ∧ ¬ 2 ^ (j + 1) ∣ cy c ∧ 2 ^ (j + 1) ∣ cx c ∧ cx (c - 1) + 1 = cx c + 2 ^ (j + 1)) := by
  induction c using Nat.strongRecOn with
  | _ c ih =>
    have x1 := cx_eq c
    have y1 := cy_eq c
    have x2 := cx_eq (c - 1)
    have y2 := cy_eq (c - 1)
    obtain h | h | h | h : c % 4 = 0 ∨ c % 4 = 1 ∨ c % 4 = 2 ∨ c % 4 = 3 := by omega
    · obtain ⟨j, hj⟩ := ih (c / 4) (by omega) (by omega)
      rw [show (c - 1) / 4 = c / 4 - 1 by omega] at x2 y2
      rw [show c % 2 = 0 by omega] at x1
      rw [show c / 2 % 2 = 0 by omega] at y1
      rw [show (c - 1) % 2 = 1 by omega] at x2
      rw [show (c - 1) / 2 % 2 = 1 by omega] at y2
      have dbl : ∀ k a, 2 ^ (k + 1) ∣ 2 * a + 0 ↔ 2 ^ k ∣ a := by
        intro k a
        rw [Nat.add_zero, Nat.pow_succ, Nat.mul_comm (2 ^ k) 2]
        exact Nat.mul_dvd_mul_iff_left (by omega)
      refine ⟨j + 1, ?_⟩
      rw [x1, y1, x2, y2, dbl, dbl, dbl, dbl]
      have e : 2 ^ (j + 1) = 2 * 2 ^ j := by rw [Nat.pow_succ, Nat.mul_comm]
      have e2 : 2 ^ (j + 1 + 1) = 2 * 2 ^ (j + 1) := by rw [Nat.pow_succ, Nat.mul_comm]
      rcases hj with ⟨h1, h2, h3, h4, h5⟩ | ⟨h1, h2, h3, h4, h5⟩
      · exact Or.inl ⟨by omega, h2, h3, h4, by omega⟩
      · exact Or.inr ⟨by omega, h2, h3, h4, by omega⟩
    · rw [show (c - 1) / 4 = c / 4 by omega] at x2 y2
      rw [show c % 2 = 1 by omega] at x1
      rw [show (c - 1) % 2 = 0 by omega] at x2
      rw [show (c - 1) / 2 % 2 = c / 2 % 2 by omega] at y2
      exact ⟨0, Or.inl ⟨by omega, one_dvd _, by norm_num; omega, one_dvd _, by norm_num; omega⟩⟩
    · rw [show (c - 1) / 4 = c / 4 by omega] at x2 y2
      rw [show c % 2 = 0 by omega] at x1
      rw [show c / 2 % 2 = 1 by omega] at y1
      rw [show (c - 1) % 2 = 1 by omega] at x2
      rw [show (c - 1) / 2 % 2 = 0 by omega] at y2
      exact ⟨0, Or.inr ⟨by omega, one_dvd _, by norm_num; omega, by norm_num; omega, by norm_num; omega⟩⟩
    · rw [show (c - 1) / 4 = c / 4 by omega] at x2 y2
      rw [show c % 2 = 1 by omega] at x1
      rw [show (c - 1) % 2 = 0 by omega] at x2
      rw [show (c - 1) / 2 % 2 = c / 2 % 2 by omega] at y2
      exact ⟨0, Or.inl ⟨by omega, one_dvd _, by norm_num; omega, one_dvd _, by norm_num; omega⟩⟩

/-- the exponent of two is determined -/
theorem exact_eq {a j k : Nat} (h1 : 2 ^ j ∣ a) (h2 : ¬ 2 ^ (j + 1) ∣ a) (h3 : 2 ^ k ∣ a) (h4 : ¬ 2 ^ (k + 1) ∣ a) : j = k := by
  rcases Nat.lt_trichotomy j k with h | h | h
  · exact absurd (Nat.dvd_trans (Nat.pow_dvd_pow 2 h) h3) h2
  · exact h
  · exact absurd (Nat.dvd_trans (Nat.pow_dvd_pow 2 h) h1) h4

/-- the multiple of `m` nearest below `u` is determined -/
theorem floor_eq {a b u m : Nat} (ha : m ∣ a) (hb : m ∣ b) (h1 : a ≤ u) (h2 : u < a + m) (h3 : b ≤ u) (h4 : u < b + m) : a = b := by
  obtain ⟨s, rfl⟩ := ha
  obtain ⟨t, rfl⟩ := hb
  rcases Nat.lt_trichotomy s t with h | h | h
  · have : m * (s + 1) ≤ m * t := Nat.mul_le_mul_left m h
    rw [Nat.mul_succ] at this
    omega
  · rw [h]
  · have : m * (t + 1) ≤ m * s := Nat.mul_le_mul_left m h
    rw [Nat.mul_succ] at this
    omega

theorem card_by {E : Finset Nat} (f : Nat → Nat) (a b : Nat) (h : ∀ c ∈ E, a ≤ f c ∧ f c ≤ b)
    (hi : ∀ c ∈ E, ∀ d ∈ E, f c = f d → c = d) : E.card ≤ b + 1 - a := by
  rw [← Nat.card_Icc]
  exact Finset.card_le_card_of_injOn f (fun c hc => Finset.mem_coe.2 (Finset.mem_Icc.2 (h c hc))) (fun c hc d hd => hi c hc d hd)

/-- a run begins at the lower edge of an axis, or at the last aligned place before the upper edge of the other -/
theorem entries_card {L H : Nat} (hx : cx L ≤ cx H) (hy : cy L ≤ cy H) :
    (entries L H).card ≤ 2 * ((cx H + 1 - cx L) + (cy H + 1 - cy L)) := by
  classical
  let A (c : Nat) : Prop := ∃ j, 2 ^ j ∣ cx c ∧ ¬ 2 ^ (j + 1) ∣ cx c ∧ 2 ^ j ∣ cy c ∧ cy H < cy c + 2 ^ j
  let B (c : Nat) : Prop := ∃ j, 2 ^ j ∣ cy c ∧ ¬ 2 ^ (j + 1) ∣ cy c ∧ 2 ^ (j + 1) ∣ cx c ∧ cx H < cx c + 2 ^ (j + 1)
  have hbox : ∀ c ∈ entries L H, InBox L H c := fun c hc => (Finset.mem_filter.1 hc).2.1
  have hsub : entries L H ⊆ ((entries L H).filter (fun c => cx c = cx L) ∪ (entries L H).filter A) ∪
      ((entries L H).filter (fun c => cy c = cy L) ∪ (entries L H).filter B) := by
    intro c hc
    simp only [Finset.mem_union, Finset.mem_filter]
    have h := hbox c hc
    rcases (Finset.mem_filter.1 hc).2.2 with h0 | h0
    · subst h0
      have : cx 0 = 0 := cx_zero
      have h1 := h.1
      exact Or.inl (Or.inl ⟨hc, by omega⟩)
    · have hpos : 0 < c := by
        by_contra hz
        have : c = 0 := by omega
        subst this
        exact h0 h
      obtain ⟨b1, b2, b3, b4⟩ := h
      obtain ⟨j, ⟨h1, h2, h3, h4, h5⟩ | ⟨h1, h2, h3, h4, h5⟩⟩ := pred_coords c hpos
      · by_cases he : cx c = cx L
        · exact Or.inl (Or.inl ⟨hc, he⟩)
        · refine Or.inl (Or.inr ⟨hc, j, h2, h3, h4, ?_⟩)
          by_contra hlt
          exact h0 ⟨by omega, by omega, by have := Nat.two_pow_pos j; omega, by omega⟩
      · by_cases he : cy c = cy L
        · exact Or.inr (Or.inl ⟨hc, he⟩)
        · refine Or.inr (Or.inr ⟨hc, j, h2, h3, h4, ?_⟩)
          by_contra hlt
          exact h0 ⟨by have := Nat.two_pow_pos (j + 1); omega, by omega, by omega, by omega⟩
  have c1 : ((entries L H).filter (fun c => cx c = cx L)).card ≤ cy H + 1 - cy L := by
    refine card_by cy _ _ (fun c hc => ?_) (fun c hc d hd h => ?_)
    · have := hbox c (Finset.mem_filter.1 hc).1
      exact ⟨this.2.2.1, this.2.2.2⟩
    · exact coord_inj ((Finset.mem_filter.1 hc).2.trans (Finset.mem_filter.1 hd).2.symm) h
  have c2 : ((entries L H).filter A).card ≤ cx H + 1 - cx L := by
    refine card_by cx _ _ (fun c hc => ?_) (fun c hc d hd h => ?_)
    · have := hbox c (Finset.mem_filter.1 hc).1
      exact ⟨this.1, this.2.1⟩
    · obtain ⟨hc1, j, j1, j2, j3, j4⟩ := Finset.mem_filter.1 hc
      obtain ⟨hd1, k, k1, k2, k3, k4⟩ := Finset.mem_filter.1 hd
      rw [← h] at k1 k2
      obtain rfl := exact_eq j1 j2 k1 k2
      exact coord_inj h (floor_eq j3 k3 (hbox c hc1).2.2.2 j4 (hbox d hd1).2.2.2 k4)
  have c3 : ((entries L H).filter (fun c => cy c = cy L)).card ≤ cx H + 1 - cx L := by
    refine card_by cx _ _ (fun c hc => ?_) (fun c hc d hd h => ?_)
    · have := hbox c (Finset.mem_filter.1 hc).1
      exact ⟨this.1, this.2.1⟩
    · exact coord_inj h ((Finset.mem_filter.1 hc).2.trans (Finset.mem_filter.1 hd).2.symm)
  have c4 : ((entries L H).filter B).card ≤ cy H + 1 - cy L := by
    refine card_by cy _ _ (fun c hc => ?_) (fun c hc d hd h => ?_)
    · have := hbox c (Finset.mem_filter.1 hc).1
      exact ⟨this.2.2.1, this.2.2.2⟩
    · obtain ⟨hc1, j, j1, j2, j3, j4⟩ := Finset.mem_filter.1 hc
      obtain ⟨hd1, k, k1, k2, k3, k4⟩ := Finset.mem_filter.1 hd
      rw [← h] at k1 k2
      obtain rfl := exact_eq j1 j2 k1 k2
      exact coord_inj (floor_eq j3 k3 (hbox c hc1).2.1 j4 (hbox d hd1).2.1 k4) h
  have u1 := Finset.card_le_card hsub
  have u2 := Finset.card_union_le ((entries L H).filter (fun c => cx c = cx L) ∪ (entries L H).filter A)
    ((entries L H).filter (fun c => cy c = cy L) ∪ (entries L H).filter B)
  have u3 := Finset.card_union_le ((entries L H).filter (fun c => cx c = cx L)) ((entries L H).filter A)
  have u4 := Finset.card_union_le ((entries L H).filter (fun c => cy c = cy L)) ((entries L H).filter B)
  omega

end CE.ZorderCost
