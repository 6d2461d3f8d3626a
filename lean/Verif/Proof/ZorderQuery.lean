import Mathlib.Tactic.Ring
import Verif.Proof.Zorder
/-!
# `z_query`: what the walk over the sorted array keeps invariant
-/
namespace CE.Zorder

/-- corners of a cell box as codes -/
def up (p : Nat × Nat) : Nat × Nat := (p.1 * 2 ^ 16, p.2 * 2 ^ 16)

/-- the current box and the stacked ones are rectangles, ordered by code -/
def WF : Nat → Nat → List (Nat × Nat) → Prop
  | L, H, [] => Valid L H
  | L, H, (l, h) :: S => Valid L H ∧ H < l ∧ WF l h S

/-- a cell in one of the boxes -/
def Cov (d : Nat) : Nat → Nat → List (Nat × Nat) → Prop
  | L, H, [] => InBox L H d
  | L, H, (l, h) :: S => InBox L H d ∨ Cov d l h S

/-- the differences get smaller towards the top of the stack -/
def Lvl : Nat → Nat → List (Nat × Nat) → Prop
  | L, H, [] => L ^^^ H < 2 ^ 32
  | L, H, (l, h) :: S => S.length + 1 ≤ 32 ∧ L ^^^ H < 2 ^ (32 - (S.length + 1)) ∧ Lvl l h S

/-- all boxes have their corners in the query -/
def Within (L0 H0 : Nat) : Nat → Nat → List (Nat × Nat) → Prop
  | L, H, [] => InBox L0 H0 L ∧ InBox L0 H0 H
  | L, H, (l, h) :: S => (InBox L0 H0 L ∧ InBox L0 H0 H) ∧ Within L0 H0 l h S

theorem WF.valid {L H S} (h : WF L H S) : Valid L H := by
  cases S with
  | nil => exact h
  | cons p S => exact h.1

theorem InBox.ge {L H c : Nat} (h : InBox L H c) : L ≤ c := coord_mono h.1 h.2.2.1
theorem InBox.le {L H c : Nat} (h : InBox L H c) : c ≤ H := coord_mono h.2.1 h.2.2.2

theorem Valid.le {L H : Nat} (h : Valid L H) : L ≤ H := coord_mono h.2.2.1 h.2.2.2

/-- nothing is covered before the current box -/
theorem Cov.ge {d : Nat} : ∀ {S L H}, WF L H S → Cov d L H S → L ≤ d := by
  intro S
  induction S with
  | nil => intro L H _ h; exact InBox.ge h
  | cons p S ih =>
    intro L H hw h
    rcases h with h | h
    · exact InBox.ge h
    · have h1 := ih hw.2.2 h
      have h2 := hw.1.le
      have h3 := hw.2.1
      omega

theorem add_low {H : Nat} (h : H < 2 ^ 48) : add64 (H * 2 ^ 16) 0xffff = H * 2 ^ 16 + 0xffff := by
  unfold add64
  have h1 : H ≤ 2 ^ 48 - 1 := by omega
  have h2 : H * 2 ^ 16 ≤ (2 ^ 48 - 1) * 2 ^ 16 := Nat.mul_le_mul_right _ h1
  apply Nat.mod_eq_of_lt
  calc H * 2 ^ 16 + 0xffff ≤ (2 ^ 48 - 1) * 2 ^ 16 + 0xffff := Nat.add_le_add_right h2 _
    _ < 2 ^ 64 := by norm_num

theorem gt_hi {H z : Nat} (h : H < 2 ^ 48) : z > add64 (H * 2 ^ 16) 0xffff ↔ H < cell z := by
  rw [add_low h]; unfold cell
  have e : (H * 2 ^ 16 + 0xffff) / 2 ^ 16 = H := by
    clear h; omega
  clear h
  omega

theorem lt_lo {L z : Nat} : z < L * 2 ^ 16 ↔ cell z < L := by
  unfold cell; omega

theorem popTo_spec {z L0 H0 : Nat} : ∀ {S L H}, WF L H S →
    (popTo z (L * 2 ^ 16) (H * 2 ^ 16) (S.map up) = none → ∀ d, cell z ≤ d → ¬ Cov d L H S) ∧
    (∀ b, popTo z (L * 2 ^ 16) (H * 2 ^ 16) (S.map up) = some b → ∃ L' H' S',
      b = ⟨L' * 2 ^ 16, H' * 2 ^ 16, S'.map up⟩ ∧ WF L' H' S' ∧ cell z ≤ H' ∧
      (Lvl L H S → Lvl L' H' S') ∧ (Within L0 H0 L H S → Within L0 H0 L' H' S') ∧
      ∀ d, cell z ≤ d → (Cov d L H S ↔ Cov d L' H' S')) := by
  intro S
  induction S with
  | nil =>
    intro L H hw
    have hH := hw.valid.2.1
    rw [List.map_nil, popTo]
    by_cases hc : H < cell z
    · rw [if_pos ((gt_hi hH).2 hc)]
      refine ⟨fun _ d hd hcov => ?_, fun b hb => (by cases hb)⟩
      have := InBox.le hcov
      omega
    · rw [if_neg (fun h => hc ((gt_hi hH).1 h))]
      refine ⟨fun h => (by cases h), fun b hb => ?_⟩
      cases hb
      exact ⟨L, H, [], rfl, hw, by omega, id, id, fun d _ => Iff.rfl⟩
  | cons p S ih =>
    obtain ⟨l, h⟩ := p
    intro L H hw
    have hH := hw.valid.2.1
    rw [List.map_cons, popTo]
    by_cases hc : H < cell z
    · rw [if_pos ((gt_hi hH).2 hc)]
      have hi := ih hw.2.2
      have hcov : ∀ d, cell z ≤ d → (Cov d L H ((l, h) :: S) ↔ Cov d l h S) := by
        intro d hd
        constructor
        · rintro (h1 | h1)
          · have := InBox.le h1; omega
          · exact h1
        · exact Or.inr
      refine ⟨fun hn d hd hcv => hi.1 hn d hd ((hcov d hd).1 hcv), fun b hb => ?_⟩
      obtain ⟨L', H', S', e1, e2, e3, e4, e5, e6⟩ := hi.2 b hb
      exact ⟨L', H', S', e1, e2, e3, fun hl => e4 hl.2.2, fun hl => e5 hl.2,
        fun d hd => (hcov d hd).trans (e6 d hd)⟩
    · rw [if_neg (fun h => hc ((gt_hi hH).1 h))]
      refine ⟨fun h => by simp at h, fun b hb => ?_⟩
      cases hb
      exact ⟨L, H, (l, h) :: S, rfl, hw, by omega, id, id, fun d _ => Iff.rfl⟩

/-- why a cell may be reported -/
def Sound (L0 H0 c : Nat) : Prop :=
  ∃ L H, Valid L H ∧ InBox L0 H0 L ∧ InBox L0 H0 H ∧ L ≤ c ∧ c ≤ H ∧
    (L = H ∨ ∃ J, Valid L J ∧ Valid (J + 1) H ∧ ∀ d, InBox L H d ↔ InBox L J d ∨ InBox (J + 1) H d)

theorem Within.head {L0 H0 L H : Nat} {S} (h : Within L0 H0 L H S) : InBox L0 H0 L ∧ InBox L0 H0 H := by
  cases S with
  | nil => exact h
  | cons p S => exact h.1

theorem Within.lo {L0 H0 L H L' : Nat} {S} (h : Within L0 H0 L H S) (hl : InBox L0 H0 L') : Within L0 H0 L' H S := by
  cases S with
  | nil => exact ⟨hl, h.2⟩
  | cons p S => exact ⟨⟨hl, h.1.2⟩, h.2⟩

theorem WF.lo {L H L' : Nat} {S} (h : WF L H S) (hl : Valid L' H) : WF L' H S := by
  cases S with
  | nil => exact hl
  | cons p S => exact ⟨hl, h.2⟩

theorem Lvl.lo {L H L' : Nat} {S} (h : Lvl L H S) (hl : ∀ n, L ^^^ H < 2 ^ n → L' ^^^ H < 2 ^ n) : Lvl L' H S := by
  cases S with
  | nil => exact hl _ h
  | cons p S => exact ⟨h.1, hl _ h.2.1, h.2.2⟩

theorem Lvl.bound {L H : Nat} {S} (h : Lvl L H S) : S.length ≤ 32 ∧ L ^^^ H < 2 ^ (32 - S.length) := by
  cases S with
  | nil => exact ⟨by simp, h⟩
  | cons p S => exact ⟨by simpa using h.1, by simpa using h.2.1⟩

theorem bit_lt {a n P : Nat} (h : a < 2 ^ n) (hb : a.testBit P = true) : P < n := by
  by_contra hc
  rw [Nat.testBit_lt_two_pow (Nat.lt_of_lt_of_le h (Nat.pow_le_pow_right (by omega) (by omega)))] at hb
  cases hb

theorem InBox.trans {L0 H0 L H d : Nat} (h1 : InBox L0 H0 L) (h2 : InBox L0 H0 H) (h : InBox L H d) :
    InBox L0 H0 d := by
  unfold InBox at *; omega

theorem look_spec {z L0 H0 : Nat} : ∀ {fuel S L H}, WF L H S → cell z ≤ H →
    (look z fuel ⟨L * 2 ^ 16, H * 2 ^ 16, S.map up⟩ = .overflow → ¬ (Lvl L H S ∧ L ^^^ H < 2 ^ fuel ∧ 0 < fuel)) ∧
    (∀ b, look z fuel ⟨L * 2 ^ 16, H * 2 ^ 16, S.map up⟩ = .jump b → ∃ L' H' S',
      b = ⟨L' * 2 ^ 16, H' * 2 ^ 16, S'.map up⟩ ∧ WF L' H' S' ∧ cell z < L' ∧
      (Lvl L H S → Lvl L' H' S') ∧ (Within L0 H0 L H S → Within L0 H0 L' H' S') ∧
      ∀ d, cell z ≤ d → (Cov d L H S ↔ Cov d L' H' S')) ∧
    (∀ b, look z fuel ⟨L * 2 ^ 16, H * 2 ^ 16, S.map up⟩ = .emit b → ∃ L' H' S',
      b = ⟨L' * 2 ^ 16, H' * 2 ^ 16, S'.map up⟩ ∧ WF L' H' S' ∧
      (Lvl L H S → Lvl L' H' S') ∧ (Within L0 H0 L H S → Within L0 H0 L' H' S' ∧ Sound L0 H0 (cell z)) ∧
      ∀ d, cell z ≤ d → (Cov d L H S ↔ Cov d L' H' S')) := by
  intro fuel
  induction fuel with
  | zero =>
    intro S L H _ _
    refine ⟨fun _ h => by omega, fun b hb => (by cases hb), fun b hb => (by cases hb)⟩
  | succ fuel ih =>
    intro S L H hw hc
    rw [look]
    dsimp only
    by_cases hlo : cell z < L
    · rw [if_pos (lt_lo.2 hlo)]
      refine ⟨fun h => (by cases h), fun b hb => ?_, fun b hb => (by cases hb)⟩
      cases hb
      exact ⟨L, H, S, rfl, hw, hlo, id, id, fun d _ => Iff.rfl⟩
    · rw [if_neg (fun h => hlo (lt_lo.1 h))]
      by_cases hLH : L = H
      · subst hLH
        rw [split_same hw.valid.1]
        simp only [Bool.false_eq_true, if_false]
        refine ⟨fun h => (by cases h), fun b hb => (by cases hb), fun b hb => ?_⟩
        cases hb
        exact ⟨L, L, S, rfl, hw, id, fun h => ⟨h, L, L, hw.valid, h.head.1, h.head.1, by omega, by omega, Or.inl rfl⟩,
          fun d _ => Iff.rfl⟩
      · obtain ⟨J, I, P, hs, hh, hP, hab⟩ := split_cells hw.valid hLH
        rw [hs]
        dsimp only
        have hlt := hh.lt
        by_cases hgo : J + 1 < I
        · rw [if_pos (by simpa using hgo)]
          by_cases hz : J < cell z
          · rw [if_pos ((gt_hi hh.v1.2.1).2 hz)]
            have hi := ih (S := S) (hw.lo hh.v2) hc
            have hcov : ∀ d, cell z ≤ d → (Cov d L H S ↔ Cov d I H S) := by
              intro d hd
              have hnot : ¬ InBox L J d := fun h => by have := InBox.le h; omega
              cases S with
              | nil =>
                show InBox L H d ↔ InBox I H d
                rw [hh.cover]; tauto
              | cons p S =>
                show (InBox L H d ∨ _) ↔ (InBox I H d ∨ _)
                rw [hh.cover]; tauto
            have hlvl : Lvl L H S → Lvl I H S := fun h => h.lo (fun n hn =>
              Nat.lt_of_lt_of_le hh.x2 (Nat.pow_le_pow_right (by omega) (bit_lt hn hP).le))
            have hwi : Within L0 H0 L H S → Within L0 H0 I H S := fun h =>
              h.lo (InBox.trans h.head.1 h.head.2 hh.i_in)
            refine ⟨fun ho h => ?_, fun b hb => ?_, fun b hb => ?_⟩
            · have := bit_lt h.2.1 hP
              by_cases hf : fuel = 0
              · have hP0 : P = 0 := by omega
                have hx1 := hh.x2
                have hx2 := hh.x1
                rw [hP0] at hx1 hx2
                have e1 : I = H := Nat.xor_eq_zero_iff.1 (by omega)
                have e2 : L = J := Nat.xor_eq_zero_iff.1 (by omega)
                -- the corners differ in bit zero only
                have hx : L ^^^ H < 2 ^ 1 := by
                  have h1 := h.2.1
                  rw [hf] at h1; simpa using h1
                have hdiv : L / 2 = H / 2 := by
                  have h3 : (L ^^^ H) / 2 ^ 1 = 0 := by omega
                  rw [Nat.xor_div_two_pow] at h3
                  have := Nat.xor_eq_zero_iff.1 h3
                  simpa using this
                omega
              · exact hi.1 ho ⟨hlvl h.1, Nat.lt_of_lt_of_le hh.x2 (Nat.pow_le_pow_right (by omega) (by omega)), by omega⟩
            · obtain ⟨L', H', S', e1, e2, e3, e4, e5, e6⟩ := hi.2.1 b hb
              exact ⟨L', H', S', e1, e2, e3, e4 ∘ hlvl, e5 ∘ hwi, fun d hd => (hcov d hd).trans (e6 d hd)⟩
            · obtain ⟨L', H', S', e1, e2, e4, e5, e6⟩ := hi.2.2 b hb
              exact ⟨L', H', S', e1, e2, e4 ∘ hlvl, e5 ∘ hwi, fun d hd => (hcov d hd).trans (e6 d hd)⟩
          · rw [if_neg (fun h => hz ((gt_hi hh.v1.2.1).1 h))]
            have hwf : WF L J ((I, H) :: S) := ⟨hh.v1, hlt, hw.lo hh.v2⟩
            have hi := ih hwf (by omega)
            rw [List.map_cons] at hi
            have hcov : ∀ d, (Cov d L H S ↔ Cov d L J ((I, H) :: S)) := by
              intro d
              cases S with
              | nil =>
                show InBox L H d ↔ (InBox L J d ∨ InBox I H d)
                exact hh.cover d
              | cons p S =>
                show (InBox L H d ∨ _) ↔ (InBox L J d ∨ (InBox I H d ∨ _))
                rw [hh.cover]; tauto
            have hlvl : Lvl L H S → S.length < 32 ∧ Lvl L J ((I, H) :: S) := by
              intro h
              have hb := h.bound
              have hp := bit_lt hb.2 hP
              refine ⟨by omega, by omega, Nat.lt_of_lt_of_le hh.x1 (Nat.pow_le_pow_right (by omega) (by omega)), ?_⟩
              exact h.lo (fun n hn =>
                Nat.lt_of_lt_of_le hh.x2 (Nat.pow_le_pow_right (by omega) (bit_lt hn hP).le))
            have hwi : Within L0 H0 L H S → Within L0 H0 L J ((I, H) :: S) := fun h =>
              ⟨⟨h.head.1, InBox.trans h.head.1 h.head.2 hh.j_in⟩, h.lo (InBox.trans h.head.1 h.head.2 hh.i_in)⟩
            by_cases hcap : (S.map up).length < 32
            · rw [if_pos hcap]
              refine ⟨fun ho h => ?_, fun b hb => ?_, fun b hb => ?_⟩
              · have := bit_lt h.2.1 hP
                by_cases hf : fuel = 0
                · have hx1 := hh.x2
                  have hx2 := hh.x1
                  have hP0 : P = 0 := by omega
                  rw [hP0] at hx1 hx2
                  have e1 : I = H := Nat.xor_eq_zero_iff.1 (by omega)
                  have e2 : L = J := Nat.xor_eq_zero_iff.1 (by omega)
                  have hx : L ^^^ H < 2 ^ 1 := by
                    have h1 := h.2.1
                    rw [hf] at h1; simpa using h1
                  have hdiv : L / 2 = H / 2 := by
                    have h3 : (L ^^^ H) / 2 ^ 1 = 0 := by omega
                    rw [Nat.xor_div_two_pow] at h3
                    have := Nat.xor_eq_zero_iff.1 h3
                    simpa using this
                  omega
                · exact hi.1 ho ⟨(hlvl h.1).2, Nat.lt_of_lt_of_le hh.x1 (Nat.pow_le_pow_right (by omega) (by omega)), by omega⟩
              · obtain ⟨L', H', S', e1, e2, e3, e4, e5, e6⟩ := hi.2.1 b hb
                exact ⟨L', H', S', e1, e2, e3, fun h => e4 (hlvl h).2, e5 ∘ hwi, fun d hd => (hcov d).trans (e6 d hd)⟩
              · obtain ⟨L', H', S', e1, e2, e4, e5, e6⟩ := hi.2.2 b hb
                exact ⟨L', H', S', e1, e2, fun h => e4 (hlvl h).2, e5 ∘ hwi, fun d hd => (hcov d).trans (e6 d hd)⟩
            · rw [if_neg hcap]
              refine ⟨fun _ h => ?_, fun b hb => (by cases hb), fun b hb => (by cases hb)⟩
              have := (hlvl h.1).1
              rw [List.length_map] at hcap
              omega
        · rw [if_neg (by simpa using hgo)]
          refine ⟨fun h => (by cases h), fun b hb => (by cases hb), fun b hb => ?_⟩
          cases hb
          have hI : I = J + 1 := by omega
          subst hI
          exact ⟨L, H, S, rfl, hw, id, fun h => ⟨h, L, H, hw.valid, h.head.1, h.head.2, by omega, hc,
            Or.inr ⟨J, hh.v1, hh.v2, hh.cover⟩⟩, fun d _ => Iff.rfl⟩

/-- the array is sorted -/
def Sorted (data : Nat → Nat) (size : Nat) : Prop := ∀ i j, i ≤ j → j < size → data i ≤ data j

theorem lowerLoop_spec {data : Nat → Nat} {z : Nat} : ∀ n a, (∀ i j, i ≤ j → j < a + n → data i ≤ data j) →
    a ≤ lowerLoop data z a n ∧ lowerLoop data z a n ≤ a + n ∧
    (∀ k, a ≤ k → k < lowerLoop data z a n → data k < z) ∧
    (∀ k, lowerLoop data z a n ≤ k → k < a + n → z ≤ data k) := by
  intro n
  induction n using Nat.strongRecOn with
  | _ n ih =>
    intro a hs
    rw [lowerLoop]
    by_cases hn : n > 0
    · rw [dif_pos hn]
      dsimp only
      by_cases hd : data (a + n / 2) < z
      · rw [if_pos hd]
        have := ih (n - (n / 2 + 1)) (by omega) (a + n / 2 + 1) (fun i j h1 h2 => hs i j h1 (by omega))
        rw [show a + n / 2 + 1 + (n - (n / 2 + 1)) = a + n by omega] at this
        refine ⟨by omega, this.2.1, fun k h1 h2 => ?_, this.2.2.2⟩
        by_cases hk : a + n / 2 + 1 ≤ k
        · exact this.2.2.1 k hk h2
        · have := hs k (a + n / 2) (by omega) (by omega)
          omega
      · rw [if_neg hd]
        have := ih (n / 2) (by omega) a (fun i j h1 h2 => hs i j h1 (by omega))
        refine ⟨this.1, by omega, this.2.2.1, fun k h1 h2 => ?_⟩
        by_cases hk : k < a + n / 2
        · exact this.2.2.2 k h1 hk
        · have := hs (a + n / 2) k (by omega) h2
          omega
    · rw [dif_neg hn]
      exact ⟨le_refl _, by omega, fun k h1 h2 => by omega, fun k h1 h2 => by omega⟩

/-- the selected indices -/
structure Picks (data : Nat → Nat) (L0 H0 : Nat) (last i L H : Nat) (S : List (Nat × Nat)) (out idx : List Nat) :
    Prop where
  /-- output -/
  out_eq : out = idx.map data
  /-- in order, each at most once -/
  asc : idx.Pairwise (· < ·)
  /-- a reason for each -/
  sound : ∀ k ∈ idx, i ≤ k ∧ k < last ∧ Sound L0 H0 (cell (data k))
  /-- nothing missed -/
  complete : ∀ k, i ≤ k → k < last → Cov (cell (data k)) L H S → k ∈ idx

theorem cell_mono {a b : Nat} (h : a ≤ b) : cell a ≤ cell b := Nat.div_le_div_right h

theorem queryLoop_spec {data : Nat → Nat} {L0 H0 last : Nat} (hsort : Sorted data last) :
    ∀ n i, last - i ≤ n → ∀ {L H S}, WF L H S → Within L0 H0 L H S →
      (Lvl L H S → queryLoop data last i ⟨L * 2 ^ 16, H * 2 ^ 16, S.map up⟩ ≠ none) ∧
      ∀ out, queryLoop data last i ⟨L * 2 ^ 16, H * 2 ^ 16, S.map up⟩ = some out →
        ∃ idx, Picks data L0 H0 last i L H S out idx := by
  intro n
  induction n with
  | zero =>
    intro i hi L H S _ _
    rw [queryLoop, dif_neg (by omega)]
    refine ⟨fun _ h => (by cases h), fun out h => ?_⟩
    cases h
    exact ⟨[], rfl, List.Pairwise.nil, fun k hk => (by cases hk), fun k h1 h2 => by omega⟩
  | succ n ih =>
    intro i hi L H S hw hin
    rw [queryLoop]
    by_cases hlt : i < last
    · rw [dif_pos hlt]
      dsimp only
      have hp := popTo_spec (z := data i) (L0 := L0) (H0 := H0) hw
      cases hpop : popTo (data i) (L * 2 ^ 16) (H * 2 ^ 16) (S.map up) with
      | none =>
        dsimp only
        refine ⟨fun _ h => (by cases h), fun out h => ?_⟩
        cases h
        exact ⟨[], rfl, List.Pairwise.nil, fun k hk => (by cases hk),
          fun k h1 h2 h3 => absurd h3 (hp.1 hpop _ (cell_mono (hsort i k h1 h2)))⟩
      | some b =>
        obtain ⟨L1, H1, S1, rfl, hw1, hc1, hl1, hi1, hcov1⟩ := hp.2 b hpop
        dsimp only
        have hlook := look_spec (z := data i) (L0 := L0) (H0 := H0) (fuel := 64) hw1 hc1
        cases hlk : look (data i) 64 ⟨L1 * 2 ^ 16, H1 * 2 ^ 16, S1.map up⟩ with
        | overflow =>
          dsimp only
          refine ⟨fun hl => ?_, fun out h => (by cases h)⟩
          have hv := hw1.valid
          exact absurd ⟨hl1 hl, Nat.lt_of_lt_of_le (Nat.xor_lt_two_pow hv.1 hv.2.1)
            (Nat.pow_le_pow_right (by omega) (by omega)), by omega⟩ (hlook.1 hlk)
        | jump b =>
          obtain ⟨L2, H2, S2, rfl, hw2, hc2, hl2, hi2, hcov2⟩ := hlook.2.1 b hlk
          dsimp only
          unfold lowerBound
          have hlb := lowerLoop_spec (data := data) (z := L2 * 2 ^ 16) (last - (i + 1)) (i + 1)
            (fun a b h1 h2 => hsort a b h1 (by omega))
          generalize lowerLoop data (L2 * 2 ^ 16) (i + 1) (last - (i + 1)) = r at *
          have hmax : max (i + 1) r = r := Nat.max_eq_right hlb.1
          rw [hmax]
          have hrec := ih r (by omega) hw2 (hi2 (hi1 hin))
          refine ⟨fun hl => hrec.1 (hl2 (hl1 hl)), fun out h => ?_⟩
          obtain ⟨idx, h1, h2, h3, h4⟩ := hrec.2 out h
          refine ⟨idx, h1, h2, fun k hk => ⟨by have := h3 k hk; omega, (h3 k hk).2⟩, fun k hk1 hk2 hk3 => ?_⟩
          have hm := cell_mono (hsort i k hk1 hk2)
          have hcv := (hcov2 _ hm).1 ((hcov1 _ hm).1 hk3)
          have hge := Cov.ge hw2 hcv
          by_cases hr : r ≤ k
          · exact h4 k hr hk2 hcv
          · by_cases hik : k = i
            · subst hik; omega
            · have := hlb.2.2.1 k (by omega) (by omega)
              have := lt_lo.1 this
              omega
        | emit b =>
          obtain ⟨L2, H2, S2, rfl, hw2, hl2, hi2, hcov2⟩ := hlook.2.2 b hlk
          dsimp only
          obtain ⟨hin2, hsound⟩ := hi2 (hi1 hin)
          have hrec := ih (i + 1) (by omega) hw2 hin2
          refine ⟨fun hl hn => ?_, fun out h => ?_⟩
          · rw [Option.map_eq_none_iff] at hn
            exact hrec.1 (hl2 (hl1 hl)) hn
          · rw [Option.map_eq_some_iff] at h
            obtain ⟨out', ho, rfl⟩ := h
            obtain ⟨idx, h1, h2, h3, h4⟩ := hrec.2 out' ho
            refine ⟨i :: idx, by rw [h1]; rfl, List.pairwise_cons.2 ⟨fun k hk => ?_, h2⟩, fun k hk => ?_,
              fun k hk1 hk2 hk3 => ?_⟩
            · have := (h3 k hk).1; omega
            · rcases List.mem_cons.1 hk with rfl | hk
              · exact ⟨le_refl _, hlt, hsound⟩
              · exact ⟨by have := (h3 k hk).1; omega, (h3 k hk).2⟩
            · by_cases hik : k = i
              · exact List.mem_cons.2 (Or.inl hik)
              · have hm := cell_mono (hsort i k hk1 hk2)
                exact List.mem_cons.2 (Or.inr (h4 k (by omega) hk2 ((hcov2 _ hm).1 ((hcov1 _ hm).1 hk3))))
    · rw [dif_neg hlt]
      refine ⟨fun _ h => (by cases h), fun out h => ?_⟩
      cases h
      exact ⟨[], rfl, List.Pairwise.nil, fun k hk => (by cases hk), fun k h1 h2 => by omega⟩

/-! ## only the array is read -/

theorem lowerLoop_reads {d1 d2 : Nat → Nat} {z : Nat} : ∀ n a, (∀ k, k < a + n → d1 k = d2 k) →
    lowerLoop d1 z a n = lowerLoop d2 z a n := by
  intro n
  induction n using Nat.strongRecOn with
  | _ n ih =>
    intro a h
    rw [lowerLoop, lowerLoop]
    by_cases hn : n > 0
    · rw [dif_pos hn, dif_pos hn]
      dsimp only
      rw [h (a + n / 2) (by omega)]
      split
      · exact ih _ (by omega) _ (fun k hk => h k (by omega))
      · exact ih _ (by omega) _ (fun k hk => h k (by omega))
    · rw [dif_neg hn, dif_neg hn]

theorem lowerLoop_le {d : Nat → Nat} {z : Nat} : ∀ n a, lowerLoop d z a n ≤ a + n := by
  intro n
  induction n using Nat.strongRecOn with
  | _ n ih =>
    intro a
    rw [lowerLoop]
    by_cases hn : n > 0
    · rw [dif_pos hn]
      dsimp only
      split
      · have := ih (n - (n / 2 + 1)) (by omega) (a + n / 2 + 1)
        omega
      · have := ih (n / 2) (by omega) a
        omega
    · rw [dif_neg hn]; omega

theorem queryLoop_reads {d1 d2 : Nat → Nat} {last : Nat} (h : ∀ k, k < last → d1 k = d2 k) :
    ∀ n i b, last - i ≤ n → queryLoop d1 last i b = queryLoop d2 last i b := by
  intro n
  induction n with
  | zero =>
    intro i b hi
    rw [queryLoop, dif_neg (by omega), queryLoop, dif_neg (by omega)]
  | succ n ih =>
    intro i b hi
    rw [queryLoop, queryLoop]
    by_cases hlt : i < last
    · rw [dif_pos hlt, dif_pos hlt]
      dsimp only
      rw [h i hlt]
      cases popTo (d2 i) b.lo b.hi b.stack with
      | none => rfl
      | some b =>
        dsimp only
        cases look (d2 i) 64 b with
        | overflow => rfl
        | jump b =>
          dsimp only
          unfold lowerBound
          rw [lowerLoop_reads (d1 := d1) (d2 := d2) _ _ (fun k hk => h k (by omega))]
          exact ih _ _ (by omega)
        | emit b =>
          dsimp only
          rw [ih (i + 1) b (by omega)]
    · rw [dif_neg hlt, dif_neg hlt]

theorem query_reads {d1 d2 : Nat → Nat} {lo hi size : Nat} (h : ∀ k, k < size → d1 k = d2 k) :
    query lo hi size d1 = query lo hi size d2 := by
  unfold query lowerBound
  rw [lowerLoop_reads (d1 := d1) (d2 := d2) (size - 0) 0 (fun k hk => h k (by omega))]
  have := lowerLoop_le (d := d2) (z := add64 hi 0xffff) (size - 0) 0
  exact queryLoop_reads (fun k hk => h k (by omega)) _ _ _ (le_refl _)

/-! ## encoding -/

/-- both coordinates below a power of two bound the code -/
theorem code_lt {z n : Nat} (h1 : cx z < 2 ^ n) (h2 : cy z < 2 ^ n) : z < 2 ^ (2 * n) := by
  apply Nat.lt_pow_two_of_testBit
  intro k hk
  obtain ⟨q, rfl | rfl⟩ : ∃ q, k = 2 * q ∨ k = 2 * q + 1 := ⟨k / 2, by omega⟩
  · rw [← cx_testBit]
    exact Nat.testBit_lt_two_pow (Nat.lt_of_lt_of_le h1 (Nat.pow_le_pow_right (by omega) (by omega)))
  · rw [← cy_testBit]
    exact Nat.testBit_lt_two_pow (Nat.lt_of_lt_of_le h2 (Nat.pow_le_pow_right (by omega) (by omega)))

theorem interleave_lt {a b : Nat} (ha : a < 2 ^ 32) (hb : b < 2 ^ 32) :
    cx (expand b + expand b + expand a) = a ∧ cy (expand b + expand b + expand a) = b ∧
      expand b + expand b + expand a < 2 ^ 64 := by
  have h1 := expand_coords ha
  have h2 := expand_coords hb
  have h := cx_interleave _ (expand a) (expand b) (le_refl _) h1.2 h2.2
  have e1 : cx (expand b + expand b + expand a) = a := by rw [h.1, h1.1]
  have e2 : cy (expand b + expand b + expand a) = b := by rw [h.2, h2.1]
  exact ⟨e1, e2, code_lt (n := 32) (by rw [e1]; exact ha) (by rw [e2]; exact hb)⟩

theorem encode_coords {x y : Int} (hx : -2 ^ 31 ≤ x ∧ x < 2 ^ 31) (hy : -2 ^ 31 ≤ y ∧ y < 2 ^ 31) :
    (cx (encode x y) : Int) = x + 2 ^ 31 ∧ (cy (encode x y) : Int) = y + 2 ^ 31 ∧ encode x y < 2 ^ 64 := by
  have h1 := offset hx.1 hx.2
  have h2 := offset hy.1 hy.2
  unfold encode
  dsimp only
  generalize u32 x ^^^ 0x80000000 = a at *
  generalize u32 y ^^^ 0x80000000 = b at *
  have h := interleave_lt (a := a) (b := b) (by omega) (by omega)
  rw [Nat.mod_eq_of_lt h.2.2, h.1, h.2.1]
  exact ⟨h1, h2, h.2.2⟩

theorem inside_iff {lo hi z : Nat} (h1 : lo < 2 ^ 64) (h2 : hi < 2 ^ 64) (h3 : z < 2 ^ 64) :
    inside lo hi z = true ↔ InBox lo hi z := by
  have a1 := even_le h1 h3
  have a2 := even_le h3 h2
  have b1 := odd_le h1 h3
  have b2 := odd_le h3 h2
  unfold inside InBox
  dsimp only
  rw [← a1, ← a2, ← b1, ← b2]
  clear a1 a2 b1 b2
  split
  · next h => simp only [Bool.false_eq_true, false_iff]; omega
  · next h =>
    split
    · next h => simp only [Bool.false_eq_true, false_iff]; omega
    · next h' => simp only [true_iff]; omega

/-! ## aligned squares -/

theorem four {n : Nat} : 2 ^ (2 * (n + 1)) = 4 * 2 ^ (2 * n) := by
  rw [show 2 * (n + 1) = 2 * n + 2 by omega, Nat.pow_add]; omega

theorem corner_lo (s n : Nat) : cx (s * 2 ^ (2 * n)) = cx s * 2 ^ n ∧ cy (s * 2 ^ (2 * n)) = cy s * 2 ^ n := by
  induction n with
  | zero => simp
  | succ n ih =>
    have e : s * 2 ^ (2 * (n + 1)) = 4 * (s * 2 ^ (2 * n)) := by rw [four]; ring
    rw [e]
    generalize s * 2 ^ (2 * n) = t at *
    rw [cx_eq (4 * t), cy_eq (4 * t), show 4 * t / 4 = t by omega, ih.1, ih.2, Nat.pow_succ]
    constructor
    · rw [show 4 * t % 2 = 0 by omega]; ring
    · rw [show 4 * t / 2 % 2 = 0 by omega]; ring

theorem corner_hi (s n : Nat) : cx (s * 2 ^ (2 * n) + (2 ^ (2 * n) - 1)) = cx s * 2 ^ n + (2 ^ n - 1) ∧
    cy (s * 2 ^ (2 * n) + (2 ^ (2 * n) - 1)) = cy s * 2 ^ n + (2 ^ n - 1) := by
  induction n with
  | zero => simp
  | succ n ih =>
    have p := Nat.two_pow_pos (2 * n)
    have q := Nat.two_pow_pos n
    have e : s * 2 ^ (2 * (n + 1)) + (2 ^ (2 * (n + 1)) - 1) = 4 * (s * 2 ^ (2 * n) + (2 ^ (2 * n) - 1)) + 3 := by
      rw [four, show s * (4 * 2 ^ (2 * n)) = 4 * (s * 2 ^ (2 * n)) by ring]; omega
    rw [e]
    generalize s * 2 ^ (2 * n) + (2 ^ (2 * n) - 1) = t at *
    rw [cx_eq (4 * t + 3), cy_eq (4 * t + 3), show (4 * t + 3) / 4 = t by omega, ih.1, ih.2, Nat.pow_succ,
      show (4 * t + 3) % 2 = 1 by omega, show (4 * t + 3) / 2 % 2 = 1 by omega,
      show cx s * (2 ^ n * 2) = 2 * (cx s * 2 ^ n) by ring, show cy s * (2 ^ n * 2) = 2 * (cy s * 2 ^ n) by ring]
    constructor <;> omega

end CE.Zorder
