import Verif.Spec.DictZero
import Verif.Proof.Dictionary
namespace CE.Dictionary

variable {K V : Type} [DecidableEq K] (ge : K → K → Bool) (N : Nat)

/-- invariant of a dictionary used through `bind`, with any names -/
structure InvZ (k0 : K) (d : Dict K V) (σ : AbsZ K V) : Prop where
  cap : 2 ≤ N
  heap : d.heap = 0
  zero : d.names 0 = k0
  le : d.size ≤ N
  size : (d.size = 0 ∧ σ.count = 0) ∨ (2 ≤ d.size ∧ σ.count + 1 = d.size)
  inj : ∀ i j, 1 ≤ i → i < d.size → 1 ≤ j → j < d.size → d.names i = d.names j → d.names i ≠ k0 → i = j
  handle : ∀ n p, σ.handle n = some p ↔ 1 ≤ p ∧ p < d.size ∧ d.names p = n ∧ n ≠ k0
  given : ∀ p, σ.given p ↔ 1 ≤ p ∧ p < d.size
  value : ∀ p, σ.given p → d.data p = σ.value p

theorem find_eqZ (k0 : K) (d : Dict K V) (σ : AbsZ K V) (h : InvZ N k0 d σ) (n : K) :
    find ge N d n = some ((σ.handle n).getD 0) := by
  have hle := h.le
  unfold find
  rw [heapScan_none ge N d n 1 (by rw [h.heap]; omega), h.heap]
  simp only [Option.bind_eq_bind, Option.bind_some, ne_eq, not_true_eq_false, if_false, Nat.sub_zero]
  obtain ⟨p, e1, e2⟩ := linearScan_eq N d n d.size 0 (by omega)
  rw [e1]
  congr 1
  rcases e2 with ⟨_, h2, h3, h4⟩ | ⟨h1, h2⟩
  · by_cases hn : n = k0
    · have : p = 0 := by
        by_contra hp
        exact h4 0 (by omega) (by omega) (by rw [h.zero, hn])
      cases hh : σ.handle n with
      | none => exact this
      | some q => exact absurd hn ((h.handle n q).mp hh).2.2.2
    · have hp : p ≠ 0 := by rintro rfl; rw [h.zero] at h3; exact hn h3.symm
      rw [(h.handle n p).mpr ⟨by omega, by omega, h3, hn⟩]; rfl
  · cases hh : σ.handle n with
    | none => exact h1
    | some q =>
      obtain ⟨a, b, c, -⟩ := (h.handle n q).mp hh
      exact absurd c (h2 q (by omega) (by omega))

theorem step_simZ (k0 : K) (d : Dict K V) (σ : AbsZ K V) (h : InvZ N k0 d σ) (op : Op K V) (hp : PreZ σ op) :
    ∃ r d' σ', step ge N d op = some (r, d') ∧ StepZ k0 N σ op r σ' ∧ InvZ N k0 d' σ' := by
  have hle := h.le
  have hcap := h.cap
  have hgv : ∀ n p, σ.handle n = some p → σ.given p := fun n p hh => by
    have := (h.handle n p).mp hh
    exact (h.given p).2 ⟨this.1, this.2.1⟩
  have hlt : ∀ p, σ.given p → p < N := fun p hh => by
    have := (h.given p).mp hh; omega
  have chk : ∀ p, σ.given p → check d p = some () := fun p hh => by
    have := (h.given p).mp hh
    exact if_pos ⟨by omega, this.2⟩
  have wrOk : ∀ p v, σ.given p →
      InvZ N k0 { d with data := upd d.data p v } { σ with value := upd σ.value p v } := by
    intro p v hh
    refine ⟨h.cap, h.heap, h.zero, h.le, h.size, h.inj, h.handle, h.given, fun q hq => ?_⟩
    show upd d.data p v q = upd σ.value p v q
    by_cases hqp : q = p
    · subst hqp; rw [upd_same, upd_same]
    · rw [upd_ne _ _ _ _ hqp, upd_ne _ _ _ _ hqp]; exact h.value q hq
  cases op with
  | find n =>
    have hf := find_eqZ ge N k0 d σ h n
    cases hh : σ.handle n with
    | none => exact ⟨_, _, _, by simp only [step, hf, hh]; rfl, .findNil n hh, h⟩
    | some p => exact ⟨_, _, _, by simp only [step, hf, hh]; rfl, .find n p hh, h⟩
  | bind n v =>
    have hf := find_eqZ ge N k0 d σ h n
    cases hh : σ.handle n with
    | some p =>
      refine ⟨.ptr p, _, _, ?_, .rebind n v p hh, wrOk p v (hgv n p hh)⟩
      have := (h.handle n p).mp hh
      have hpN := hlt p (hgv n p hh)
      simp only [step, bind, hf, hh, Option.getD_some, Option.bind_eq_bind, Option.bind_some]
      rw [if_neg (by omega)]
      simp [Obj.wr, hpN]
    | none =>
      by_cases hfull : d.size ≥ N
      · refine ⟨.ptr 0, _, _, ?_, .bindFull n v hh (by rcases h.size with h | h <;> omega), h⟩
        simp only [step, bind, hf, hh, Option.getD_none, Option.bind_eq_bind, Option.bind_some]
        simp [hfull]
      · generalize hi : d.size + (if d.size = 0 then 1 else 0) = i
        have hi1 : i = σ.count + 1 ∧ i < N ∧ d.size ≤ i ∧ (i = d.size ∨ (d.size = 0 ∧ i = 1)) := by
          rcases h.size with h | h
          · rw [if_pos h.1] at hi; omega
          · rw [if_neg (by omega)] at hi; omega
        have hnew : ¬ σ.given i := by
          intro hc
          have := (h.given i).mp hc; omega
        have hold : ∀ q, 1 ≤ q → q < i → q < d.size := by
          intro q h1 h2; omega
        have hnn : ∀ q, 1 ≤ q → q < d.size → d.names q = n → n = k0 := by
          intro q h1 h2 he
          by_contra hk
          have := (h.handle n q).mpr ⟨h1, h2, he, hk⟩
          rw [hh] at this; cases this
        refine ⟨.ptr i, ⟨i + 1, upd d.data i v, d.heap, upd d.names i n⟩, _, ?_,
          .bind n v i hh (by omega) (by omega) (by omega) hnew, ?_⟩
        · simp only [step, bind, hf, hh, Option.getD_none, Option.bind_eq_bind, Option.bind_some]
          rw [if_pos trivial, if_neg hfull, hi]
          simp [Obj.wr, hi1.2.1]
        · have hnames : ∀ q, q ≠ i → upd d.names i n q = d.names q := fun q hq => upd_ne _ _ _ _ hq
          refine ⟨hcap, h.heap, ?_, ?_, .inr ⟨?_, ?_⟩, ?_, ?_, ?_, ?_⟩
          · show upd d.names i n 0 = k0
            rw [hnames 0 (by omega)]; exact h.zero
          · show i + 1 ≤ N; omega
          · show 2 ≤ i + 1; omega
          · show σ.count + 1 + 1 = i + 1; omega
          · intro a b ha1 ha2 hb1 hb2 hab hk
            change upd d.names i n a = upd d.names i n b at hab
            change upd d.names i n a ≠ k0 at hk
            dsimp only at ha2 hb2
            by_cases ha : a = i
            · by_cases hb : b = i
              · omega
              · rw [ha, upd_same] at hk
                rw [ha, upd_same, hnames b hb] at hab
                exact absurd (hnn b hb1 (hold b hb1 (by omega)) hab.symm) hk
            · by_cases hb : b = i
              · rw [hb, upd_same, hnames a ha] at hab
                rw [hnames a ha, hab] at hk
                exact absurd (hnn a ha1 (hold a ha1 (by omega)) hab) hk
              · rw [hnames a ha] at hk
                rw [hnames a ha, hnames b hb] at hab
                exact h.inj a b ha1 (hold a ha1 (by omega)) hb1 (hold b hb1 (by omega)) hab hk
          · intro m q
            show (if n = k0 then σ.handle else Abs.upd σ.handle n (some i)) m = some q ↔ 1 ≤ q ∧ q < i + 1 ∧ upd d.names i n q = m ∧ m ≠ k0
            by_cases hn0 : n = k0
            · rw [if_pos hn0, h.handle m q]
              by_cases hq : q = i
              · subst hq
                rw [upd_same]
                constructor
                · rintro ⟨h1, h2, -, -⟩; exact absurd h2 (by omega)
                · rintro ⟨-, -, h3, h4⟩; exact absurd (h3 ▸ hn0) h4
              · rw [hnames q hq]
                constructor
                · rintro ⟨h1, h2, h3⟩; exact ⟨h1, by omega, h3⟩
                · rintro ⟨h1, h2, h3⟩; exact ⟨h1, hold q h1 (by omega), h3⟩
            · rw [if_neg hn0]
              unfold Abs.upd
              by_cases hq : q = i
              · subst hq
                rw [upd_same]
                by_cases hm : m = n
                · subst hm; simp [hn0]; omega
                · rw [if_neg hm]
                  exact ⟨fun hc => absurd (hgv m q hc) hnew, fun hc => absurd hc.2.2.1.symm hm⟩
              · rw [hnames q hq]
                by_cases hm : m = n
                · subst hm
                  rw [if_pos rfl]
                  constructor
                  · intro hc; simp at hc; exact absurd hc.symm hq
                  · rintro ⟨h1, h2, h3, -⟩
                    exact absurd (hnn q h1 (hold q h1 (by omega)) h3) hn0
                · rw [if_neg hm, h.handle m q]
                  constructor
                  · rintro ⟨h1, h2, h3⟩; exact ⟨h1, by omega, h3⟩
                  · rintro ⟨h1, h2, h3⟩; exact ⟨h1, hold q h1 (by omega), h3⟩
          · intro q
            show (q = i ∨ σ.given q) ↔ 1 ≤ q ∧ q < i + 1
            rw [h.given q]
            omega
          · intro q hq
            show upd d.data i v q = upd σ.value i v q
            by_cases hqi : q = i
            · subst hqi; rw [upd_same, upd_same]
            · rw [upd_ne _ _ _ _ hqi, upd_ne _ _ _ _ hqi]
              exact h.value q (Or.resolve_left hq hqi)
  | get p =>
    refine ⟨_, _, _, ?_, .get p hp, h⟩
    simp only [step, get, chk p hp, Obj.rd, Nat.zero_le, true_and, if_pos (hlt p hp), h.value p hp]; rfl
  | put p v =>
    refine ⟨_, _, _, ?_, .put p v hp, wrOk p v hp⟩
    simp only [step, put, chk p hp, Obj.wr, Nat.zero_le, true_and, if_pos (hlt p hp)]; rfl
  | getName n =>
    have hf := find_eqZ ge N k0 d σ h n
    cases hh : σ.handle n with
    | none => simp [PreZ, hh] at hp
    | some p =>
      refine ⟨_, _, _, ?_, .getName n p hh, h⟩
      simp only [step, getName, hf, hh, Option.getD_some, get, chk p (hgv n p hh), Obj.rd, Nat.zero_le, true_and,
        if_pos (hlt p (hgv n p hh)), h.value p (hgv n p hh), Option.bind_eq_bind, Option.bind_some]; rfl

end CE.Dictionary
