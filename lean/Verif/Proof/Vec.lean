import Verif.Model.Vec
import Verif.Spec.Vec
import Mathlib.Tactic.Ring
import Mathlib.Tactic.Linarith
import Mathlib.Tactic.Positivity
import Mathlib.Tactic.FieldSimp
import Mathlib.Tactic.NormNum
import Mathlib.Tactic.GCongr
import Mathlib.Tactic.LinearCombination
/-! Lemmas on checked arithmetic and distances. -/
namespace CE.Vec

theorem i64_iff {n m : Int} : i64 n = some m ↔ m = n ∧ Is64 n := by
  unfold i64 Is64
  split
  · next h => simp only [Option.some.injEq]; exact ⟨fun e => ⟨e.symm, h⟩, fun e => e.1.symm⟩
  · next h => simp only [reduceCtorEq, false_iff]; exact fun e => h e.2

theorem i64_eq {n : Int} (h : Is64 n) : i64 n = some n := i64_iff.2 ⟨rfl, h⟩

theorem i32_iff {n m : Int} : i32 n = some m ↔ m = n ∧ Is32 n := by
  unfold i32 Is32
  split
  · next h => simp only [Option.some.injEq]; exact ⟨fun e => ⟨e.symm, h⟩, fun e => e.1.symm⟩
  · next h => simp only [reduceCtorEq, false_iff]; exact fun e => h e.2

theorem i32_eq {n : Int} (h : Is32 n) : i32 n = some n := i32_iff.2 ⟨rfl, h⟩

theorem i128_iff {n m : Int} : i128 n = some m ↔ m = n ∧ (-2 ^ 127 ≤ n ∧ n < 2 ^ 127) := by
  unfold i128
  split
  · next h => simp only [Option.some.injEq]; exact ⟨fun e => ⟨e.symm, h⟩, fun e => e.1.symm⟩
  · next h => simp only [reduceCtorEq, false_iff]; exact fun e => h e.2

theorem i128_eq {n : Int} (h : -2 ^ 127 ≤ n ∧ n < 2 ^ 127) : i128 n = some n := i128_iff.2 ⟨rfl, h⟩

/-- bounds on a product from bounds on the factors -/
theorem mul_bounds {a b A B : Int} (ha : -A ≤ a ∧ a ≤ A) (hb : -B ≤ b ∧ b ≤ B) :
    -(A * B) ≤ a * b ∧ a * b ≤ A * B := by
  obtain ⟨h1, h2⟩ := ha
  obtain ⟨h3, h4⟩ := hb
  constructor <;> nlinarith

theorem mul32 {a b : Int} (ha : Is32 a) (hb : Is32 b) : -(2 ^ 62) + 2 ^ 31 ≤ a * b ∧ a * b ≤ 2 ^ 62 := by
  obtain ⟨h1, h2⟩ := ha
  obtain ⟨h3, h4⟩ := hb
  constructor
  · by_cases h : 0 ≤ a
    · nlinarith
    · by_cases h' : 0 ≤ b <;> nlinarith
  · by_cases h : 0 ≤ a
    · by_cases h' : 0 ≤ b <;> nlinarith
    · by_cases h' : 0 ≤ b <;> nlinarith

theorem mul32_eq {a b : Int} (ha : Is32 a) (hb : Is32 b) : i64 (a * b) = some (a * b) := by
  have := mul32 ha hb
  exact i64_eq ⟨by omega, by omega⟩

/-- the product is 2^62 only for the two most negative numbers -/
theorem mul32_max {a b : Int} (ha : Is32 a) (hb : Is32 b) (h : a * b = 2 ^ 62) :
    a = -2 ^ 31 ∧ b = -2 ^ 31 := by
  obtain ⟨h1, h2⟩ := ha
  obtain ⟨h3, h4⟩ := hb
  have hneg : a < 0 := by
    by_contra hc
    by_cases h' : 0 ≤ b <;> nlinarith
  have hb' : b < 0 := by nlinarith
  constructor <;> nlinarith

theorem mul64_128 {a b : Int} (ha : Is64 a) (hb : Is64 b) :
    -2 ^ 127 ≤ a * b ∧ a * b < 2 ^ 127 := by
  obtain ⟨h1, h2⟩ := ha
  obtain ⟨h3, h4⟩ := hb
  have := mul_bounds (A := 2 ^ 63) (B := 2 ^ 63) ⟨h1, h2.le⟩ ⟨h3, h4.le⟩
  norm_num at this ⊢
  omega

theorem abLessCd_eq {a b c d : Int} (ha : Is64 a) (hb : Is64 b) (hc : Is64 c) (hd : Is64 d) :
    abLessCd a b c d = some (decide (a * b < c * d)) := by
  unfold abLessCd
  rw [i128_eq (mul64_128 ha hb), i128_eq (mul64_128 hc hd)]
  rfl

theorem abLessCd_some {a b c d : Int} {r : Bool} (h : abLessCd a b c d = some r) :
    r = decide (a * b < c * d) := by
  unfold abLessCd at h
  simp only [Option.bind_eq_bind, Option.bind_eq_some_iff, i128_iff] at h
  obtain ⟨_, ⟨rfl, -⟩, _, ⟨rfl, -⟩, h⟩ := h
  simpa using h.symm

theorem sqrx2_some {a : V2} {r : Int} (h : sqrx2 a = some r) : r = a.x * a.x + a.y * a.y := by
  unfold sqrx2 at h
  simp only [Option.bind_eq_bind, Option.bind_eq_some_iff, i64_iff] at h
  obtain ⟨_, ⟨rfl, -⟩, _, ⟨rfl, -⟩, h, -⟩ := h
  exact h

theorem dotx2_some {a b : V2} {r : Int} (h : dotx2 a b = some r) : r = a.x * b.x + a.y * b.y := by
  unfold dotx2 at h
  simp only [Option.bind_eq_bind, Option.bind_eq_some_iff, i64_iff] at h
  obtain ⟨_, ⟨rfl, -⟩, _, ⟨rfl, -⟩, h, -⟩ := h
  exact h

/-- `dd * (pp - rr) < dp²` is the distance test for the line -/
theorem line_iff (px py rr dx dy : ℤ) (hd : ¬(dx = 0 ∧ dy = 0)) :
    (∃ t, Near px py rr dx dy t) ↔
      (dx * dx + dy * dy) * (px * px + py * py - rr) < (px * dx + py * dy) * (px * dx + py * dy) := by
  have hdd : (0 : ℝ) < (dx : ℝ) * dx + dy * dy := by
    have : (0 : ℤ) < dx * dx + dy * dy := by
      rcases not_and_or.1 hd with h | h
      · have := mul_self_pos.2 h; have := mul_self_nonneg dy; omega
      · have := mul_self_pos.2 h; have := mul_self_nonneg dx; omega
    exact_mod_cast this
  rw [← Int.cast_lt (R := ℝ)]
  push_cast
  constructor
  · rintro ⟨t, ht⟩
    unfold Near at ht
    have := mul_lt_mul_of_pos_left ht hdd
    nlinarith [sq_nonneg (t * ((dx : ℝ) * dx + dy * dy) - (px * dx + py * dy))]
  · intro h
    refine ⟨((px : ℝ) * dx + py * dy) / (dx * dx + dy * dy), ?_⟩
    unfold Near
    generalize ht : ((px : ℝ) * dx + py * dy) / (dx * dx + dy * dy) = t
    have e : (px : ℝ) * dx + py * dy = t * (dx * dx + dy * dy) := by
      rw [← ht, div_mul_cancel₀ _ hdd.ne']
    have : ((dx : ℝ) * dx + dy * dy) * (((px : ℝ) - t * dx) ^ 2 + ((py : ℝ) - t * dy) ^ 2) <
        (dx * dx + dy * dy) * rr := by
      have : ((dx : ℝ) * dx + dy * dy) * (((px : ℝ) - t * dx) ^ 2 + ((py : ℝ) - t * dy) ^ 2) =
        (dx * dx + dy * dy) * (px * px + py * py) - (px * dx + py * dy) * (px * dx + py * dy) := by
        linear_combination ((px : ℝ) * dx + py * dy - t * (dx * dx + dy * dy)) * e
      nlinarith
    exact lt_of_mul_lt_mul_left this hdd.le

/-- the witness of `line_iff` is the projection, of parameter `dp / dd` -/
theorem line_proj (px py rr dx dy : ℤ) (hd : ¬(dx = 0 ∧ dy = 0)) (t : ℝ)
    (ht : Near px py rr dx dy t) :
    Near px py rr dx dy (((px * dx + py * dy : ℤ) : ℝ) / ((dx * dx + dy * dy : ℤ) : ℝ)) := by
  have hdd : (0 : ℝ) < (dx : ℝ) * dx + dy * dy := by
    have : (0 : ℤ) < dx * dx + dy * dy := by
      rcases not_and_or.1 hd with h | h
      · have := mul_self_pos.2 h; have := mul_self_nonneg dy; omega
      · have := mul_self_pos.2 h; have := mul_self_nonneg dx; omega
    exact_mod_cast this
  push_cast
  generalize hs : ((px : ℝ) * dx + py * dy) / (dx * dx + dy * dy) = s
  have e : (px : ℝ) * dx + py * dy = s * (dx * dx + dy * dy) := by
    rw [← hs, div_mul_cancel₀ _ hdd.ne']
  unfold Near at *
  have id : ((px : ℝ) - t * dx) ^ 2 + ((py : ℝ) - t * dy) ^ 2 -
      (((px : ℝ) - s * dx) ^ 2 + ((py : ℝ) - s * dy) ^ 2) = (t - s) ^ 2 * (dx * dx + dy * dy) := by
    linear_combination (-2 * (t - s)) * e
  have := mul_nonneg (sq_nonneg (t - s)) hdd.le
  linarith

end CE.Vec
