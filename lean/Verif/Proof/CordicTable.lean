import Verif.Model.Cordic
import Mathlib.Analysis.SpecialFunctions.Complex.Arctan
import Mathlib.Analysis.SpecificLimits.Normed
import Mathlib.Analysis.Real.Pi.Bounds
import Mathlib.Tactic.NormNum
import Mathlib.Tactic.IntervalCases
/-!
# The constant table of `cordic`: what the compiler computes, and how close to the arctangents it is
-/
namespace CE.Cordic
open Filter Finset

/-- the table in digits -/
def tbl : List Int :=
  [1152921504606846976, 680609306067436544, 359615265290440512, 182546323762760960,
   91627395746647408, 45858365146018104, 22934778241356564, 11468088963375448,
   5734131974037916, 2867076923938204, 1433539829095742, 716770085439068,
   358385064080945, 179192534710649, 89596267689097, 44798133886270,
   22399066948350, 11199533474827, 5599766737495, 2799883368758,
   1399941684380, 699970842190, 349985421095, 174992710548,
   87496355274, 43748177637, 21874088818, 10937044409,
   5468522205, 2734261102, 1367130551, 683565276]

/-- its entries -/
def tb (i : Nat) : Int := tbl.getD i 0

/-- the compile-time evaluation succeeds for every entry and gives these digits -/
theorem ks_table : (List.range 32).map dki = tbl.map some := by decide +kernel

theorem ks_eq {i : Nat} (h : i < 32) : ks i = tb i := by
  have h1 : ((List.range 32).map dki)[i]? = (tbl.map some)[i]? := by rw [ks_table]
  rw [List.getElem?_map, List.getElem?_map, List.getElem?_range h] at h1
  unfold ks tb
  have h2 : i < tbl.length := h
  rw [List.getD_eq_getElem?_getD, List.getElem?_eq_getElem h2] at *
  simp only [Option.map_some, Option.some.injEq] at h1
  rw [h1]

theorem kExpr_eq : kExpr = 2608131496 := by decide +kernel

/-- the alternating series for the arctangent -/
theorem arctan_series {x : ℝ} (h0 : 0 ≤ x) (h1 : x < 1) (n : ℕ) :
    ∑ i ∈ range (2 * n), (-1) ^ i * (x ^ (2 * i + 1) / (2 * i + 1 : ℝ)) ≤ Real.arctan x ∧
    Real.arctan x ≤ ∑ i ∈ range (2 * n + 1), (-1) ^ i * (x ^ (2 * i + 1) / (2 * i + 1 : ℝ)) := by
  have hs := Real.hasSum_arctan (x := x) (by rw [Real.norm_eq_abs, abs_of_nonneg h0]; exact h1)
  have hs := hs.tendsto_sum_nat
  have hanti : Antitone (fun i : ℕ => x ^ (2 * i + 1) / (2 * i + 1 : ℝ)) := by
    intro a b hab
    have hp : (0 : ℝ) < 2 * a + 1 := by positivity
    apply div_le_div₀ (by positivity) (pow_le_pow_of_le_one h0 h1.le (by omega)) hp
    have : (a : ℝ) ≤ b := by exact_mod_cast hab
    linarith
  have hs' : Tendsto (fun n ↦ ∑ i ∈ range n, (-1) ^ i * (x ^ (2 * i + 1) / (2 * i + 1 : ℝ))) atTop
      (nhds (Real.arctan x)) := by
    refine hs.congr (fun n => sum_congr rfl (fun i _ => ?_))
    push_cast
    ring
  exact ⟨hanti.alternating_series_le_tendsto hs' n, hanti.tendsto_le_alternating_series hs' n⟩

/-- every entry is the arctangent in units of `π / 2^62`, to 50 bits -/
theorem tb_arctan {i : Nat} (h : i < 32) :
    |Real.arctan (1 / 2 ^ i) - tb i * (Real.pi / 2 ^ 62)| ≤ 1 / 2 ^ 50 := by
  have p1 := Real.pi_gt_d20
  have p2 := Real.pi_lt_d20
  by_cases hi : i = 0
  · subst hi
    have : (tb 0 : ℝ) = 2 ^ 60 := by norm_num [tb, tbl]
    rw [this]
    norm_num [Real.arctan_one]
    ring_nf
    norm_num
  · have hs := arctan_series (x := 1 / 2 ^ i) (by positivity)
      (by rw [div_lt_one (by positivity)]; exact one_lt_pow₀ (by norm_num) hi) 12
    obtain ⟨h1, h2⟩ := hs
    rw [abs_le]
    generalize Real.arctan (1 / 2 ^ i) = a at *
    generalize Real.pi = p at *
    interval_cases i
    · omega
    all_goals
      simp only [sum_range_succ, range_zero, sum_empty] at h1 h2
      norm_num at h1 h2
      norm_num [tb, tbl]
      constructor <;> linarith

/-- the gain of the iteration, times the constant `k`, is one to ten digits -/
theorem gain_sq : ((2608131496 : ℝ) / 2 ^ 32) ^ 2 * ∏ i ∈ range 32, (1 + (1 / 2 ^ i : ℝ) ^ 2) ≤ 1 ∧
    (1 - 11 / 10 ^ 11 : ℝ) ^ 2 ≤ ((2608131496 : ℝ) / 2 ^ 32) ^ 2 * ∏ i ∈ range 32, (1 + (1 / 2 ^ i : ℝ) ^ 2) := by
  simp only [prod_range_succ, range_zero, prod_empty]
  norm_num

end CE.Cordic
