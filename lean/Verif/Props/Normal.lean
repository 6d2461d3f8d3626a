import Verif.Proof.NormalEdge
import Mathlib.Tactic.NormNum
/-!
# `normal` gives a vector of length one in the same direction (C107)

That is so for vectors neither too long nor too short; for the others the square of the length overflows or underflows.
-/
namespace CE.Normal

/-- The rounding of the model is that of the standard, to nearest with ties to even, as `Spec/FloatText.lean` has it. -/
theorem C107_rounding {q y : ℚ} (hq : 0 < q) :
    (rnd single q = .num y →
      ∃ m e, (FloatText.Fl.fin false m e).Valid FloatText.binary32 ∧ y = FloatText.mag m e ∧ FloatText.RoundsTo FloatText.binary32 q m e) ∧
    (rnd double q = .num y →
      ∃ m e, (FloatText.Fl.fin false m e).Valid FloatText.binary64 ∧ y = FloatText.mag m e ∧ FloatText.RoundsTo FloatText.binary64 q m e) :=
  ⟨rnd_rounds single (by decide) (by decide) hq, rnd_rounds double (by decide) (by decide) hq⟩

example : rnd single (1 / 3) = .num (11184811 / 33554432) := by decide +kernel

/-- The order of factors and summands does not matter. -/
theorem C107_commutes (F : Fmt) (a b c : Fp) : a.mul F b = b.mul F a ∧ a.add F b = b.add F a ∧ a.fma F b c = b.fma F a c := by
  refine ⟨?_, ?_, ?_⟩
  · cases a <;> cases b <;> simp only [Fp.mul, mul_comm, bne_comm]
  · cases a <;> cases b <;> simp only [Fp.add, add_comm]
    rename_i a b
    by_cases h : a = b
    · simp [h]
    · simp [h, Ne.symm h]
  · cases a <;> cases b <;> cases c <;> simp only [Fp.fma, Fp.mul, mul_comm, bne_comm]

-- zero times infinity, the difference of infinities
example : Fp.fma single (.num 0) (.inf true) (.num 1) = .nan ∧ Fp.fma single (.num (-2)) (.inf true) (.num 1) = .inf false ∧
    Fp.fma single (.num 2) (.num 3) (.inf true) = .inf true ∧ Fp.add single (.inf true) (.inf false) = .nan := by decide +kernel

/-- A component of at most `2^63` each and one of at least `2^-62`: the result is a vector of numbers, the square of its length
within `2^-10` of one, its direction that of the argument. (x86; the accuracy is that of the instruction.) -/
theorem C107_unit_partial {rsqrt : Fp → Fp} (hr : Rsqrtss rsqrt) (contract : Bool) (q : Q3) (hq : q.InRange) :
    ∃ n : Q3, normalX86 rsqrt contract q.fl = n.fl ∧ UnitOf (1 / 2 ^ 10) q n :=
  unit_of (s := fun v => if contract then fused v else plain v) (sum_ok contract) hr.near (by norm_num) (by norm_num)
    (by norm_num) q hq

/-- On other processors the square of the length is within `2^-19` of one. -/
theorem C107_unit_generic_partial (wide contract : Bool) (q : Q3) (hq : q.InRange) :
    ∃ n : Q3, normalGeneric wide contract q.fl = n.fl ∧ UnitOf (1 / 2 ^ 19) q n :=
  unit_of (s := fun v => if contract then fused v else plain v) (sum_ok contract) (recipSqrt_near wide) (by norm_num)
    (by norm_num) (by norm_num) q hq

/-- there are functions that meet the promise of the manuals -/
example : ∃ f, Rsqrtss f := by
  refine ⟨fun a => match a with
    | .num q => if q < 2 ^ (-126 : ℤ) then .inf false else recipSqrt true (.num q)
    | .inf _ => .num 0
    | .nan => .nan, ?_, ?_, rfl⟩
  · intro q h1 h2
    obtain ⟨r, r0, hr, h3, h4⟩ := recipSqrt_near true q h1 h2
    refine ⟨r, r0, ?_, le_trans ?_ h3, h4.trans ?_⟩
    · simp only [if_neg (not_lt.2 h1)]; exact hr
    · norm_num
    · norm_num
  · intro q _ h
    simp only [if_pos h]

example : (⟨3, -4, 0⟩ : Q3).InRange := by
  constructor
  · refine ⟨?_, ?_, ?_⟩ <;> norm_num [Q3.All]
  · left; norm_num

example : normalGeneric true false (⟨3, -4, 0⟩ : Q3).fl = (⟨5033165 / 8388608, -13421773 / 16777216, 0⟩ : Q3).fl := by
  decide +kernel

/-- A vector with a component of `2^64` or more becomes the null vector. -/
theorem C107_long_false (wide contract : Bool) {rsqrt : Fp → Fp} (hr : Rsqrtss rsqrt) (q : Q3)
    (h : q.Any (fun c => 2 ^ 64 ≤ |c|)) :
    normalX86 rsqrt contract q.fl = (⟨0, 0, 0⟩ : Q3).fl ∧ normalGeneric wide contract q.fl = (⟨0, 0, 0⟩ : Q3).fl := by
  constructor
  · rw [normalX86, sum_over contract q h, hr.inf, scale_zero]
  · have : recipSqrt wide (.inf false) = .num 0 := by
      simp [recipSqrt, Fp.sqrt, Fp.recip, Fp.toSingle, rnd_zero]
    rw [normalGeneric, sum_over contract q h, this, scale_zero]

example : (⟨1, 2 ^ 64, 0⟩ : Q3).Any (fun c => 2 ^ 64 ≤ |c|) := by
  right; left; norm_num

/-- A vector with no component above `2^-64` becomes one of infinities, and of values that are not numbers where the argument
has zeros; the null vector among them. (x86) -/
theorem C107_short_false (contract : Bool) {rsqrt : Fp → Fp} (hr : Rsqrtss rsqrt) (q : Q3)
    (h : q.All (fun c => |c| ≤ 2 ^ (-64 : ℤ))) :
    let n := normalX86 rsqrt contract q.fl
    Blown q.x n.x ∧ Blown q.y n.y ∧ Blown q.z n.z := by
  obtain ⟨m, hm, m0, m1⟩ := sum_under contract q h
  simp only [normalX86, hm, hr.small m m0 m1]
  exact ⟨blown _, blown _, blown _⟩

/-- The same on other processors, with no component above `2^-76`. -/
theorem C107_short_generic_false (wide contract : Bool) (q : Q3) (h : q.All (fun c => |c| ≤ 2 ^ (-76 : ℤ))) :
    let n := normalGeneric wide contract q.fl
    Blown q.x n.x ∧ Blown q.y n.y ∧ Blown q.z n.z := by
  have : recipSqrt wide (.num 0) = .inf false := by
    simp [recipSqrt, Fp.sqrt, Fp.recip, Fp.toSingle]
  simp only [normalGeneric, sum_tiny contract q h, this]
  exact ⟨blown _, blown _, blown _⟩

example : (⟨0, 2 ^ (-80 : ℤ), 0⟩ : Q3).All (fun c => |c| ≤ 2 ^ (-76 : ℤ)) := by
  refine ⟨?_, ?_, ?_⟩ <;> norm_num

/-- If a component is not a number, then no component of the result is one. (processors other than x86) -/
theorem C107_nan (wide contract : Bool) (v : V3) (h : v.x = .nan ∨ v.y = .nan ∨ v.z = .nan) :
    normalGeneric wide contract v = ⟨.nan, .nan, .nan⟩ := by
  have mn : ∀ F a, Fp.mul F a .nan = .nan := fun F a => by cases a <;> rfl
  have an : ∀ F a, Fp.add F a .nan = .nan := fun F a => by cases a <;> rfl
  have na : ∀ F a, Fp.add F .nan a = .nan := fun F a => by cases a <;> rfl
  have fa : ∀ F a c, Fp.fma F a .nan c = .nan := fun F a c => by cases a <;> simp [Fp.fma, Fp.mul, na]
  have fc : ∀ F a b, Fp.fma F a b .nan = .nan := fun F a b => by cases a <;> cases b <;> simp [Fp.fma, an]
  have key : (if contract then fused v else plain v) = .nan := by
    cases contract
    · rcases h with h | h | h <;> simp [plain, h, mn, an, na]
    · rcases h with h | h | h <;> simp [fused, h, mn, fa, fc]
  have : recipSqrt wide .nan = .nan := rfl
  simp only [normalGeneric, key, this, scale, mn]

example : (⟨.num 1, .nan, .inf false⟩ : V3).x = .nan ∨ (⟨.num 1, .nan, .inf false⟩ : V3).y = .nan ∨
    (⟨.num 1, .nan, .inf false⟩ : V3).z = .nan := by decide

theorem sq_nn' {a : Fp} (h : a ≠ .nan) : NN (a.mul single a) := by
  cases a with
  | num c => exact sq_nn c
  | inf b => left; simp [Fp.mul]
  | nan => exact absurd rfl h

theorem fma_nn' {a c : Fp} (h : a ≠ .nan) (hc : NN c) : NN (a.fma single a c) := by
  cases a with
  | num q => exact fma_nn q hc
  | inf b => left; simp only [Fp.fma, Fp.mul, bne_self_eq_false]; exact add_inf_left hc
  | nan => exact absurd rfl h

theorem fma_inf {b : Bool} {c : Fp} (hc : NN c) : (Fp.inf b).fma single (.inf b) c = .inf false := by
  simp only [Fp.fma, Fp.mul, bne_self_eq_false]; exact add_inf_left hc

theorem fma_acc {a : Fp} (h : a ≠ .nan) : a.fma single a (.inf false) = .inf false := by
  cases a with
  | num c => rfl
  | inf b => exact fma_inf (Or.inl rfl)
  | nan => exact absurd rfl h

theorem sum_inf (contract : Bool) (v : V3) (hx : v.x ≠ .nan) (hy : v.y ≠ .nan) (hz : v.z ≠ .nan)
    (h : ∃ b, v.x = .inf b ∨ v.y = .inf b ∨ v.z = .inf b) : (if contract then fused v else plain v) = .inf false := by
  have sq : ∀ b, (Fp.inf b).mul single (.inf b) = .inf false := fun b => by simp [Fp.mul]
  obtain ⟨b, h⟩ := h
  cases contract
  · simp only [Bool.false_eq_true, if_false, plain]
    rcases h with h | h | h
    · rw [h, sq, add_inf_left (sq_nn' hy), add_inf_left (sq_nn' hz)]
    · rw [h, sq, add_inf_right (sq_nn' hx), add_inf_left (sq_nn' hz)]
    · rw [h, sq, add_inf_right (add_nn (sq_nn' hx) (sq_nn' hy))]
  · simp only [if_true, fused]
    rcases h with h | h | h
    · rw [h, sq, fma_acc hy, fma_acc hz]
    · rw [h, fma_inf (sq_nn' hx), fma_acc hz]
    · rw [h, fma_inf (fma_nn' hy (sq_nn' hx))]

/-- A vector with an infinite component, all others numbers or infinite: where the argument is infinite the result is not a
number, elsewhere it is zero. -/
theorem C107_infinite_false (wide contract : Bool) {rsqrt : Fp → Fp} (hr : Rsqrtss rsqrt) (v : V3) (hx : v.x ≠ .nan)
    (hy : v.y ≠ .nan) (hz : v.z ≠ .nan) (h : ∃ b, v.x = .inf b ∨ v.y = .inf b ∨ v.z = .inf b) :
    let z : Fp → Fp := fun a => match a with | .num _ => .num 0 | _ => .nan
    normalX86 rsqrt contract v = ⟨z v.x, z v.y, z v.z⟩ ∧ normalGeneric wide contract v = ⟨z v.x, z v.y, z v.z⟩ := by
  intro z
  have hz0 : ∀ a : Fp, a.mul single (.num 0) = z a := fun a => by cases a <;> simp [Fp.mul, rnd_zero, z]
  have : recipSqrt wide (.inf false) = .num 0 := by
    simp [recipSqrt, Fp.sqrt, Fp.recip, Fp.toSingle, rnd_zero]
  constructor
  · rw [normalX86, sum_inf contract v hx hy hz h, hr.inf]; simp only [scale, hz0]
  · rw [normalGeneric, sum_inf contract v hx hy hz h, this]; simp only [scale, hz0]

example : normalGeneric true true ⟨.num 1, .inf true, .num 0⟩ = ⟨.num 0, .nan, .num 0⟩ := by decide +kernel

end CE.Normal
