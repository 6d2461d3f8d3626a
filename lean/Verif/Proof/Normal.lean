import Verif.Spec.Normal
import Mathlib.Tactic.Ring
import Mathlib.Tactic.Linarith
import Mathlib.Tactic.FieldSimp
import Mathlib.Tactic.Positivity
import Mathlib.Algebra.Order.Field.Power
/-! # Proofs about `normal` -/
namespace CE.Normal

theorem rne_near (x : ℚ) : |(rne x : ℚ) - x| ≤ 1 / 2 := by
  have h1 := Int.floor_le x
  have h2 := Int.lt_floor_add_one x
  unfold rne
  split
  · rename_i h
    have : 1 / 2 ≤ x - ⌊x⌋ := by rcases h with h | h; exacts [h.le, h.1.ge]
    push_cast
    rw [abs_le]; constructor <;> linarith
  · rename_i h
    have : x - ⌊x⌋ ≤ 1 / 2 := by
      by_contra hc
      exact h (Or.inl (by linarith))
    rw [abs_le]; constructor <;> linarith

theorem rne_nonneg {x : ℚ} (h : 0 ≤ x) : 0 ≤ rne x := by
  have := Int.floor_nonneg.2 h
  unfold rne; split <;> omega

theorem rne_nonpos {x : ℚ} (h : x ≤ 0) : rne x ≤ 0 := by
  have h1 : ⌊x⌋ ≤ 0 := by
    have := Int.floor_mono h
    simpa using this
  unfold rne; split
  · rename_i hc
    by_cases h0 : ⌊x⌋ = 0
    · rw [h0] at hc
      exfalso
      rcases hc with hc | hc
      · simp at hc; linarith
      · omega
    · omega
  · exact h1

/-- the rounded value before the check for overflow -/
def raw (F : Fmt) (q : ℚ) : ℚ := rne (q / 2 ^ lastPlace F (Int.log 2 |q|)) * (2 : ℚ) ^ lastPlace F (Int.log 2 |q|)

theorem rnd_eq (F : Fmt) (q : ℚ) : rnd F q = if |raw F q| < 2 ^ F.top then .num (raw F q) else .inf (decide (q < 0)) := rfl

theorem raw_nonneg (F : Fmt) {q : ℚ} (h : 0 ≤ q) : 0 ≤ raw F q := by
  have : (0 : ℚ) ≤ rne (q / 2 ^ lastPlace F (Int.log 2 |q|)) := by
    exact_mod_cast rne_nonneg (by positivity)
  unfold raw; positivity

theorem raw_nonpos (F : Fmt) {q : ℚ} (h : q ≤ 0) : raw F q ≤ 0 := by
  have : ((rne (q / 2 ^ lastPlace F (Int.log 2 |q|)) : ℤ) : ℚ) ≤ 0 := by
    exact_mod_cast rne_nonpos (div_nonpos_of_nonpos_of_nonneg h (by positivity))
  exact mul_nonpos_of_nonpos_of_nonneg this (by positivity)

theorem raw_unit (F : Fmt) (q : ℚ) : |raw F q - q| ≤ 2 ^ lastPlace F (Int.log 2 |q|) / 2 := by
  unfold raw
  generalize lastPlace F (Int.log 2 |q|) = e
  have hp : (0 : ℚ) < 2 ^ e := by positivity
  have h := rne_near (q / 2 ^ e)
  have e1 : (rne (q / 2 ^ e) : ℚ) * 2 ^ e - q = ((rne (q / 2 ^ e) : ℚ) - q / 2 ^ e) * 2 ^ e := by
    field_simp
  rw [e1, abs_mul, abs_of_pos hp]
  nlinarith

theorem raw_near (F : Fmt) (q : ℚ) : |raw F q - q| ≤ (2 : ℚ) ^ (-(F.p : ℤ)) * |q| + 2 ^ (F.emin - 1) := by
  have h := raw_unit F q
  have hs : (2 : ℚ) ^ (F.emin - 1) = 2 ^ F.emin / 2 := by rw [zpow_sub₀ two_ne_zero]; simp
  rw [hs]
  by_cases h0 : q = 0
  · subst h0
    have : raw F 0 = 0 := by simp [raw, rne]
    rw [this]; simp; positivity
  have hl := Int.zpow_log_le_self (b := 2) (r := |q|) (by norm_num) (abs_pos.2 h0)
  unfold lastPlace at h
  rcases max_cases F.emin (Int.log 2 |q| - (F.p - 1)) with ⟨e, _⟩ | ⟨e, _⟩ <;> rw [e] at h
  · have : (0 : ℚ) ≤ (2 : ℚ) ^ (-(F.p : ℤ)) * |q| := by positivity
    linarith
  · have e2 : (2 : ℚ) ^ (Int.log 2 |q| - ((F.p : ℤ) - 1)) / 2 = (2 : ℚ) ^ (-(F.p : ℤ)) * 2 ^ Int.log 2 |q| := by
      rw [← zpow_add₀ two_ne_zero, div_eq_mul_inv, ← zpow_neg_one, ← zpow_add₀ two_ne_zero]
      congr 1; ring
    rw [e2] at h
    have hp : (0 : ℚ) < 2 ^ (-(F.p : ℤ)) := by positivity
    have h3 : (2 : ℚ) ^ (-(F.p : ℤ)) * 2 ^ Int.log 2 |q| ≤ (2 : ℚ) ^ (-(F.p : ℤ)) * |q| := by
      apply mul_le_mul_of_nonneg_left _ hp.le
      exact_mod_cast hl
    have : (0 : ℚ) < 2 ^ F.emin := by positivity
    linarith

/-- what is too large -/
theorem raw_large (F : Fmt) {q : ℚ} {t : ℤ} (hp : 0 < F.p) (ht : F.emin + F.p ≤ t) (h : (2 : ℚ) ^ t ≤ q) : (2 : ℚ) ^ t ≤ raw F q := by
  have hq : 0 < q := lt_of_lt_of_le (by positivity) h
  have hL : t ≤ Int.log 2 |q| := by
    rw [abs_of_pos hq]
    exact (Int.zpow_le_iff_le_log (by norm_num) hq).1 (by exact_mod_cast h)
  have he : lastPlace F (Int.log 2 |q|) = Int.log 2 |q| - (F.p - 1) := by
    unfold lastPlace; rw [max_eq_right]; omega
  have hl := Int.zpow_log_le_self (b := 2) (r := |q|) (by norm_num) (abs_pos.2 hq.ne')
  unfold raw
  rw [he]
  rw [abs_of_pos hq] at *
  set L := Int.log 2 q
  have hx : ((2 ^ (F.p - 1) : ℤ) : ℚ) ≤ q / 2 ^ (L - ((F.p : ℤ) - 1)) := by
    rw [le_div_iff₀ (by positivity)]
    push_cast
    rw [← zpow_natCast, ← zpow_add₀ two_ne_zero]
    have : ((F.p - 1 : ℕ) : ℤ) + (L - ((F.p : ℤ) - 1)) = L := by omega
    rw [this]; exact_mod_cast hl
  have hf := Int.le_floor.2 hx
  have hr : (2 ^ (F.p - 1) : ℤ) ≤ rne (q / 2 ^ (L - ((F.p : ℤ) - 1))) := by
    unfold rne; split <;> omega
  have hr' : (2 : ℚ) ^ (F.p - 1) ≤ (rne (q / 2 ^ (L - ((F.p : ℤ) - 1))) : ℚ) := by exact_mod_cast hr
  calc (2 : ℚ) ^ t ≤ 2 ^ L := zpow_le_zpow_right₀ (by norm_num) hL
    _ = (2 : ℚ) ^ (F.p - 1) * 2 ^ (L - ((F.p : ℤ) - 1)) := by
      rw [← zpow_natCast, ← zpow_add₀ two_ne_zero]; congr 1; omega
    _ ≤ _ := mul_le_mul_of_nonneg_right hr' (by positivity)

/-! ## `float` -/

/-- relative error -/
def u : ℚ := 2 ^ (-24 : ℤ)
/-- error of small results -/
def η : ℚ := 2 ^ (-150 : ℤ)

theorem u_eq : u = 1 / 16777216 := by unfold u; norm_num
theorem η_eq : η = 1 / 1427247692705959881058285969449495136382746624 := by unfold η; norm_num
theorem u_pos : 0 < u := by unfold u; positivity
theorem η_pos : 0 < η := by unfold η; positivity

theorem single_near (q : ℚ) : |raw single q - q| ≤ u * |q| + η := raw_near single q

theorem rnd_fits {q : ℚ} (h : |q| ≤ 7 / 4 * 2 ^ 127) : rnd single q = .num (raw single q) := by
  rw [rnd_eq, if_pos]
  have h1 := single_near q
  have h2 : |raw single q| ≤ |raw single q - q| + |q| := by
    have := abs_add_le (raw single q - q) q
    simpa using this
  have : u * |q| ≤ u * (7 / 4 * 2 ^ 127) := mul_le_mul_of_nonneg_left h u_pos.le
  calc |raw single q| ≤ u * (7 / 4 * 2 ^ 127) + η + 7 / 4 * 2 ^ 127 := by linarith
    _ < 2 ^ single.top := by unfold u η single; norm_num

theorem rnd_over {q : ℚ} (h : 2 ^ 128 ≤ q) : rnd single q = .inf false := by
  have h1 := raw_large single (t := 128) (by decide) (by decide) (by exact_mod_cast h)
  have h0 : (0 : ℚ) < 2 ^ 128 := by positivity
  rw [rnd_eq, if_neg]
  · have : ¬ q < 0 := by linarith
    simp [this]
  · rw [abs_of_pos (lt_of_lt_of_le (by positivity) h1)]
    show ¬ raw single q < 2 ^ (128 : ℤ)
    linarith

theorem near_nonneg {q : ℚ} (h : 0 ≤ q) : 0 ≤ raw single q ∧ raw single q ≤ q + (u * q + η) ∧ q - (u * q + η) ≤ raw single q := by
  have h1 := abs_le.1 (single_near q)
  rw [abs_of_nonneg h] at h1
  exact ⟨raw_nonneg _ h, by linarith [h1.2], by linarith [h1.1]⟩

/-- the sum of squares is a number and nearly exact -/
def SumOk (f : V3 → Fp) : Prop := ∀ q : Q3, q.All (fun c => |c| ≤ 2 ^ 63) →
  ∃ m, f q.fl = .num m ∧ 0 ≤ m ∧ |m - q.len2| ≤ 4 * u * q.len2 + 8 * η

theorem sq_le {c : ℚ} (h : |c| ≤ 2 ^ 63) : c * c ≤ 2 ^ 126 := by
  have : |c| * |c| ≤ 2 ^ 63 * 2 ^ 63 := mul_le_mul h h (abs_nonneg _) (by positivity)
  rw [abs_mul_abs_self] at this
  linarith

theorem plain_ok : SumOk plain := by
  rintro ⟨x, y, z⟩ ⟨hx, hy, hz⟩
  simp only at hx hy hz
  have hx := sq_le hx
  have hy := sq_le hy
  have hz := sq_le hz
  have hx0 := mul_self_nonneg x
  have hy0 := mul_self_nonneg y
  have hz0 := mul_self_nonneg z
  simp only [Q3.fl, plain, Fp.mul, Q3.len2, pow_two]
  generalize x * x = A at *
  generalize y * y = B at *
  generalize z * z = C at *
  obtain ⟨a0, a1, a2⟩ := near_nonneg hx0
  obtain ⟨b0, b1, b2⟩ := near_nonneg hy0
  obtain ⟨c0, c1, c2⟩ := near_nonneg hz0
  have k : ∀ q : ℚ, 0 ≤ q → q ≤ 7 / 4 * 2 ^ 127 → rnd single q = .num (raw single q) := by
    intro q h0 h; exact rnd_fits (by rwa [abs_of_nonneg h0])
  rw [k A hx0 (by linarith), k B hy0 (by linarith), k C hz0 (by linarith)]
  generalize raw single A = a at *
  generalize raw single B = b at *
  generalize raw single C = c at *
  simp only [Fp.add]
  obtain ⟨s0, s1, s2⟩ := near_nonneg (add_nonneg a0 b0)
  rw [u_eq, η_eq] at *
  rw [k (a + b) (by linarith) (by linarith)]
  simp only [Fp.add]
  generalize raw single (a + b) = s at *
  obtain ⟨m0, m1, m2⟩ := near_nonneg (add_nonneg s0 c0)
  rw [u_eq, η_eq] at *
  rw [k (s + c) (by linarith) (by linarith)]
  refine ⟨_, rfl, m0, ?_⟩
  rw [abs_le]
  constructor <;> linarith

theorem fused_ok : SumOk fused := by
  rintro ⟨x, y, z⟩ ⟨hx, hy, hz⟩
  simp only at hx hy hz
  have hx := sq_le hx
  have hy := sq_le hy
  have hz := sq_le hz
  have hx0 := mul_self_nonneg x
  have hy0 := mul_self_nonneg y
  have hz0 := mul_self_nonneg z
  simp only [Q3.fl, fused, Fp.mul, Q3.len2, pow_two]
  have k : ∀ q : ℚ, 0 ≤ q → q ≤ 7 / 4 * 2 ^ 127 → rnd single q = .num (raw single q) := by
    intro q h0 h; exact rnd_fits (by rwa [abs_of_nonneg h0])
  obtain ⟨a0, a1, a2⟩ := near_nonneg hx0
  rw [k (x * x) hx0 (by linarith)]
  simp only [Fp.fma]
  generalize x * x = A at *
  generalize y * y = B at *
  generalize raw single A = a at *
  obtain ⟨s0, s1, s2⟩ := near_nonneg (add_nonneg hy0 a0)
  rw [u_eq, η_eq] at *
  rw [k (B + a) (by linarith) (by linarith)]
  simp only
  generalize raw single (B + a) = s at *
  obtain ⟨m0, m1, m2⟩ := near_nonneg (add_nonneg hz0 s0)
  rw [u_eq, η_eq] at *
  rw [k (z * z + s) (by linarith) (by linarith)]
  refine ⟨_, rfl, m0, ?_⟩
  rw [abs_le]
  constructor <;> linarith

theorem scaled_of {k c : ℚ} (hk : 0 < k) : Scaled k c (raw single (c * k)) := by
  refine ⟨?_, fun h => raw_nonneg _ (by positivity), fun h => raw_nonpos _ (mul_nonpos_of_nonpos_of_nonneg h hk.le)⟩
  have := single_near (c * k)
  rw [mul_comm c k] at *
  exact this

/-- square of a component of the result -/
theorem scaled_sq {k c n : ℚ} (h : Scaled k c n) (h1 : |k * c| ≤ 2) :
    |n ^ 2 - (k * c) ^ 2| ≤ 3 * u * (k * c) ^ 2 + 5 * η := by
  have h := h.1
  change _ ≤ u * |k * c| + η at h
  generalize k * c = t at *
  have e : n ^ 2 - t ^ 2 = (n - t) * (n - t) + 2 * (t * (n - t)) := by ring
  have h2 : |n - t| * |n - t| ≤ (u * |t| + η) * (u * |t| + η) := mul_self_le_mul_self (abs_nonneg _) h
  have h3 : |t| * |n - t| ≤ |t| * (u * |t| + η) := mul_le_mul_of_nonneg_left h (abs_nonneg _)
  rw [e]
  have h4 : |(n - t) * (n - t) + 2 * (t * (n - t))| ≤ |n - t| * |n - t| + 2 * (|t| * |n - t|) := by
    refine (abs_add_le _ _).trans ?_
    rw [abs_mul, abs_mul, abs_mul]; simp
  have h5 : t ^ 2 = |t| * |t| := by rw [abs_mul_abs_self, pow_two]
  rw [h5]
  have h6 : 0 ≤ |t| * |t| := by positivity
  have h7 : 0 ≤ |t| := abs_nonneg _
  refine h4.trans ?_
  have e2 : (u * |t| + η) * (u * |t| + η) = u * u * (|t| * |t|) + 2 * u * η * |t| + η * η := by ring
  have e3 : |t| * (u * |t| + η) = u * (|t| * |t|) + η * |t| := by ring
  rw [e2] at h2
  rw [e3] at h3
  rw [u_eq, η_eq] at *
  linarith

/-- together -/
theorem unit_of {ε δ : ℚ} {f : Fp → Fp} {s : V3 → Fp} (hs : SumOk s) (hf : Near ε f) (h0 : 0 ≤ ε) (h1 : ε ≤ 1 / 64)
    (hδ : 2 * ε + ε ^ 2 + 1 / 2 ^ 20 ≤ δ) (q : Q3) (hq : q.InRange) :
    ∃ n : Q3, scale q.fl (f (s q.fl)) = n.fl ∧ UnitOf δ q n := by
  obtain ⟨hA, hy⟩ := hq
  obtain ⟨m, hm, m0, hm1⟩ := hs q hA
  have hl : (2 : ℚ) ^ (-124 : ℤ) ≤ q.len2 := by
    have hx : ∀ c : ℚ, (2 : ℚ) ^ (-62 : ℤ) ≤ |c| → (2 : ℚ) ^ (-124 : ℤ) ≤ c ^ 2 := by
      intro c h
      rw [← sq_abs]
      calc (2 : ℚ) ^ (-124 : ℤ) = ((2 : ℚ) ^ (-62 : ℤ)) ^ 2 := by norm_num
        _ ≤ _ := pow_le_pow_left₀ (by positivity) h 2
    have h2 := sq_nonneg q.x
    have h3 := sq_nonneg q.y
    have h4 := sq_nonneg q.z
    unfold Q3.len2
    rcases hy with h | h | h <;> have := hx _ h <;> linarith
  have hu : q.len2 ≤ 3 * 2 ^ 126 := by
    obtain ⟨a, b, c⟩ := hA
    have a := sq_le a
    have b := sq_le b
    have c := sq_le c
    unfold Q3.len2; simp only [pow_two] at *; linarith
  set L := q.len2 with hL
  have hLp : 0 < L := lt_of_lt_of_le (by positivity) hl
  -- relative error of the sum
  have hm2 : |m - L| ≤ 1 / 2 ^ 21 * L := by
    refine hm1.trans ?_
    rw [u_eq, η_eq]
    norm_num at hl ⊢
    linarith
  have hm3 := abs_le.1 hm2
  have hmlo : (2 : ℚ) ^ (-126 : ℤ) ≤ m := by norm_num at hl hm3 ⊢; linarith [hm3.1]
  have hmhi : m < 2 ^ 128 := by norm_num at hm3 ⊢; linarith [hm3.2]
  obtain ⟨k, k0, hk, hk1, hk2⟩ := hf m hmlo hmhi
  have hkL : |k ^ 2 * L - 1| ≤ 2 * ε + ε ^ 2 + 3 / 2 ^ 22 := by
    have hkp : 0 < k ^ 2 := by positivity
    have d : |k ^ 2 * m - k ^ 2 * L| ≤ 1 / 2 ^ 21 * (k ^ 2 * L) := by
      have : k ^ 2 * m - k ^ 2 * L = k ^ 2 * (m - L) := by ring
      rw [this, abs_mul, abs_of_pos hkp]
      calc k ^ 2 * |m - L| ≤ k ^ 2 * (1 / 2 ^ 21 * L) := mul_le_mul_of_nonneg_left hm2 hkp.le
        _ = _ := by ring
    have d := abs_le.1 d
    generalize k ^ 2 * m = M at *
    generalize k ^ 2 * L = N at *
    have hε : ε ^ 2 ≤ 1 / 64 * ε := by rw [pow_two]; exact mul_le_mul_of_nonneg_right h1 h0
    have e1 : (1 - ε) ^ 2 = 1 - 2 * ε + ε ^ 2 := by ring
    have e2 : (1 + ε) ^ 2 = 1 + 2 * ε + ε ^ 2 := by ring
    rw [e1] at hk1
    rw [e2] at hk2
    have hε0 := sq_nonneg ε
    rw [abs_le]
    norm_num at d ⊢
    constructor <;> linarith [d.1, d.2]
  have hkL2 := abs_le.1 hkL
  have hε : ε ^ 2 ≤ 1 / 64 * ε := by rw [pow_two]; exact mul_le_mul_of_nonneg_right h1 h0
  have hN : k ^ 2 * L ≤ 17 / 16 := by norm_num at hkL2; linarith [hkL2.2]
  have hsum : k ^ 2 * L = (k * q.x) ^ 2 + (k * q.y) ^ 2 + (k * q.z) ^ 2 := by rw [hL]; unfold Q3.len2; ring
  have hsmall : ∀ t : ℚ, t ^ 2 ≤ 17 / 16 → |t| ≤ 2 := by
    intro t h
    apply abs_le_of_sq_le_sq _ (by norm_num)
    linarith
  have sx := sq_nonneg (k * q.x)
  have sy := sq_nonneg (k * q.y)
  have sz := sq_nonneg (k * q.z)
  have bx := hsmall (k * q.x) (by linarith)
  have by' := hsmall (k * q.y) (by linarith)
  have bz := hsmall (k * q.z) (by linarith)
  have fits : ∀ c : ℚ, |k * c| ≤ 2 → rnd single (c * k) = .num (raw single (c * k)) := by
    intro c h
    apply rnd_fits
    rw [mul_comm]
    exact h.trans (by norm_num)
  refine ⟨⟨raw single (q.x * k), raw single (q.y * k), raw single (q.z * k)⟩, ?_, ?_, k, k0, ?_, scaled_of k0, scaled_of k0,
    scaled_of k0⟩
  · rw [hm, hk]
    simp only [scale, Q3.fl, Fp.mul]
    rw [fits _ bx, fits _ by', fits _ bz]
  · have nx := abs_le.1 (scaled_sq (scaled_of k0) bx)
    have ny := abs_le.1 (scaled_sq (scaled_of k0) by')
    have nz := abs_le.1 (scaled_sq (scaled_of k0) bz)
    rw [Q3.len2]
    simp only
    rw [u_eq, η_eq] at *
    rw [abs_le]
    norm_num at hδ hkL2 ⊢
    constructor <;> linarith [nx.1, nx.2, ny.1, ny.2, nz.1, nz.2, hkL2.1, hkL2.2]
  · refine hkL.trans (le_trans ?_ hδ)
    norm_num

end CE.Normal
