import Verif.Spec.Regular
import Verif.Proof.CdtWalk
import Verif.Proof.CdtView
import Verif.Props.Delaunay
import Mathlib.Tactic.FieldSimp
import Mathlib.Tactic.Linarith
/-! Walks end in meshes over which there is a surface that bends upwards: the height of the plane of the face, at the place that
the walk goes to, grows. -/
namespace CE.Cdt

variable {m : Mesh} {F : Int → Int → ℝ}

/-- the height of the plane of the face of an edge at a place -/
noncomputable def Mesh.tilt (m : Mesh) (F : Int → Int → ℝ) (x y : ℚ) (i : Nat) : ℝ :=
  (m.height F (m.p i) * (m.crQ x y (m.p (nx i)) (m.p (pv i)) : ℚ) + m.height F (m.p (nx i)) * (m.crQ x y (m.p (pv i)) (m.p i) : ℚ) +
    m.height F (m.p (pv i)) * (m.crQ x y (m.p i) (m.p (nx i)) : ℚ)) / (m.cr (m.p i) (m.p (nx i)) (m.p (pv i)) : ℤ)

theorem tilt_nx {x y : ℚ} {s i} (hi : IsE s i) : m.tilt F x y (nx i) = m.tilt F x y i := by
  unfold Mesh.tilt; rw [hi.nx_nx, hi.pv_nx, cr_rot m (m.p i)]; ring

theorem tilt_pv {x y : ℚ} {s i} (hi : IsE s i) : m.tilt F x y (pv i) = m.tilt F x y i := by
  unfold Mesh.tilt; rw [hi.nx_pv, hi.pv_pv, cr_rot' m (m.p i)]; ring

/-- the planes on both sides of an edge -/
theorem tilt_cross (h : Inv m) {i} (hi : IsE m.size i) (he : m.e i ≠ 0) (x y : ℚ) : ∃ k : ℝ, 0 < k ∧
    m.tilt F x y (m.e i) - m.tilt F x y i =
      k * (m.height F (m.p (m.e i)) - m.tilt F (m.x (m.p (m.e i))) (m.y (m.p (m.e i))) i) * (m.crQ x y (m.p (nx i)) (m.p (pv i)) : ℚ) := by
  have P := h.pair hi he
  have c1 := h.cw i hi
  have c2 := h.cw _ P.ib
  unfold Mesh.tilt
  rw [P.n1, P.n2] at c2 ⊢
  generalize m.p i = A at *
  generalize m.p (nx i) = U at *
  generalize m.p (pv i) = V at *
  generalize m.p (m.e i) = D at *
  have d1 : ((m.cr A U V : ℤ) : ℝ) ≠ 0 := by exact_mod_cast c1.ne
  have d2 : ((m.cr D V U : ℤ) : ℝ) < 0 := by exact_mod_cast c2
  refine ⟨-1 / (m.cr D V U : ℤ), div_pos_of_neg_of_neg (by norm_num) d2, ?_⟩
  have d2 := d2.ne
  unfold Mesh.crQ
  unfold Mesh.cr at d1 d2 ⊢
  push_cast at d1 d2 ⊢
  field_simp
  ring

/-- the measure in `Upward` -/
theorem above_tilt (h : Inv m) {f j v} (u : Used m f) (hj : j < 3) : m.above F f v = m.height F v - m.tilt F (m.x v) (m.y v) (4 * f + j) := by
  have h0 : IsE m.size (4 * f) := u.isE (j := 0) (by omega)
  have B := base h0 (by omega)
  have e : m.tilt F (m.x v) (m.y v) (4 * f + j) = m.tilt F (m.x v) (m.y v) (4 * f) := by
    have : j = 0 ∨ j = 1 ∨ j = 2 := by omega
    rcases this with rfl | rfl | rfl
    · rfl
    · rw [← B.n0]; exact tilt_nx h0
    · rw [← B.p0]; exact tilt_pv h0
  have c := h.cw _ h0
  rw [B.n0, B.p0] at c
  have d : ((m.cr (m.p (4 * f)) (m.p (4 * f + 1)) (m.p (4 * f + 2)) : ℤ) : ℝ) ≠ 0 := by exact_mod_cast c.ne
  rw [e]
  have z : m.size2 f = -((m.cr (m.p (4 * f)) (m.p (4 * f + 1)) (m.p (4 * f + 2)) : ℤ) : ℝ) := rfl
  have zn : m.size2 f ≠ 0 := by rw [z]; exact neg_ne_zero.2 d
  have sx : m.slopeX F f * m.size2 f = _ := div_mul_cancel₀ _ zn
  have sy : m.slopeY F f * m.size2 f = _ := div_mul_cancel₀ _ zn
  rw [z] at sx sy
  unfold Mesh.above Mesh.tilt
  rw [B.n0, B.p0, sub_right_inj, eq_div_iff d]
  have k0 : m.corner f 0 = m.p (4 * f) := rfl
  have k1 : m.corner f 1 = m.p (4 * f + 1) := rfl
  have k2 : m.corner f 2 = m.p (4 * f + 2) := rfl
  rw [k0, k1, k2] at sx sy
  rw [k0]
  unfold Mesh.crQ
  unfold Mesh.cr at sx sy ⊢
  push_cast at sx sy ⊢
  linear_combination -(m.x v - m.x (m.p (4 * f)) : ℝ) * sx - (m.y v - m.y (m.p (4 * f)) : ℝ) * sy

/-- the order that the walk descends -/
def Mesh.under (m : Mesh) (F : Int → Int → ℝ) (x y : ℚ) (i j : Nat) : Prop :=
  m.tilt F x y j < m.tilt F x y i ∨ (m.tilt F x y i = m.tilt F x y j ∧ m.below x y i j)

theorem under_trans {x y : ℚ} {i j k} (h1 : m.under F x y i j) (h2 : m.under F x y j k) : m.under F x y i k := by
  unfold Mesh.under at *
  rcases h1 with a | ⟨a, b⟩ <;> rcases h2 with c | ⟨c, d⟩
  · exact Or.inl (c.trans a)
  · exact Or.inl (c ▸ a)
  · exact Or.inl (a ▸ c)
  · exact Or.inr ⟨a.trans c, below_trans b d⟩

theorem under_irrefl {x y : ℚ} {i} : ¬ m.under F x y i i := by
  unfold Mesh.under
  rintro (h | ⟨-, h⟩)
  · exact lt_irrefl _ h
  · exact below_irrefl h

theorem Upward.tame (h : Inv m) (U : m.Upward F) : Tame m := by
  classical
  intro x y
  refine ⟨fun j => (m.es.filter fun k => m.under F x y k j).card, fun j k hj hk he hq => ?_, fun j => (Finset.card_filter_le _ _).trans es_card⟩
  have hk' : IsE m.size k := by rcases hk with rfl | rfl; exacts [hj.nx, hj.pv]
  have P := h.pair hk' he
  have hu : m.under F x y (m.e k) j := by
    have et : m.tilt F x y k = m.tilt F x y j := by rcases hk with rfl | rfl; exacts [tilt_nx hj, tilt_pv hj]
    have ep : m.pw x y k = m.pw x y j := by rcases hk with rfl | rfl; exacts [pw_nx hj, pw_pv hj]
    obtain ⟨f, l, u, hl, ek⟩ : ∃ f l, Used m f ∧ l < 3 ∧ k = 4 * f + l :=
      ⟨k / 4, k % 4, by unfold IsE at hk'; unfold Used; omega, by unfold IsE at hk'; omega, by omega⟩
    have up := U f l u hl (ek ▸ he)
    rw [circle_dt u hl, above_tilt h u hl, ← ek] at up
    obtain ⟨c, hc, e⟩ := tilt_cross (F := F) h hk' he x y
    have q : (0 : ℝ) < (m.crQ x y (m.p (nx k)) (m.p (pv k)) : ℚ) := by exact_mod_cast hq
    unfold Mesh.under
    rw [← et]
    rcases up with a | ⟨a, b⟩
    · have := mul_pos (mul_pos hc a) q
      exact Or.inl (by linarith)
    · rw [a, mul_zero, zero_mul] at e
      refine Or.inr ⟨by linarith, ?_⟩
      unfold Mesh.below
      rw [← ep]
      rcases pw_cross h hk' he b hq with c | ⟨c, d⟩
      · exact Or.inl c
      · exact Or.inr ⟨c, cnt_cross h hj hk he d⟩
  apply Finset.card_lt_card
  rw [Finset.ssubset_iff_of_subset]
  · exact ⟨m.e k, Finset.mem_filter.2 ⟨mem_es.2 P.ib, hu⟩, fun hc => under_irrefl (Finset.mem_filter.1 hc).2⟩
  · intro l hl
    rw [Finset.mem_filter] at hl ⊢
    exact ⟨hl.1, under_trans hl.2 hu⟩

end CE.Cdt
