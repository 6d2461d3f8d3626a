import Verif.Proof.CdtLocate
/-! The faces of a mesh do not overlap and cover the square, and vertices are only at corners. -/
namespace CE.Cdt

open CE.Vec

variable {m m' : Mesh}

/-! ### small displacements -/

theorem near {c : ℚ} (hc : c < 0) (B : ℚ) : ∃ d0 > 0, ∀ δ, 0 < δ → δ < d0 → c + δ * B < 0 := by
  refine ⟨-c / (|B| + 1), div_pos (by linarith) (by positivity), fun δ h0 h1 => ?_⟩
  rw [lt_div_iff₀ (by positivity)] at h1
  have := le_abs_self B
  nlinarith [mul_nonneg h0.le (sub_nonneg.2 this)]

theorem ev_neg {S : ℚ} (hS : S < 0) (A B : ℚ) : Eventually fun ε δ => S + ε * A + δ * B < 0 := by
  obtain ⟨e0, h0, h⟩ := near hS A
  exact ⟨e0, h0, fun ε h1 h2 => near (h ε h1 h2) B⟩

theorem ev_pos {S : ℚ} (hS : 0 < S) (A B : ℚ) : Eventually fun ε δ => 0 < S + ε * A + δ * B :=
  (ev_neg (S := -S) (by linarith) (-A) (-B)).mono fun ε δ h => by linarith

theorem near_ne {c : ℚ} (hc : c ≠ 0) (B : ℚ) : ∃ d0 > 0, ∀ δ, 0 < δ → δ < d0 → c + δ * B ≠ 0 := by
  rcases lt_or_gt_of_ne hc with h | h
  · obtain ⟨d, h0, hd⟩ := near h B
    exact ⟨d, h0, fun δ h1 h2 => ne_of_lt (hd δ h1 h2)⟩
  · obtain ⟨d, h0, hd⟩ := near (c := -c) (by linarith) (-B)
    exact ⟨d, h0, fun δ h1 h2 e => by have := hd δ h1 h2; linarith⟩

theorem ev_ne {S A B : ℚ} (h : S ≠ 0 ∨ A ≠ 0 ∨ B ≠ 0) : Eventually fun ε δ => S + ε * A + δ * B ≠ 0 := by
  by_cases hS : S = 0
  · by_cases hA : A = 0
    · have hB : B ≠ 0 := by tauto
      refine ⟨1, one_pos, fun ε _ _ => ⟨1, one_pos, fun δ h0 _ => ?_⟩⟩
      rw [hS, hA]; simp only [mul_zero, add_zero, zero_add]
      exact mul_ne_zero h0.ne' hB
    · refine ⟨1, one_pos, fun ε h0 _ => ?_⟩
      exact near_ne (by rw [hS, zero_add]; exact mul_ne_zero h0.ne' hA) B
  · obtain ⟨e0, h0, h⟩ := near_ne hS A
    exact ⟨e0, h0, fun ε h1 h2 => near_ne (h ε h1 h2) B⟩

/-! ### how many faces have a point in their interior -/

theorem count_at (Ts : List Tri) (hcw : ∀ T ∈ Ts, T.Clockwise) (Bd : Multiset (V2 × V2)) (hb : IsBoundary Ts Bd) (x y : ℚ)
    (hne : ∀ T ∈ Ts, ∀ e ∈ T.edges, side x y e ≠ 0) (r : Tri → Bool) (hr : ∀ T ∈ Ts, (r T = true ↔ T.Interior x y)) :
    (Bd.map (seenAngle (x : ℝ) (y : ℝ))).sum = -2 * Real.pi * (Ts.countP r : ℕ) := by
  classical
  obtain ⟨I, hI, hsplit⟩ := hb
  have hne' : ∀ e ∈ I, side x y e ≠ 0 := by
    intro e he
    have : e ∈ ((Ts.flatMap Tri.edges : List _) : Multiset _) := by
      rw [hsplit]; exact Multiset.mem_add.2 (Or.inr he)
    rw [Multiset.mem_coe, List.mem_flatMap] at this
    obtain ⟨T, hT, heT⟩ := this
    exact hne T hT e heT
  have hI0 : (I.map (seenAngle (x : ℝ) (y : ℝ))).sum = 0 := by
    have h1 : (I.map (seenAngle (x : ℝ) (y : ℝ))).sum = -(I.map (seenAngle (x : ℝ) (y : ℝ))).sum := by
      conv_lhs => rw [← hI]
      rw [Multiset.map_map, ← Multiset.sum_map_neg']
      congr 1
      rw [Multiset.map_map]
      apply Multiset.map_congr rfl
      intro e he
      exact seenAngle_swap (hne' e he)
    linarith
  have htot : (((Ts.flatMap Tri.edges : List _) : Multiset _).map (seenAngle (x : ℝ) (y : ℝ))).sum =
      -2 * Real.pi * (Ts.countP r : ℕ) := by
    rw [Multiset.map_coe, Multiset.sum_coe]
    clear hsplit
    induction Ts with
    | nil => simp
    | cons T Ts ih =>
      rw [List.flatMap_cons, List.map_append, List.sum_append, ih (fun S hS => hcw S (by simp [hS]))
        (fun S hS => hne S (by simp [hS])) (fun S hS => hr S (by simp [hS])), List.countP_cons,
        tri_angle T (hcw T (by simp)) x y (hne T (by simp))]
      have := hr T (by simp)
      by_cases hrt : r T = true
      · rw [if_pos (this.1 hrt), if_pos hrt]; push_cast; ring
      · rw [if_neg (fun hc => hrt (this.2 hc)), if_neg hrt]; push_cast; ring
  rw [hsplit, Multiset.map_add, Multiset.sum_add, hI0, add_zero] at htot
  exact htot

/-- cross product of two vertices seen from a rational point -/
def Mesh.crQ (m : Mesh) (x y : ℚ) (a b : Nat) : ℚ := (m.x a - x) * (m.y b - y) - (m.y a - y) * (m.x b - x)

theorem crQ_cast (m : Mesh) (px py : ℤ) (a b : Nat) : m.crQ px py a b = ((m.crP px py a b : ℤ) : ℚ) := by
  unfold Mesh.crQ Mesh.crP; push_cast; ring

theorem crQ_swap (m : Mesh) (x y : ℚ) (a b : Nat) : m.crQ x y b a = - m.crQ x y a b := by unfold Mesh.crQ; ring

theorem crQ_sum (m : Mesh) (x y : ℚ) (a b c : Nat) :
    m.crQ x y b c + m.crQ x y c a + m.crQ x y a b = (m.cr a b c : ℤ) := by unfold Mesh.crQ Mesh.cr; push_cast; ring

/-- the rational point is strictly inside the face of the edge -/
def Mesh.InOpen (m : Mesh) (x y : ℚ) (i : Nat) : Prop :=
  m.crQ x y (m.p i) (m.p (nx i)) < 0 ∧ m.crQ x y (m.p (nx i)) (m.p (pv i)) < 0 ∧ m.crQ x y (m.p (pv i)) (m.p i) < 0

/-- the rational point is in the face of the edge or on its boundary -/
def Mesh.InShut (m : Mesh) (x y : ℚ) (i : Nat) : Prop :=
  m.crQ x y (m.p i) (m.p (nx i)) ≤ 0 ∧ m.crQ x y (m.p (nx i)) (m.p (pv i)) ≤ 0 ∧ m.crQ x y (m.p (pv i)) (m.p i) ≤ 0

theorem shut_iff {px py : ℤ} {i : Nat} : m.InShut px py i ↔ m.InClosed px py i := by
  unfold Mesh.InShut Mesh.InClosed
  simp only [crQ_cast]
  norm_cast

theorem InOpen.nx {s i} {x y : ℚ} (hi : IsE s i) (h : m.InOpen x y i) : m.InOpen x y (Cdt.nx i) := by
  unfold Mesh.InOpen at *; rw [hi.nx_nx, hi.pv_nx]; exact ⟨h.2.1, h.2.2, h.1⟩
theorem InOpen.pv {s i} {x y : ℚ} (hi : IsE s i) (h : m.InOpen x y i) : m.InOpen x y (Cdt.pv i) := by
  unfold Mesh.InOpen at *; rw [hi.nx_pv, hi.pv_pv]; exact ⟨h.2.2, h.1, h.2.1⟩
theorem InShut.nx {s i} {x y : ℚ} (hi : IsE s i) (h : m.InShut x y i) : m.InShut x y (Cdt.nx i) := by
  unfold Mesh.InShut at *; rw [hi.nx_nx, hi.pv_nx]; exact ⟨h.2.1, h.2.2, h.1⟩
theorem InShut.pv {s i} {x y : ℚ} (hi : IsE s i) (h : m.InShut x y i) : m.InShut x y (Cdt.pv i) := by
  unfold Mesh.InShut at *; rw [hi.nx_pv, hi.pv_pv]; exact ⟨h.2.2, h.1, h.2.1⟩

theorem InOpen.base {s i} {x y : ℚ} (hi : IsE s i) (h : m.InOpen x y i) : m.InOpen x y (i / 4 * 4) := by
  rcases hi.thirds with ⟨e1, e2, e3⟩ | ⟨e1, e2, e3⟩ | ⟨e1, e2, e3⟩
  · rw [show i / 4 * 4 = i by omega]; exact h
  · rw [show i / 4 * 4 = Cdt.pv i by omega]; exact InOpen.pv hi h
  · rw [show i / 4 * 4 = Cdt.nx i by omega]; exact InOpen.nx hi h

theorem InShut.base {s i} {x y : ℚ} (hi : IsE s i) (h : m.InShut x y i) : m.InShut x y (i / 4 * 4) := by
  rcases hi.thirds with ⟨e1, e2, e3⟩ | ⟨e1, e2, e3⟩ | ⟨e1, e2, e3⟩
  · rw [show i / 4 * 4 = i by omega]; exact h
  · rw [show i / 4 * 4 = Cdt.pv i by omega]; exact InShut.pv hi h
  · rw [show i / 4 * 4 = Cdt.nx i by omega]; exact InShut.nx hi h

theorem side_pt (m : Mesh) (x y : ℚ) (a b : Nat) : side x y (m.pt 1 a, m.pt 1 b) = m.crQ x y a b := by
  unfold side crossQ Mesh.pt Mesh.crQ; push_cast; ring

theorem tri_open {f : Nat} (hf : IsF m.size f) {x y : ℚ} : (m.tri 1 f).Interior x y ↔ m.InOpen x y (4 * f) := by
  have B := base hf.edges.1 (by omega)
  unfold Tri.Interior Tri.edges Mesh.tri Mesh.InOpen
  simp only [List.mem_cons, List.not_mem_nil, or_false, forall_eq_or_imp, forall_eq, side_pt, B.n0, B.p0]

/-- displacing the point -/
theorem crQ_move (m : Mesh) (x y s t ε δ : ℚ) (a b : Nat) :
    m.crQ (x + s * ε) (y + t * δ) a b = m.crQ x y a b + ε * (s * (m.y a - m.y b)) + δ * (t * (m.x b - m.x a)) := by
  unfold Mesh.crQ; ring

theorem edge_ne (h : Inv m) {i} (hi : IsE m.size i) : m.y (m.p (nx i)) ≠ m.y (m.p (pv i)) ∨ m.x (m.p (nx i)) ≠ m.x (m.p (pv i)) := by
  by_contra hc
  push Not at hc
  have := h.cw i hi
  unfold Mesh.cr at this
  rw [hc.1, hc.2] at this
  linarith

/-- away from the lines of all edges -/
theorem generic (h : Inv m) (x y s t : ℚ) (hs : s ≠ 0) (ht : t ≠ 0) :
    Eventually fun ε δ => ∀ i ∈ m.es.toList, m.crQ (x + s * ε) (y + t * δ) (m.p (nx i)) (m.p (pv i)) ≠ 0 := by
  refine Eventually.all _ fun i hi => ?_
  rw [Finset.mem_toList, mem_es] at hi
  refine (ev_ne (S := m.crQ x y (m.p (nx i)) (m.p (pv i))) (A := s * (m.y (m.p (nx i)) - m.y (m.p (pv i)) : ℚ))
    (B := t * (m.x (m.p (pv i)) - m.x (m.p (nx i)) : ℚ)) ?_).mono fun ε δ e => by rw [crQ_move]; exact e
  right
  rcases edge_ne h hi with e | e
  · exact Or.inl (mul_ne_zero hs (sub_ne_zero.2 (by exact_mod_cast e)))
  · exact Or.inr (mul_ne_zero ht (sub_ne_zero.2 (by exact_mod_cast Ne.symm e)))

/-- the strict square -/
def InBox (x y : ℚ) : Prop := (-32768 < x ∧ x < 32767) ∧ (-32768 < y ∧ y < 32767)

theorem count_open (h : Inv m) (R : Rim m) (x y : ℚ) (g : ∀ i, IsE m.size i → m.crQ x y (m.p (nx i)) (m.p (pv i)) ≠ 0)
    (hd : x + y ≠ -1) (r : Tri → Bool) (hr : ∀ T ∈ m.tris 1, (r T = true ↔ T.Interior x y))
    (hr' : ∀ T ∈ pairOf 1, (r T = true ↔ T.Interior x y)) :
    (m.tris 1).countP r ≤ 1 ∧ (InBox x y → (m.tris 1).countP r = 1) := by
  have e1 := count_at (m.tris 1) (tris_clockwise h one_pos) (square 1) (tris_boundary h R 1) x y (by
    intro T hT e he
    obtain ⟨f, hF, rfl⟩ := mem_tris.1 hT
    have B := base hF.edges.1 (by omega)
    unfold Tri.edges Mesh.tri at he
    simp only [List.mem_cons, List.not_mem_nil, or_false] at he
    rcases he with rfl | rfl | rfl
    · have := g _ B.i2; rw [B.n2, B.p2] at this; rw [side_pt]; exact this
    · have := g _ B.i0; rw [B.n0, B.p0] at this; rw [side_pt]; exact this
    · have := g _ B.i1; rw [B.n1, B.p1] at this; rw [side_pt]; exact this) r hr
  have bdne : ∀ s ∈ sides, side x y (m.pt 1 s.1, m.pt 1 s.2) ≠ 0 := by
    intro s hs
    obtain ⟨i, b, e, -⟩ := R.one s hs
    have := g i b.1
    unfold Mesh.ends at e
    rw [← e, side_pt]; exact this
  have b1 := bdne (1, 0) (by decide)
  have b2 := bdne (0, 2) (by decide)
  have b3 := bdne (2, 3) (by decide)
  have b4 := bdne (3, 1) (by decide)
  unfold Mesh.pt at b1 b2 b3 b4
  simp only [R.xy0.1, R.xy0.2, R.xy1.1, R.xy1.2, R.xy2.1, R.xy2.2, R.xy3.1, R.xy3.2] at b1 b2 b3 b4
  have dg : side x y (⟨-32768 * 1, 32767 * 1⟩, ⟨32767 * 1, -32768 * 1⟩) ≠ 0 := by
    unfold side crossQ
    push_cast
    intro e
    exact hd (by linarith)
  have dg' : side x y (⟨32767 * 1, -32768 * 1⟩, ⟨-32768 * 1, 32767 * 1⟩) ≠ 0 := by rw [side_swap]; exact neg_ne_zero.2 dg
  have e2 := count_at (pairOf 1) (two_clockwise one_pos) (square 1) (two_boundary 1) x y (by
    intro T hT e he
    unfold pairOf at hT
    simp only [List.mem_cons, List.not_mem_nil, or_false] at hT
    rcases hT with rfl | rfl <;> unfold Tri.edges at he <;> simp only [List.mem_cons, List.not_mem_nil, or_false] at he <;>
      rcases he with rfl | rfl | rfl <;> assumption) r hr'
  rw [e1] at e2
  have hp : (-2 * Real.pi : ℝ) ≠ 0 := by have := Real.pi_pos; intro hc; linarith
  have e3 : (m.tris 1).countP r = (pairOf 1).countP r := by exact_mod_cast mul_left_cancel₀ hp e2
  have pl : (pairOf 1).countP r ≤ 1 := by
    have := two_planar (w := 1)
    unfold pairOf Planar at this
    rw [List.pairwise_cons] at this
    have k := this.1 _ (List.mem_singleton.2 rfl) x y
    unfold pairOf at hr' ⊢
    rw [List.countP_cons, List.countP_cons, List.countP_nil]
    have a := hr' _ (List.mem_cons_self ..)
    have b := hr' _ (List.mem_cons_of_mem _ (List.mem_cons_self ..))
    by_cases c1 : r ⟨⟨-32768 * 1, -32768 * 1⟩, ⟨-32768 * 1, 32767 * 1⟩, ⟨32767 * 1, -32768 * 1⟩⟩ = true <;>
      by_cases c2 : r ⟨⟨32767 * 1, 32767 * 1⟩, ⟨32767 * 1, -32768 * 1⟩, ⟨-32768 * 1, 32767 * 1⟩⟩ = true
    · exact absurd ⟨a.1 c1, b.1 c2⟩ k
    all_goals simp only [mul_one] at c1 c2; simp [c1, c2]
  refine ⟨by omega, fun hb => ?_⟩
  have ex : 0 < (pairOf 1).countP r := by
    rw [List.countP_pos_iff]
    have := (two_interior (w := 1) one_pos x y dg).2 (by
      unfold InBox at hb; push_cast; norm_num; exact hb)
    obtain ⟨T, h1, h2⟩ := this
    exact ⟨T, h1, (hr' T h1).2 h2⟩
  omega

/-- a point away from the lines -/
theorem off_diag (x y s t : ℚ) (hs : s ≠ 0) : Eventually fun ε δ => (x + s * ε) + (y + t * δ) ≠ -1 :=
  (ev_ne (S := x + y + 1) (A := s) (B := t) (Or.inr (Or.inl hs))).mono fun ε δ e e' => e (by linarith)

/-- two different faces have no interior point in common -/
theorem planar (h : Inv m) (R : Rim m) {i j : Nat} (hi : IsE m.size i) (hj : IsE m.size j) {x y : ℚ} (oi : m.InOpen x y i)
    (oj : m.InOpen x y j) : i / 4 = j / 4 := by
  classical
  have mv : ∀ {k}, m.InOpen x y k → Eventually fun ε δ => m.InOpen (x + 1 * ε) (y + 1 * δ) k := by
    intro k o
    refine ((ev_neg o.1 (1 * (m.y (m.p k) - m.y (m.p (nx k)) : ℚ)) (1 * (m.x (m.p (nx k)) - m.x (m.p k) : ℚ))).and
      ((ev_neg o.2.1 (1 * (m.y (m.p (nx k)) - m.y (m.p (pv k)) : ℚ)) (1 * (m.x (m.p (pv k)) - m.x (m.p (nx k)) : ℚ))).and
      (ev_neg o.2.2 (1 * (m.y (m.p (pv k)) - m.y (m.p k) : ℚ)) (1 * (m.x (m.p k) - m.x (m.p (pv k)) : ℚ))))).mono ?_
    rintro ε δ ⟨a, b, c⟩
    unfold Mesh.InOpen
    rw [crQ_move, crQ_move, crQ_move]
    exact ⟨a, b, c⟩
  obtain ⟨ε, δ, ⟨o1, o2⟩, g, d⟩ := (((mv oi).and (mv oj)).and ((generic h x y 1 1 one_ne_zero one_ne_zero).and
    (off_diag x y 1 1 one_ne_zero))).exists
  have c := (count_open h R _ _ (fun k hk => g k (Finset.mem_toList.2 (mem_es.2 hk))) d
    (fun T => decide (T.Interior (x + 1 * ε) (y + 1 * δ))) (fun T _ => by simp) (fun T _ => by simp)).1
  unfold Mesh.tris at c
  rw [List.countP_map] at c
  have fi : IsF m.size (i / 4) := by unfold IsE at hi; unfold IsF; omega
  have fj : IsF m.size (j / 4) := by unfold IsE at hj; unfold IsF; omega
  refine countP_le_one List.nodup_range' c ?_ ?_ ?_ ?_
  · rw [List.mem_range'_1]; unfold IsF at fi; omega
  · rw [List.mem_range'_1]; unfold IsF at fj; omega
  · simp only [Function.comp, decide_eq_true_eq]
    rw [tri_open fi, show 4 * (i / 4) = i / 4 * 4 by omega]; exact InOpen.base hi o1
  · simp only [Function.comp, decide_eq_true_eq]
    rw [tri_open fj, show 4 * (j / 4) = j / 4 * 4 by omega]; exact InOpen.base hj o2

/-- every point of the square is in a face -/
theorem covered (h : Inv m) (R : Rim m) {x y : ℚ} (hx : -32768 ≤ x ∧ x ≤ 32767) (hy : -32768 ≤ y ∧ y ≤ 32767) :
    ∃ i, IsE m.size i ∧ m.InShut x y i := by
  classical
  by_contra hc
  push Not at hc
  have sg : ∀ {v : ℚ}, -32768 ≤ v ∧ v ≤ 32767 → ∃ s : ℚ, s ≠ 0 ∧ ∀ ε, 0 < ε → ε < 1 → -32768 < v + s * ε ∧ v + s * ε < 32767 := by
    intro v hv
    by_cases h0 : v ≤ 0
    · exact ⟨1, one_ne_zero, fun ε a b => ⟨by linarith [hv.1], by linarith⟩⟩
    · exact ⟨-1, by norm_num, fun ε a b => ⟨by linarith, by linarith [hv.2]⟩⟩
  obtain ⟨s, hs, bs⟩ := sg hx
  obtain ⟨t, ht, bt⟩ := sg hy
  have out : Eventually fun ε δ => ∀ i ∈ m.es.toList, ¬ m.InOpen (x + s * ε) (y + t * δ) i := by
    refine Eventually.all _ fun i hi => ?_
    rw [Finset.mem_toList, mem_es] at hi
    have := hc i hi
    unfold Mesh.InShut at this
    have key : ∀ a b, 0 < m.crQ x y a b → Eventually fun ε δ => 0 < m.crQ (x + s * ε) (y + t * δ) a b := fun a b hp =>
      (ev_pos hp _ _).mono fun ε δ e => by rw [crQ_move]; exact e
    by_cases c1 : m.crQ x y (m.p i) (m.p (nx i)) ≤ 0
    · by_cases c2 : m.crQ x y (m.p (nx i)) (m.p (pv i)) ≤ 0
      · exact (key _ _ (not_le.1 fun c3 => this ⟨c1, c2, c3⟩)).mono fun ε δ e o => by have := o.2.2; linarith
      · exact (key _ _ (not_le.1 c2)).mono fun ε δ e o => by have := o.2.1; linarith
    · exact (key _ _ (not_le.1 c1)).mono fun ε δ e o => by have := o.1; linarith
  obtain ⟨ε, δ, o, g, d, e0, e1, d0, d1⟩ := (out.and ((generic h x y s t hs ht).and
    ((off_diag x y s t hs).and (Eventually.small 1 one_pos)))).exists
  have c := (count_open h R _ _ (fun k hk => g k (Finset.mem_toList.2 (mem_es.2 hk))) d
    (fun T => decide (T.Interior (x + s * ε) (y + t * δ))) (fun T _ => by simp) (fun T _ => by simp)).2
    ⟨bs ε e0 e1, bt δ d0 d1⟩
  have : 0 < (m.tris 1).countP (fun T => decide (T.Interior (x + s * ε) (y + t * δ))) := by omega
  rw [List.countP_pos_iff] at this
  obtain ⟨T, hT, hI⟩ := this
  obtain ⟨f, hF, rfl⟩ := mem_tris.1 hT
  rw [decide_eq_true_eq, tri_open hF] at hI
  exact o _ (Finset.mem_toList.2 (mem_es.2 hF.edges.1)) hI

/-! ### every vertex is a corner -/

/-- every vertex is a corner of a face -/
def Cover (m : Mesh) : Prop := ∀ v, v < m.size → ∃ i, IsE m.size i ∧ m.p i = v

theorem Step.cover (s : Step m m') (h : Inv m) (C : Cover m) : Cover m' := by
  cases s with
  | @flip _ a b P hc h1 h2 S =>
    intro v hv
    rw [S.size] at hv ⊢
    have A := P.apart
    obtain ⟨i, hi, e⟩ := C v hv
    by_cases c1 : i = nx a
    · exact ⟨pv b, P.ib.pv, by rw [S.p3 _ (Ne.symm A.np) (Ne.symm A.npb), P.n2, ← c1, e]⟩
    by_cases c2 : i = nx b
    · exact ⟨pv a, P.ia.pv, by rw [S.ppa P, ← P.n1, ← c2, e]⟩
    exact ⟨i, hi, by rw [S.p3 _ c1 c2, e]⟩
  | @face _ px py u hu hu4 hx hy h0 h1 h2 S =>
    intro v hv
    rw [S.size] at hv ⊢
    have hs := h.sz
    obtain ⟨j0, j1, j2, j4, j5, j6⟩ := newIs (n := m.size) (by omega)
    by_cases e : v = m.size
    · exact ⟨8 * m.size + 1, j1, by rw [S.pv1, e]⟩
    · obtain ⟨i, hi, e'⟩ := C v (by omega)
      by_cases c : i = u
      · exact ⟨8 * m.size, j0, by rw [S.pv0, ← c, e']⟩
      · exact ⟨i, hi.succ, by rw [S.p _ hi.2.1 c, e']⟩
  | @edge _ px py a b E hx hy S =>
    intro v hv
    rw [S.size] at hv ⊢
    have hs := h.sz
    obtain ⟨j0, j1, j2, j4, j5, j6⟩ := newIs (n := m.size) (by omega)
    by_cases e : v = m.size
    · exact ⟨8 * m.size + 1, j1, by rw [S.px1, e]⟩
    · obtain ⟨i, hi, e'⟩ := C v (by omega)
      by_cases c : i = pv a
      · exact ⟨8 * m.size + 2, j2, by rw [S.px2, ← c, e']⟩
      by_cases c' : i = nx b
      · exact ⟨8 * m.size + 5, j5, by rw [S.py1, ← c', e']⟩
      exact ⟨i, hi.succ, by rw [S.p _ hi.2.1 c c', e']⟩
  | con hi => exact C
  | info => exact C

theorem Steps.cover (s : Steps m m') (h : Inv m) (C : Cover m) : Cover m' := by
  induction s with
  | refl => exact C
  | step s _ ih => exact ih (s.inv h) (s.cover h C)

theorem reset_cover (m : Mesh) : Cover (reset m) := by
  intro v hv
  have : v = 0 ∨ v = 1 ∨ v = 2 ∨ v = 3 := by have : v < 4 := hv; omega
  rcases this with rfl | rfl | rfl | rfl
  · exact ⟨24, by simp [reset, IsE], by simp [reset]⟩
  · exact ⟨26, by simp [reset, IsE], by simp [reset]⟩
  · exact ⟨25, by simp [reset, IsE], by simp [reset]⟩
  · exact ⟨28, by simp [reset, IsE], by simp [reset]⟩

/-- vertices are on the inner side of the outline -/
theorem Rim.inner (R : Rim m) {i} (b : Bnd m i) {x y : ℤ} (hx : Is16 x) (hy : Is16 y) :
    m.crP x y (m.p (nx i)) (m.p (pv i)) ≤ 0 := by
  have hm := R.mem i b
  unfold Is16 at hx hy
  unfold sides Mesh.ends at hm
  simp only [List.mem_cons, List.not_mem_nil, or_false, Prod.mk.injEq] at hm
  unfold Mesh.crP
  rcases hm with ⟨e1, e2⟩ | ⟨e1, e2⟩ | ⟨e1, e2⟩ | ⟨e1, e2⟩
  · rw [e1, e2, R.xy0.1, R.xy0.2, R.xy1.1, R.xy1.2]; nlinarith
  · rw [e1, e2, R.xy0.1, R.xy0.2, R.xy2.1, R.xy2.2]; nlinarith
  · rw [e1, e2, R.xy2.1, R.xy2.2, R.xy3.1, R.xy3.2]; nlinarith
  · rw [e1, e2, R.xy3.1, R.xy3.2, R.xy1.1, R.xy1.2]; nlinarith

/-- points of a face near one of its corners -/
theorem corner_open (h : Inv m) {j} (hj : IsE m.size j) : Eventually fun ε δ =>
    m.InOpen (m.x (m.p j) + ε * (m.x (m.p (nx j)) - m.x (m.p j)) + δ * (m.x (m.p (pv j)) - m.x (m.p j)))
      (m.y (m.p j) + ε * (m.y (m.p (nx j)) - m.y (m.p j)) + δ * (m.y (m.p (pv j)) - m.y (m.p j))) j := by
  refine (Eventually.small (1 / 2) (by norm_num)).mono ?_
  rintro ε δ ⟨e0, e1, d0, d1⟩
  have c : ((m.cr (m.p j) (m.p (nx j)) (m.p (pv j)) : ℤ) : ℚ) < 0 := by exact_mod_cast h.cw j hj
  have f1 : ∀ x y : ℚ, x = m.x (m.p j) + ε * (m.x (m.p (nx j)) - m.x (m.p j)) + δ * (m.x (m.p (pv j)) - m.x (m.p j)) →
      y = m.y (m.p j) + ε * (m.y (m.p (nx j)) - m.y (m.p j)) + δ * (m.y (m.p (pv j)) - m.y (m.p j)) →
      m.crQ x y (m.p j) (m.p (nx j)) = δ * (m.cr (m.p j) (m.p (nx j)) (m.p (pv j)) : ℤ) ∧
      m.crQ x y (m.p (nx j)) (m.p (pv j)) = (1 - ε - δ) * (m.cr (m.p j) (m.p (nx j)) (m.p (pv j)) : ℤ) ∧
      m.crQ x y (m.p (pv j)) (m.p j) = ε * (m.cr (m.p j) (m.p (nx j)) (m.p (pv j)) : ℤ) := by
    rintro x y rfl rfl
    unfold Mesh.crQ Mesh.cr
    push_cast
    refine ⟨?_, ?_, ?_⟩ <;> ring
  obtain ⟨a, b, d⟩ := f1 _ _ rfl rfl
  unfold Mesh.InOpen
  rw [a, b, d]
  exact ⟨mul_neg_of_pos_of_neg d0 c, mul_neg_of_pos_of_neg (by linarith) c, mul_neg_of_pos_of_neg e0 c⟩

/-- how the cross product of two vertices changes near a corner -/
theorem crQ_corner (m : Mesh) (j : Nat) (ε δ : ℚ) (a b : Nat) :
    m.crQ (m.x (m.p j) + ε * (m.x (m.p (nx j)) - m.x (m.p j)) + δ * (m.x (m.p (pv j)) - m.x (m.p j)))
      (m.y (m.p j) + ε * (m.y (m.p (nx j)) - m.y (m.p j)) + δ * (m.y (m.p (pv j)) - m.y (m.p j))) a b =
    (m.crP (m.x (m.p j)) (m.y (m.p j)) a b : ℤ) +
      ε * ((m.crP (m.x (m.p (nx j))) (m.y (m.p (nx j))) a b : ℤ) - (m.crP (m.x (m.p j)) (m.y (m.p j)) a b : ℤ)) +
      δ * ((m.crP (m.x (m.p (pv j))) (m.y (m.p (pv j))) a b : ℤ) - (m.crP (m.x (m.p j)) (m.y (m.p j)) a b : ℤ)) := by
  unfold Mesh.crQ Mesh.crP; push_cast; ring

/-- three vertices of a face are not on one line -/
theorem not_line (h : Inv m) {j} (hj : IsE m.size j) {a b : Nat} (hab : m.x a ≠ m.x b ∨ m.y a ≠ m.y b)
    (h0 : m.crP (m.x (m.p j)) (m.y (m.p j)) a b = 0) (h1 : m.crP (m.x (m.p (nx j))) (m.y (m.p (nx j))) a b = 0)
    (h2 : m.crP (m.x (m.p (pv j))) (m.y (m.p (pv j))) a b = 0) : False := by
  have c := h.cw j hj
  unfold Mesh.cr at c
  unfold Mesh.crP at h0 h1 h2
  have ex : (m.x b - m.x a) * ((m.x (m.p (nx j)) - m.x (m.p j)) * (m.y (m.p (pv j)) - m.y (m.p j)) - (m.y (m.p (nx j)) - m.y (m.p j)) * (m.x (m.p (pv j)) - m.x (m.p j))) = 0 := by
    linear_combination (m.x (m.p (nx j)) - m.x (m.p j)) * (h2 - h0) - (m.x (m.p (pv j)) - m.x (m.p j)) * (h1 - h0)
  have ey : (m.y b - m.y a) * ((m.x (m.p (nx j)) - m.x (m.p j)) * (m.y (m.p (pv j)) - m.y (m.p j)) - (m.y (m.p (nx j)) - m.y (m.p j)) * (m.x (m.p (pv j)) - m.x (m.p j))) = 0 := by
    linear_combination (m.y (m.p (nx j)) - m.y (m.p j)) * (h2 - h0) - (m.y (m.p (pv j)) - m.y (m.p j)) * (h1 - h0)
  have z1 := (mul_eq_zero.1 ex).resolve_right (by omega)
  have z2 := (mul_eq_zero.1 ey).resolve_right (by omega)
  rcases hab with e | e <;> omega

/-- a vertex is only in a face of which it is a corner -/
theorem clean (h : Inv m) (R : Rim m) {i j} (hi : IsE m.size i) (hj : IsE m.size j)
    (hin : m.InClosed (m.x (m.p j)) (m.y (m.p j)) i) :
    ∃ k, IsE m.size k ∧ k / 4 = i / 4 ∧ m.x (m.p k) = m.x (m.p j) ∧ m.y (m.p k) = m.y (m.p j) := by
  have cn : ∀ {k}, IsE m.size k → k / 4 = i / 4 → k / 4 = j / 4 →
      ∃ k, IsE m.size k ∧ k / 4 = i / 4 ∧ m.x (m.p k) = m.x (m.p j) ∧ m.y (m.p k) = m.y (m.p j) :=
    fun hk h1 h2 => ⟨j, hj, by omega, rfl, rfl⟩
  have strict : ∀ {a b}, m.crP (m.x (m.p j)) (m.y (m.p j)) a b < 0 → Eventually fun ε δ =>
      m.crQ (m.x (m.p j) + ε * (m.x (m.p (nx j)) - m.x (m.p j)) + δ * (m.x (m.p (pv j)) - m.x (m.p j)))
        (m.y (m.p j) + ε * (m.y (m.p (nx j)) - m.y (m.p j)) + δ * (m.y (m.p (pv j)) - m.y (m.p j))) a b < 0 := fun hs =>
    (ev_neg (S := ((m.crP (m.x (m.p j)) (m.y (m.p j)) _ _ : ℤ) : ℚ)) (by exact_mod_cast hs) _ _).mono fun ε δ e => by rw [crQ_corner]; exact e
  -- one side is zero, the two others are not
  have one : ∀ {i}, IsE m.size i → m.crP (m.x (m.p j)) (m.y (m.p j)) (m.p (nx i)) (m.p (pv i)) = 0 →
      m.crP (m.x (m.p j)) (m.y (m.p j)) (m.p i) (m.p (nx i)) < 0 → m.crP (m.x (m.p j)) (m.y (m.p j)) (m.p (pv i)) (m.p i) < 0 → i / 4 = j / 4 := by
    intro i hi z n1 n2
    have hne : m.x (m.p (nx i)) ≠ m.x (m.p (pv i)) ∨ m.y (m.p (nx i)) ≠ m.y (m.p (pv i)) := (edge_ne h hi).symm
    have nl : ¬ (m.crP (m.x (m.p (nx j))) (m.y (m.p (nx j))) (m.p (nx i)) (m.p (pv i)) = 0 ∧
        m.crP (m.x (m.p (pv j))) (m.y (m.p (pv j))) (m.p (nx i)) (m.p (pv i)) = 0) := fun hc => not_line h hj hne z hc.1 hc.2
    have ne := ev_ne (S := 0) (A := (m.crP (m.x (m.p (nx j))) (m.y (m.p (nx j))) (m.p (nx i)) (m.p (pv i)) : ℤ))
      (B := (m.crP (m.x (m.p (pv j))) (m.y (m.p (pv j))) (m.p (nx i)) (m.p (pv i)) : ℤ)) (by
        right
        by_contra hc
        push Not at hc
        exact nl ⟨by exact_mod_cast hc.1, by exact_mod_cast hc.2⟩)
    have eq : ∀ ε δ : ℚ, m.crQ (m.x (m.p j) + ε * (m.x (m.p (nx j)) - m.x (m.p j)) + δ * (m.x (m.p (pv j)) - m.x (m.p j)))
        (m.y (m.p j) + ε * (m.y (m.p (nx j)) - m.y (m.p j)) + δ * (m.y (m.p (pv j)) - m.y (m.p j))) (m.p (nx i)) (m.p (pv i)) =
        0 + ε * (m.crP (m.x (m.p (nx j))) (m.y (m.p (nx j))) (m.p (nx i)) (m.p (pv i)) : ℤ) +
          δ * (m.crP (m.x (m.p (pv j))) (m.y (m.p (pv j))) (m.p (nx i)) (m.p (pv i)) : ℤ) := by
      intro ε δ; rw [crQ_corner, z]; push_cast; ring
    by_cases he : m.e i = 0
    · obtain ⟨ε, δ, o, n, s1, s2, e0, -, d0, -⟩ := ((corner_open h hj).and (ne.and ((strict n1).and ((strict n2).and (Eventually.small 1 one_pos))))).exists
      have b : Bnd m i := ⟨hi, he⟩
      have r1 := h.rng _ (h.pl _ hj.nx)
      have r2 := h.rng _ (h.pl _ hj.pv)
      have i1 : ((m.crP (m.x (m.p (nx j))) (m.y (m.p (nx j))) (m.p (nx i)) (m.p (pv i)) : ℤ) : ℚ) ≤ 0 := by exact_mod_cast R.inner b r1.1 r1.2
      have i2 : ((m.crP (m.x (m.p (pv j))) (m.y (m.p (pv j))) (m.p (nx i)) (m.p (pv i)) : ℤ) : ℚ) ≤ 0 := by exact_mod_cast R.inner b r2.1 r2.2
      have s3 : 0 + ε * (m.crP (m.x (m.p (nx j))) (m.y (m.p (nx j))) (m.p (nx i)) (m.p (pv i)) : ℤ) +
          δ * (m.crP (m.x (m.p (pv j))) (m.y (m.p (pv j))) (m.p (nx i)) (m.p (pv i)) : ℤ) < 0 := by
        refine lt_of_le_of_ne ?_ n
        nlinarith [mul_nonneg e0.le (neg_nonneg.2 i1), mul_nonneg d0.le (neg_nonneg.2 i2)]
      rw [← eq ε δ] at s3
      exact planar h R hi hj ⟨s1, s3, s2⟩ o
    · have P := h.pair hi he
      have E := onEdge h P z n1 n2
      obtain ⟨ε, δ, o, n, s1, s2, s3, s4⟩ := ((corner_open h hj).and (ne.and ((strict n1).and ((strict n2).and ((strict E.h3).and (strict E.h4)))))).exists
      rw [← eq ε δ] at n
      rcases lt_or_gt_of_ne n with n | n
      · exact planar h R hi hj ⟨s1, n, s2⟩ o
      · exfalso
        have hf := planar h R P.ib hj ⟨s3, by rw [P.n1, P.n2, crQ_swap]; linarith, s4⟩ o
        have a1 := E.h3
        have a2 := E.h4
        rcases P.ib.face hj hf with e | e | e <;> rw [e] at a1 a2 <;> unfold Mesh.crP at a1 a2
        · linarith
        · linarith
        · linarith
  obtain ⟨w2, w0, w1⟩ := hin
  by_cases z0 : m.crP (m.x (m.p j)) (m.y (m.p j)) (m.p (nx i)) (m.p (pv i)) = 0 <;>
    by_cases z1 : m.crP (m.x (m.p j)) (m.y (m.p j)) (m.p (pv i)) (m.p i) = 0 <;>
    by_cases z2 : m.crP (m.x (m.p j)) (m.y (m.p j)) (m.p i) (m.p (nx i)) = 0
  · have := crP_sum m (m.x (m.p j)) (m.y (m.p j)) (m.p i) (m.p (nx i)) (m.p (pv i))
    have := h.cw i hi
    omega
  · obtain ⟨a, b⟩ := vert_of (m := m) (px := m.x (m.p j)) (py := m.y (m.p j)) z0 z1 (lt_of_le_of_ne w2 z2)
    exact ⟨pv i, hi.pv, hi.pv_div, a, b⟩
  · obtain ⟨a, b⟩ := vert_of (m := m) (px := m.x (m.p j)) (py := m.y (m.p j)) z2 z0 (lt_of_le_of_ne w1 z1)
    exact ⟨nx i, hi.nx, hi.nx_div, a, b⟩
  · have := one hi z0 (lt_of_le_of_ne w2 z2) (lt_of_le_of_ne w1 z1)
    exact cn hi rfl this
  · obtain ⟨a, b⟩ := vert_of (m := m) (px := m.x (m.p j)) (py := m.y (m.p j)) z1 z2 (lt_of_le_of_ne w0 z0)
    exact ⟨i, hi, rfl, a, b⟩
  · have := one hi.nx (by rw [hi.nx_nx, hi.pv_nx]; exact z1) (by rw [hi.nx_nx]; exact lt_of_le_of_ne w0 z0) (by rw [hi.pv_nx]; exact lt_of_le_of_ne w2 z2)
    exact cn hi.nx hi.nx_div this
  · have := one hi.pv (by rw [hi.nx_pv, hi.pv_pv]; exact z2) (by rw [hi.nx_pv]; exact lt_of_le_of_ne w1 z1) (by rw [hi.pv_pv]; exact lt_of_le_of_ne w0 z0)
    exact cn hi.pv hi.pv_div this
  · have l0 := lt_of_le_of_ne w0 z0
    have l1 := lt_of_le_of_ne w1 z1
    have l2 := lt_of_le_of_ne w2 z2
    obtain ⟨ε, δ, o, s0, s1, s2⟩ := ((corner_open h hj).and ((strict l0).and ((strict l1).and (strict l2)))).exists
    exact cn hi rfl (planar h R hi hj ⟨s2, s0, s1⟩ o)

/-! ### different vertices are different points -/

/-- no two vertices are the same point -/
def Distinct (m : Mesh) : Prop := ∀ v w, v < m.size → w < m.size → m.x v = m.x w → m.y v = m.y w → v = w

/-- a point in a face that is no corner of it is no vertex -/
theorem fresh (h : Inv m) (R : Rim m) (C : Cover m) {i} (hi : IsE m.size i) {px py : ℤ} (hin : m.InClosed px py i)
    (hn : ∀ k, IsE m.size k → k / 4 = i / 4 → ¬ (m.x (m.p k) = px ∧ m.y (m.p k) = py)) {v} (hv : v < m.size) : ¬ (m.x v = px ∧ m.y v = py) := by
  rintro ⟨e1, e2⟩
  obtain ⟨j, hj, e⟩ := C v hv
  rw [← e] at e1 e2
  rw [← e1, ← e2] at hin
  obtain ⟨k, hk, f, a, b⟩ := clean h R hi hj hin
  exact hn k hk f ⟨by rw [a, e1], by rw [b, e2]⟩

theorem Distinct.snoc {px py : ℤ} (D : Distinct m) (hs : m'.size = m.size + 1) (hx : ∀ v, v < m.size → m'.x v = m.x v)
    (hy : ∀ v, v < m.size → m'.y v = m.y v) (nx' : m'.x m.size = px) (ny : m'.y m.size = py)
    (hf : ∀ v, v < m.size → ¬ (m.x v = px ∧ m.y v = py)) : Distinct m' := by
  intro v w hv hw ex ey
  rw [hs] at hv hw
  by_cases c1 : v = m.size <;> by_cases c2 : w = m.size
  · omega
  · exfalso
    rw [c1, nx', hx w (by omega)] at ex
    rw [c1, ny, hy w (by omega)] at ey
    exact hf w (by omega) ⟨ex.symm, ey.symm⟩
  · exfalso
    rw [c2, nx', hx v (by omega)] at ex
    rw [c2, ny, hy v (by omega)] at ey
    exact hf v (by omega) ⟨ex, ey⟩
  · rw [hx v (by omega), hx w (by omega)] at ex
    rw [hy v (by omega), hy w (by omega)] at ey
    exact D v w (by omega) (by omega) ex ey

theorem Step.distinct (s : Step m m') (h : Inv m) (R : Rim m) (C : Cover m) (D : Distinct m) : Distinct m' := by
  cases s with
  | @flip _ a b P hc h1 h2 S => intro v w; rw [S.size, S.x, S.y]; exact D v w
  | @face _ px py u hu hu4 hx hy h0 h1 h2 S =>
    refine D.snoc S.size S.x S.y S.xn S.yn fun v hv => ?_
    rw [i16_eq hx, i16_eq hy]
    have B := base hu hu4
    refine fresh h R C hu ⟨by rw [B.n0]; exact h2.le, by rw [B.n0, B.p0]; exact h0.le, by rw [B.p0]; exact h1.le⟩ ?_ hv
    rintro k hk hf ⟨e1, e2⟩
    rcases hu.face hk hf.symm with e | e | e
    · rw [e] at e1 e2; unfold Mesh.crP at h2; rw [e1, e2] at h2; linarith
    · rw [e, B.n0] at e1 e2; unfold Mesh.crP at h2; rw [e1, e2] at h2; linarith
    · rw [e, B.p0] at e1 e2; unfold Mesh.crP at h1; rw [e1, e2] at h1; linarith
  | @edge _ px py a b E hx hy S =>
    refine D.snoc S.size S.x S.y S.xn S.yn fun v hv => ?_
    rw [i16_eq hx, i16_eq hy]
    refine fresh h R C E.pair.ia ⟨E.h1.le, E.on.le, E.h2.le⟩ ?_ hv
    rintro k hk hf ⟨e1, e2⟩
    have a1 := E.h1
    have a2 := E.h2
    unfold Mesh.crP at a1 a2
    rcases E.pair.ia.face hk hf.symm with e | e | e <;> rw [e] at e1 e2
    · rw [e1, e2] at a1; linarith
    · rw [e1, e2] at a1; linarith
    · rw [e1, e2] at a2; linarith
  | con hi => exact D
  | info => exact D

theorem Steps.distinct (s : Steps m m') (h : Inv m) (R : Rim m) (C : Cover m) (D : Distinct m) : Distinct m' := by
  induction s with
  | refl => exact D
  | step s _ ih => exact ih (s.inv h) (s.rim h R) (s.cover h C) (s.distinct h R C D)

theorem reset_distinct (m : Mesh) : Distinct (reset m) := by
  intro v w hv hw
  have a : v = 0 ∨ v = 1 ∨ v = 2 ∨ v = 3 := by have : v < 4 := hv; omega
  have b : w = 0 ∨ w = 1 ∨ w = 2 ∨ w = 3 := by have : w < 4 := hw; omega
  rcases a with rfl | rfl | rfl | rfl <;> rcases b with rfl | rfl | rfl | rfl <;> simp [reset]

end CE.Cdt
