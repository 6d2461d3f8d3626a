import Verif.Proof.CdtWalk
import Verif.Proof.CdtFence
import Verif.Spec.Sight
import Mathlib.Tactic.FieldSimp
import Mathlib.Tactic.LinearCombination
/-! On a mesh whose unconstrained edges are locally Delaunay, no vertex that can be seen from inside a face is inside its circle:
the faces along the line of sight have powers that do not grow. -/
namespace CE.Cdt

open CE.Vec

variable {m : Mesh}

theorem rank_cross' (h : Inv m) {x y : ℚ} {j k} (hj : IsE m.size j) (hk : k = nx j ∨ k = pv j) (he : m.e k ≠ 0) (hd : 0 ≤ m.det k)
    (hq : 0 < m.crQ x y (m.p (nx k)) (m.p (pv k))) : m.rank x y (m.e k) < m.rank x y j := by
  have hk' : IsE m.size k := by rcases hk with rfl | rfl; exacts [hj.nx, hj.pv]
  refine rank_lt (h.pair hk' he).ib ?_
  have e : m.pw x y k = m.pw x y j := by rcases hk with rfl | rfl; exacts [pw_nx hj, pw_pv hj]
  unfold Mesh.below
  rw [← e]
  rcases pw_cross h hk' he hd hq with c | ⟨c, d⟩
  · exact Or.inl c
  · exact Or.inr ⟨c, cnt_cross h hj hk he d⟩

/-- moving from the point to a vertex -/
theorem crQ_to (m : Mesh) (x y : ℚ) (v a b : Nat) : m.crQ (m.x v) (m.y v) a b = m.crQ x y a b + m.crQ x y v a - m.crQ x y v b := by
  unfold Mesh.crQ; ring

/-- the line through the point and a vertex, in barycentric coordinates of the point -/
theorem bary_here (m : Mesh) (x y : ℚ) (v a b c : Nat) :
    m.crQ x y v a * m.crQ x y b c + m.crQ x y v b * m.crQ x y c a + m.crQ x y v c * m.crQ x y a b = 0 := by
  unfold Mesh.crQ; ring

/-- the line through the point and a vertex, in barycentric coordinates of the vertex -/
theorem bary_there (m : Mesh) (x y : ℚ) (v a b c : Nat) : m.crQ x y v a * m.crQ (m.x v) (m.y v) b c +
    m.crQ x y v b * m.crQ (m.x v) (m.y v) c a + m.crQ x y v c * m.crQ (m.x v) (m.y v) a b = 0 := by
  unfold Mesh.crQ; ring

/-- a vertex has power zero at the faces it lies in -/
theorem pw_own (h : Inv m) (R : Rim m) (C : Cover m) {v j} (hv : v < m.size) (hj : IsE m.size j)
    (hin : m.InShut (m.x v) (m.y v) j) : m.pw (m.x v) (m.y v) j = 0 := by
  obtain ⟨l, hl, el⟩ := C v hv
  have hin' : m.InClosed (m.x (m.p l)) (m.y (m.p l)) j := by rw [el]; exact shut_iff.1 hin
  obtain ⟨k, hk, hf, kx, ky⟩ := clean h R hj hl hin'
  rw [el] at kx ky
  have zk : m.pw (m.x v) (m.y v) k = 0 := by
    unfold Mesh.pw Mesh.dtQ Mesh.crQ
    rw [kx, ky]
    ring
  rcases hj.face hk hf.symm with e | e | e
  · rw [← e]; exact zk
  · rw [← pw_nx hj, ← e]; exact zk
  · rw [← pw_pv hj, ← e]; exact zk

/-- walking along the line of sight -/
theorem sight_walk (h : Inv m) (R : Rim m) (C : Cover m) (L : Legal m) {v} (hv : v < m.size) {x y : ℚ}
    (gen : ∀ w, w < m.size → w ≠ v → m.crQ x y v w ≠ 0)
    (vis : ∀ k, IsE m.size k → m.c k ≠ 0 → 0 < m.crQ x y v (m.p (nx k)) → m.crQ x y v (m.p (pv k)) < 0 →
      m.crQ x y (m.p (nx k)) (m.p (pv k)) < 0 → 0 < m.crQ (m.x v) (m.y v) (m.p (nx k)) (m.p (pv k)) → False) :
    ∀ n j, IsE m.size j → m.rank (m.x v) (m.y v) j < n → m.crQ x y v (m.p (nx j)) < 0 → 0 < m.crQ x y v (m.p (pv j)) →
      m.crQ (m.x v) (m.y v) (m.p (nx j)) (m.p (pv j)) ≤ 0 →
      (0 < m.crQ x y (m.p (nx j)) (m.p (pv j)) ∨ m.InOpen x y j) → 0 ≤ m.pw (m.x v) (m.y v) j := by
  intro n
  induction n with
  | zero => intro j _ hr; omega
  | succ n ih =>
    intro j hj hr ha hb hV hP
    have cw : ((m.cr (m.p j) (m.p (nx j)) (m.p (pv j)) : ℤ) : ℚ) < 0 := by exact_mod_cast h.cw j hj
    have sP := crQ_sum m x y (m.p j) (m.p (nx j)) (m.p (pv j))
    have bP := bary_here m x y v (m.p j) (m.p (nx j)) (m.p (pv j))
    have bV := bary_there m x y v (m.p j) (m.p (nx j)) (m.p (pv j))
    have go : ∀ k, (k = nx j ∨ k = pv j) → 0 < m.crQ x y v (m.p (nx k)) → m.crQ x y v (m.p (pv k)) < 0 →
        m.crQ x y (m.p (nx k)) (m.p (pv k)) < 0 → 0 < m.crQ (m.x v) (m.y v) (m.p (nx k)) (m.p (pv k)) →
        0 ≤ m.pw (m.x v) (m.y v) j := by
      intro k hk h1 h2 h3 h4
      have hk' : IsE m.size k := by rcases hk with rfl | rfl; exacts [hj.nx, hj.pv]
      have hc : m.c k = 0 := by
        by_contra hc
        exact vis k hk' hc h1 h2 h3 h4
      have he := h.free hk' hc
      have P := h.pair hk' he
      have hd := L k hk' hc
      have r := rank_cross' h hj hk he hd h4
      have := ih (m.e k) P.ib (by omega) (by rw [P.n1]; exact h2) (by rw [P.n2]; exact h1)
        (by rw [P.n1, P.n2, crQ_swap]; linarith) (Or.inl (by rw [P.n1, P.n2, crQ_swap]; linarith))
      have e : m.pw (m.x v) (m.y v) k = m.pw (m.x v) (m.y v) j := by rcases hk with rfl | rfl; exacts [pw_nx hj, pw_pv hj]
      rw [← e]
      rcases pw_cross h hk' he hd h4 with c | ⟨c, -⟩ <;> linarith
    by_cases cv : m.p j = v
    · apply le_of_eq
      symm
      unfold Mesh.pw Mesh.dtQ Mesh.crQ
      rw [cv]
      ring
    · rcases lt_or_gt_of_ne (gen _ (h.pl j hj) cv) with lc | lc
      · -- out through the edge from `pv j` to `j`
        have hp : m.crQ x y (m.p (pv j)) (m.p j) < 0 := by
          rcases hP with hP | hP
          · by_contra hc
            push Not at hc
            generalize m.crQ x y v (m.p j) = lj at *
            generalize m.crQ x y v (m.p (nx j)) = la at *
            generalize m.crQ x y v (m.p (pv j)) = lb at *
            generalize m.crQ x y (m.p (nx j)) (m.p (pv j)) = A at *
            generalize m.crQ x y (m.p (pv j)) (m.p j) = B at *
            generalize m.crQ x y (m.p j) (m.p (nx j)) = D at *
            have : 0 < D := by
              by_contra hD
              push Not at hD
              nlinarith [mul_nonneg hb.le (neg_nonneg.2 hD), mul_pos (neg_pos.2 lc) hP, mul_nonneg (neg_pos.2 ha).le hc]
            linarith
          · exact hP.2.2
        by_cases hk : 0 < m.crQ (m.x v) (m.y v) (m.p (pv j)) (m.p j)
        · exact go (nx j) (Or.inl rfl) (by rw [hj.nx_nx]; exact hb) (by rw [hj.pv_nx]; exact lc) (by rw [hj.nx_nx, hj.pv_nx]; exact hp)
            (by rw [hj.nx_nx, hj.pv_nx]; exact hk)
        · push Not at hk
          refine (pw_own h R C hv hj ⟨?_, hV, hk⟩).ge
          by_contra hc
          push Not at hc
          nlinarith [mul_pos hb hc, mul_nonneg (neg_pos.2 lc).le (neg_nonneg.2 hV), mul_nonneg (neg_pos.2 ha).le (neg_nonneg.2 hk)]
      · have hp : m.crQ x y (m.p j) (m.p (nx j)) < 0 := by
          rcases hP with hP | hP
          · by_contra hc
            push Not at hc
            generalize m.crQ x y v (m.p j) = lj at *
            generalize m.crQ x y v (m.p (nx j)) = la at *
            generalize m.crQ x y v (m.p (pv j)) = lb at *
            generalize m.crQ x y (m.p (nx j)) (m.p (pv j)) = A at *
            generalize m.crQ x y (m.p (pv j)) (m.p j) = B at *
            generalize m.crQ x y (m.p j) (m.p (nx j)) = D at *
            have : 0 < B := by
              by_contra hD
              push Not at hD
              nlinarith [mul_nonneg (neg_pos.2 ha).le (neg_nonneg.2 hD), mul_pos lc hP, mul_nonneg hb.le hc]
            linarith
          · exact hP.1
        by_cases hk : 0 < m.crQ (m.x v) (m.y v) (m.p j) (m.p (nx j))
        · exact go (pv j) (Or.inr rfl) (by rw [hj.nx_pv]; exact lc) (by rw [hj.pv_pv]; exact ha) (by rw [hj.nx_pv, hj.pv_pv]; exact hp)
            (by rw [hj.nx_pv, hj.pv_pv]; exact hk)
        · push Not at hk
          refine (pw_own h R C hv hj ⟨hk, hV, ?_⟩).ge
          by_contra hc
          push Not at hc
          nlinarith [mul_pos (neg_pos.2 ha) hc, mul_nonneg lc.le (neg_nonneg.2 hV), mul_nonneg hb.le (neg_nonneg.2 hk)]

theorem pw_at {v k} (e : m.p k = v) : m.pw (m.x v) (m.y v) k = 0 := by
  unfold Mesh.pw Mesh.dtQ Mesh.crQ
  rw [e]
  ring

/-- from a point inside a face that is on no line between the vertex and another one -/
theorem sight_generic (h : Inv m) (R : Rim m) (C : Cover m) (L : Legal m) {v} (hv : v < m.size) {x y : ℚ}
    (gen : ∀ w, w < m.size → w ≠ v → m.crQ x y v w ≠ 0)
    (vis : ∀ k, IsE m.size k → m.c k ≠ 0 → 0 < m.crQ x y v (m.p (nx k)) → m.crQ x y v (m.p (pv k)) < 0 →
      m.crQ x y (m.p (nx k)) (m.p (pv k)) < 0 → 0 < m.crQ (m.x v) (m.y v) (m.p (nx k)) (m.p (pv k)) → False)
    {i} (hi : IsE m.size i) (o : m.InOpen x y i) : 0 ≤ m.pw (m.x v) (m.y v) i := by
  by_cases e0 : m.p i = v
  · exact (pw_at e0).ge
  by_cases e1 : m.p (nx i) = v
  · rw [← pw_nx hi]; exact (pw_at e1).ge
  by_cases e2 : m.p (pv i) = v
  · rw [← pw_pv hi]; exact (pw_at e2).ge
  have g0 := gen _ (h.pl i hi) e0
  have g1 := gen _ (h.pl _ hi.nx) e1
  have g2 := gen _ (h.pl _ hi.pv) e2
  have go : ∀ j, IsE m.size j → m.InOpen x y j → m.crQ x y v (m.p (nx j)) < 0 → 0 < m.crQ x y v (m.p (pv j)) →
      0 ≤ m.pw (m.x v) (m.y v) j := fun j hj oj ha hb =>
    sight_walk h R C L hv gen vis _ j hj (Nat.lt_succ_self _) ha hb (by rw [crQ_to m x y]; have := oj.2.1; linarith) (Or.inr oj)
  have b := bary_here m x y v (m.p i) (m.p (nx i)) (m.p (pv i))
  obtain ⟨o1, o2, o3⟩ := o
  rcases lt_or_gt_of_ne g1 with l1 | l1 <;> rcases lt_or_gt_of_ne g2 with l2 | l2
  · rcases lt_or_gt_of_ne g0 with l0 | l0
    · have := mul_pos_of_neg_of_neg l0 o2
      have := mul_pos_of_neg_of_neg l1 o3
      have := mul_pos_of_neg_of_neg l2 o1
      linarith
    · rw [← pw_nx hi]
      exact go _ hi.nx (InOpen.nx hi ⟨o1, o2, o3⟩) (by rw [hi.nx_nx]; exact l2) (by rw [hi.pv_nx]; exact l0)
  · exact go i hi ⟨o1, o2, o3⟩ l1 l2
  · rcases lt_or_gt_of_ne g0 with l0 | l0
    · rw [← pw_pv hi]
      exact go _ hi.pv (InOpen.pv hi ⟨o1, o2, o3⟩) (by rw [hi.nx_pv]; exact l0) (by rw [hi.pv_pv]; exact l1)
    · rw [← pw_nx hi]
      exact go _ hi.nx (InOpen.nx hi ⟨o1, o2, o3⟩) (by rw [hi.nx_nx]; exact l2) (by rw [hi.pv_nx]; exact l0)
  · rcases lt_or_gt_of_ne g0 with l0 | l0
    · rw [← pw_pv hi]
      exact go _ hi.pv (InOpen.pv hi ⟨o1, o2, o3⟩) (by rw [hi.nx_pv]; exact l0) (by rw [hi.pv_pv]; exact l1)
    · have := mul_neg_of_pos_of_neg l0 o2
      have := mul_neg_of_pos_of_neg l1 o3
      have := mul_neg_of_pos_of_neg l2 o1
      linarith

/-- a constrained edge that the segment from the point to the vertex crosses or touches hides the vertex -/
theorem hidden {v a b : Nat} {x y : ℚ} (w : m.Wall a b) (hB : 0 < m.crQ (m.x v) (m.y v) a b) (hA : m.crQ x y a b ≤ 0)
    (ha : 0 ≤ m.crQ x y v a) (hb : m.crQ x y v b ≤ 0) : ¬ m.Visible x y v := by
  intro hvis
  have e := crQ_to m x y v a b
  have hD : 0 < m.crQ x y v a - m.crQ x y v b := by linarith
  refine hvis a b w (-m.crQ x y a b / (m.crQ x y v a - m.crQ x y v b)) (m.crQ x y v a / (m.crQ x y v a - m.crQ x y v b))
    (div_nonneg (by linarith) hD.le) ((div_lt_one hD).2 (by linarith)) (div_nonneg ha hD.le) ((div_le_one hD).2 (by linarith)) ⟨?_, ?_⟩
  · field_simp
    unfold Mesh.crQ
    ring
  · field_simp
    unfold Mesh.crQ
    ring

/-- no vertex that can be seen from inside a face is strictly inside its circle -/
theorem sight (h : Inv m) (R : Rim m) (C : Cover m) (D : Distinct m) (L : Legal m) {v} (hv : v < m.size) {x y : ℚ}
    {i} (hi : IsE m.size i) (o : m.InOpen x y i) (hvis : m.Visible x y v) : 0 ≤ m.dt (m.p i) (m.p (nx i)) (m.p (pv i)) v := by
  have mv : Eventually fun ε δ => m.InOpen (x + 1 * ε) (y + 1 * δ) i := by
    refine ((ev_neg o.1 (1 * (m.y (m.p i) - m.y (m.p (nx i)) : ℚ)) (1 * (m.x (m.p (nx i)) - m.x (m.p i) : ℚ))).and
      ((ev_neg o.2.1 (1 * (m.y (m.p (nx i)) - m.y (m.p (pv i)) : ℚ)) (1 * (m.x (m.p (pv i)) - m.x (m.p (nx i)) : ℚ))).and
      (ev_neg o.2.2 (1 * (m.y (m.p (pv i)) - m.y (m.p i) : ℚ)) (1 * (m.x (m.p i) - m.x (m.p (pv i)) : ℚ))))).mono ?_
    rintro ε δ ⟨a, b, c⟩
    unfold Mesh.InOpen
    rw [crQ_move, crQ_move, crQ_move]
    exact ⟨a, b, c⟩
  have gen : Eventually fun ε δ => ∀ w ∈ List.range m.size, w ≠ v → m.crQ (x + 1 * ε) (y + 1 * δ) v w ≠ 0 := by
    refine Eventually.all _ fun w hw => ?_
    by_cases e : w = v
    · exact (ev_neg (S := -1) (by norm_num) 0 0).mono fun ε δ _ hc => absurd e hc
    · refine (ev_ne (S := m.crQ x y v w) (A := 1 * (m.y v - m.y w : ℚ)) (B := 1 * (m.x w - m.x v : ℚ)) ?_).mono fun ε δ e _ => by
        rw [crQ_move]; exact e
      right
      by_contra hc
      push Not at hc
      obtain ⟨c1, c2⟩ := hc
      refine e (D w v (List.mem_range.1 hw) hv ?_ ?_)
      · have : (m.x w : ℚ) = m.x v := by linarith
        exact_mod_cast this
      · have : (m.y w : ℚ) = m.y v := by linarith
        exact_mod_cast this
  have vis : Eventually fun ε δ => ∀ k ∈ m.es.toList, m.c k ≠ 0 → 0 < m.crQ (x + 1 * ε) (y + 1 * δ) v (m.p (nx k)) →
      m.crQ (x + 1 * ε) (y + 1 * δ) v (m.p (pv k)) < 0 → m.crQ (x + 1 * ε) (y + 1 * δ) (m.p (nx k)) (m.p (pv k)) < 0 →
      0 < m.crQ (m.x v) (m.y v) (m.p (nx k)) (m.p (pv k)) → False := by
    refine Eventually.all _ fun k hk => ?_
    rw [Finset.mem_toList, mem_es] at hk
    have triv : ∀ {P : ℚ → ℚ → Prop}, (∀ ε δ, P ε δ) → Eventually P := fun hP =>
      (ev_neg (S := -1) (by norm_num) 0 0).mono fun ε δ _ => hP ε δ
    by_cases hc : m.c k = 0
    · exact triv fun ε δ c => absurd hc c
    by_cases hB : 0 < m.crQ (m.x v) (m.y v) (m.p (nx k)) (m.p (pv k))
    · have w : m.Wall (m.p (nx k)) (m.p (pv k)) := wall_iff.2 (Or.inl ⟨k, hk, hc, rfl⟩)
      by_cases hA : m.crQ x y (m.p (nx k)) (m.p (pv k)) ≤ 0
      · by_cases ha : 0 ≤ m.crQ x y v (m.p (nx k))
        · by_cases hb : m.crQ x y v (m.p (pv k)) ≤ 0
          · exact absurd hvis (hidden w hB hA ha hb)
          · push Not at hb
            refine (ev_pos hb (1 * (m.y v - m.y (m.p (pv k)) : ℚ)) (1 * (m.x (m.p (pv k)) - m.x v : ℚ))).mono fun ε δ e _ _ c _ _ => ?_
            rw [crQ_move] at c
            linarith
        · push Not at ha
          refine (ev_neg ha (1 * (m.y v - m.y (m.p (nx k)) : ℚ)) (1 * (m.x (m.p (nx k)) - m.x v : ℚ))).mono fun ε δ e _ c _ _ _ => ?_
          rw [crQ_move] at c
          linarith
      · push Not at hA
        refine (ev_pos hA (1 * (m.y (m.p (nx k)) - m.y (m.p (pv k)) : ℚ)) (1 * (m.x (m.p (pv k)) - m.x (m.p (nx k)) : ℚ))).mono
          fun ε δ e _ _ _ c _ => ?_
        rw [crQ_move] at c
        linarith
    · exact triv fun ε δ _ _ _ _ c => hB c
  obtain ⟨ε, δ, o', g, w⟩ := (mv.and (gen.and vis)).exists
  have z := sight_generic h R C L hv (fun w hw hne => g w (List.mem_range.2 hw) hne)
    (fun k hk => w k (Finset.mem_toList.2 (mem_es.2 hk))) hi o'
  have c1 : ((m.cr (m.p i) (m.p (nx i)) (m.p (pv i)) : ℤ) : ℚ) < 0 := by exact_mod_cast h.cw i hi
  by_contra hc
  push Not at hc
  have neg : m.pw (m.x v) (m.y v) i < 0 := by
    unfold Mesh.pw
    rw [dtQ_vertex]
    exact div_neg_of_neg_of_pos (by exact_mod_cast hc) (by linarith)
  linarith

/-! ### what can be seen from inside a face -/

/-- between two points -/
theorem crQ_mix (m : Mesh) (x y x' y' t : ℚ) (a b : Nat) : m.crQ (x + t * (x' - x)) (y + t * (y' - y)) a b =
    m.crQ x y a b + t * (m.crQ x' y' a b - m.crQ x y a b) := by unfold Mesh.crQ; ring

theorem InOpen.mix {i} {x y x' y' t : ℚ} (o : m.InOpen x y i) (o' : m.InShut x' y' i) (h0 : 0 ≤ t) (h1 : t < 1) :
    m.InOpen (x + t * (x' - x)) (y + t * (y' - y)) i := by
  obtain ⟨a, b, c⟩ := o
  obtain ⟨a', b', c'⟩ := o'
  have key : ∀ {A A' : ℚ}, A < 0 → A' ≤ 0 → A + t * (A' - A) < 0 := fun {A A'} hA hA' => by nlinarith
  unfold Mesh.InOpen
  rw [crQ_mix, crQ_mix, crQ_mix]
  exact ⟨key a a', key b b', key c c'⟩

/-- the middle of a face -/
theorem centre_open (h : Inv m) {i} (hi : IsE m.size i) : m.InOpen ((m.x (m.p i) + m.x (m.p (nx i)) + m.x (m.p (pv i))) / 3)
    ((m.y (m.p i) + m.y (m.p (nx i)) + m.y (m.p (pv i))) / 3) i := by
  have cw : ((m.cr (m.p i) (m.p (nx i)) (m.p (pv i)) : ℤ) : ℚ) < 0 := by exact_mod_cast h.cw i hi
  unfold Mesh.cr at cw
  push_cast at cw
  unfold Mesh.InOpen Mesh.crQ
  refine ⟨?_, ?_, ?_⟩ <;> nlinarith

/-- a point inside a face, moved a little towards another one -/
theorem near_open {i} {x y : ℚ} (o : m.InOpen x y i) (x' y' : ℚ) : ∃ d0 > 0, ∀ t, 0 < t → t < d0 →
    m.InOpen (x + t * (x' - x)) (y + t * (y' - y)) i := by
  obtain ⟨d1, p1, h1⟩ := near o.1 (m.crQ x' y' (m.p i) (m.p (nx i)) - m.crQ x y (m.p i) (m.p (nx i)))
  obtain ⟨d2, p2, h2⟩ := near o.2.1 (m.crQ x' y' (m.p (nx i)) (m.p (pv i)) - m.crQ x y (m.p (nx i)) (m.p (pv i)))
  obtain ⟨d3, p3, h3⟩ := near o.2.2 (m.crQ x' y' (m.p (pv i)) (m.p i) - m.crQ x y (m.p (pv i)) (m.p i))
  refine ⟨min d1 (min d2 d3), lt_min p1 (lt_min p2 p3), fun t t0 ht => ?_⟩
  obtain ⟨t1, t2⟩ := lt_min_iff.1 ht
  obtain ⟨t2, t3⟩ := lt_min_iff.1 t2
  unfold Mesh.InOpen
  rw [crQ_mix, crQ_mix, crQ_mix]
  exact ⟨h1 t t0 t1, h2 t t0 t2, h3 t t0 t3⟩

/-- a point in one face and inside another: a point inside both -/
theorem both_open {m' : Mesh} (h' : Inv m') {i j} (hj : IsE m'.size j) {x y : ℚ} (o : m.InOpen x y i) (w : m'.InShut x y j) :
    ∃ x y, m.InOpen x y i ∧ m'.InOpen x y j := by
  have c := centre_open h' hj
  generalize (((m'.x (m'.p j) + m'.x (m'.p (nx j)) + m'.x (m'.p (pv j)) : ℚ)) / 3) = cx at c
  generalize (((m'.y (m'.p j) + m'.y (m'.p (nx j)) + m'.y (m'.p (pv j)) : ℚ)) / 3) = cy at c
  obtain ⟨d, hd, hn⟩ := near_open o cx cy
  have t0 : 0 < min (d / 2) (1 / 2) := lt_min (by linarith) (by norm_num)
  have t1 : min (d / 2) (1 / 2) < d := lt_of_le_of_lt (min_le_left _ _) (by linarith)
  have t2 : min (d / 2) (1 / 2) < 1 := lt_of_le_of_lt (min_le_right _ _) (by norm_num)
  refine ⟨_, _, hn _ t0 t1, ?_⟩
  have := InOpen.mix c w (t := 1 - min (d / 2) (1 / 2)) (by linarith) (by linarith)
  have ex : ∀ z z' t : ℚ, z' + (1 - t) * (z - z') = z + t * (z' - z) := fun z z' t => by ring
  rw [ex, ex] at this
  exact this

/-- no edge goes through the inside of a face -/
theorem edge_out (h : Inv m) (R : Rim m) {i k} (hi : IsE m.size i) (hk : IsE m.size k) {t : ℚ} (h0 : 0 ≤ t) (h1 : t ≤ 1) :
    ¬ m.InOpen (m.x (m.p (nx k)) + t * (m.x (m.p (pv k)) - m.x (m.p (nx k)))) (m.y (m.p (nx k)) + t * (m.y (m.p (pv k)) - m.y (m.p (nx k)))) i := by
  intro o
  have cw : ((m.cr (m.p k) (m.p (nx k)) (m.p (pv k)) : ℤ) : ℚ) < 0 := by exact_mod_cast h.cw k hk
  have on : m.crQ (m.x (m.p (nx k)) + t * (m.x (m.p (pv k)) - m.x (m.p (nx k)))) (m.y (m.p (nx k)) + t * (m.y (m.p (pv k)) - m.y (m.p (nx k))))
      (m.p (nx k)) (m.p (pv k)) = 0 := by unfold Mesh.crQ; ring
  have s : m.InShut (m.x (m.p (nx k)) + t * (m.x (m.p (pv k)) - m.x (m.p (nx k)))) (m.y (m.p (nx k)) + t * (m.y (m.p (pv k)) - m.y (m.p (nx k)))) k := by
    refine ⟨?_, on.le, ?_⟩
    · have e : m.crQ (m.x (m.p (nx k)) + t * (m.x (m.p (pv k)) - m.x (m.p (nx k)))) (m.y (m.p (nx k)) + t * (m.y (m.p (pv k)) - m.y (m.p (nx k))))
          (m.p k) (m.p (nx k)) = t * (m.cr (m.p k) (m.p (nx k)) (m.p (pv k)) : ℤ) := by unfold Mesh.crQ Mesh.cr; push_cast; ring
      rw [e]; nlinarith
    · have e : m.crQ (m.x (m.p (nx k)) + t * (m.x (m.p (pv k)) - m.x (m.p (nx k)))) (m.y (m.p (nx k)) + t * (m.y (m.p (pv k)) - m.y (m.p (nx k))))
          (m.p (pv k)) (m.p k) = (1 - t) * (m.cr (m.p k) (m.p (nx k)) (m.p (pv k)) : ℤ) := by unfold Mesh.crQ Mesh.cr; push_cast; ring
      rw [e]; nlinarith
  obtain ⟨x, y, o1, o2⟩ := both_open h hk o s
  have f := planar h R hi hk o1 o2
  rcases hi.face hk f with e | e | e
  · rw [e] at on o; have := o.2.1; linarith
  · rw [e, hi.nx_nx, hi.pv_nx] at on
    rw [e, hi.nx_nx, hi.pv_nx] at o
    have := o.2.2; linarith
  · rw [e, hi.nx_pv, hi.pv_pv] at on
    rw [e, hi.nx_pv, hi.pv_pv] at o
    have := o.1; linarith

theorem wall_out (h : Inv m) (R : Rim m) {i a b} (hi : IsE m.size i) (w : m.Wall a b) {t : ℚ} (h0 : 0 ≤ t) (h1 : t ≤ 1) :
    ¬ m.InOpen (m.x a + t * (m.x b - m.x a)) (m.y a + t * (m.y b - m.y a)) i := by
  rcases wall_iff.1 w with ⟨k, hk, -, e⟩ | ⟨k, hk, -, e⟩
  · unfold Mesh.ends at e
    rw [Prod.mk.injEq] at e
    rw [← e.1, ← e.2]
    exact edge_out h R hi hk h0 h1
  · unfold Mesh.ends at e
    rw [Prod.mk.injEq] at e
    have := edge_out h R hi hk (t := 1 - t) (by linarith) (by linarith)
    rw [e.1, e.2] at this
    have ex : ∀ z z' t : ℚ, z' + (1 - t) * (z - z') = z + t * (z' - z) := fun z z' t => by ring
    rwa [ex, ex] at this

/-- the corners of a face can be seen from inside -/
theorem corner_visible (h : Inv m) (R : Rim m) {i} (hi : IsE m.size i) {x y : ℚ} (o : m.InOpen x y i) : m.Visible x y (m.p i) := by
  intro a b w s t s0 s1 t0 t1 ⟨ex, ey⟩
  have cw : ((m.cr (m.p i) (m.p (nx i)) (m.p (pv i)) : ℤ) : ℚ) < 0 := by exact_mod_cast h.cw i hi
  have c : m.InShut (m.x (m.p i)) (m.y (m.p i)) i := by
    refine ⟨le_of_eq ?_, ?_, le_of_eq ?_⟩
    · unfold Mesh.crQ; ring
    · have e : m.crQ (m.x (m.p i)) (m.y (m.p i)) (m.p (nx i)) (m.p (pv i)) = (m.cr (m.p i) (m.p (nx i)) (m.p (pv i)) : ℤ) := by
        unfold Mesh.crQ Mesh.cr; push_cast; ring
      rw [e]; exact cw.le
    · unfold Mesh.crQ; ring
  have o' := InOpen.mix o c s0 s1
  rw [ex, ey] at o'
  exact wall_out h R hi w t0 t1 o'

/-! ### what can be seen through an edge -/

/-- a point of an edge is in its face -/
theorem edge_shut (h : Inv m) {k} (hk : IsE m.size k) {t : ℚ} (h0 : 0 ≤ t) (h1 : t ≤ 1) :
    m.InShut (m.x (m.p (nx k)) + t * (m.x (m.p (pv k)) - m.x (m.p (nx k)))) (m.y (m.p (nx k)) + t * (m.y (m.p (pv k)) - m.y (m.p (nx k)))) k ∧
    m.crQ (m.x (m.p (nx k)) + t * (m.x (m.p (pv k)) - m.x (m.p (nx k)))) (m.y (m.p (nx k)) + t * (m.y (m.p (pv k)) - m.y (m.p (nx k))))
      (m.p (nx k)) (m.p (pv k)) = 0 := by
  have cw : ((m.cr (m.p k) (m.p (nx k)) (m.p (pv k)) : ℤ) : ℚ) < 0 := by exact_mod_cast h.cw k hk
  have on : m.crQ (m.x (m.p (nx k)) + t * (m.x (m.p (pv k)) - m.x (m.p (nx k)))) (m.y (m.p (nx k)) + t * (m.y (m.p (pv k)) - m.y (m.p (nx k))))
      (m.p (nx k)) (m.p (pv k)) = 0 := by unfold Mesh.crQ; ring
  refine ⟨⟨?_, on.le, ?_⟩, on⟩
  · have e : m.crQ (m.x (m.p (nx k)) + t * (m.x (m.p (pv k)) - m.x (m.p (nx k)))) (m.y (m.p (nx k)) + t * (m.y (m.p (pv k)) - m.y (m.p (nx k))))
        (m.p k) (m.p (nx k)) = t * (m.cr (m.p k) (m.p (nx k)) (m.p (pv k)) : ℤ) := by unfold Mesh.crQ Mesh.cr; push_cast; ring
    rw [e]; nlinarith
  · have e : m.crQ (m.x (m.p (nx k)) + t * (m.x (m.p (pv k)) - m.x (m.p (nx k)))) (m.y (m.p (nx k)) + t * (m.y (m.p (pv k)) - m.y (m.p (nx k))))
        (m.p (pv k)) (m.p k) = (1 - t) * (m.cr (m.p k) (m.p (nx k)) (m.p (pv k)) : ℤ) := by unfold Mesh.crQ Mesh.cr; push_cast; ring
    rw [e]; nlinarith

/-- on an edge and strictly on the inner side of the other two -/
structure Mesh.OnOpen (m : Mesh) (x y : ℚ) (i : Nat) : Prop where
  on : m.crQ x y (m.p (nx i)) (m.p (pv i)) = 0
  l : m.crQ x y (m.p i) (m.p (nx i)) < 0
  r : m.crQ x y (m.p (pv i)) (m.p i) < 0

theorem Mesh.OnOpen.shut {i} {x y : ℚ} (o : m.OnOpen x y i) : m.InShut x y i := ⟨o.l.le, o.on.le, o.r.le⟩

/-- towards a point on the face's side of the edge -/
theorem Mesh.OnOpen.near {i} {x y x' y' : ℚ} (o : m.OnOpen x y i) (hc : m.crQ x' y' (m.p (nx i)) (m.p (pv i)) < 0) : ∃ d0 > 0, ∀ t, 0 < t → t < d0 →
    m.InOpen (x + t * (x' - x)) (y + t * (y' - y)) i := by
  obtain ⟨d1, p1, h1⟩ := Cdt.near o.l (m.crQ x' y' (m.p i) (m.p (nx i)) - m.crQ x y (m.p i) (m.p (nx i)))
  obtain ⟨d3, p3, h3⟩ := Cdt.near o.r (m.crQ x' y' (m.p (pv i)) (m.p i) - m.crQ x y (m.p (pv i)) (m.p i))
  refine ⟨min d1 d3, lt_min p1 p3, fun t t0 ht => ?_⟩
  obtain ⟨t1, t3⟩ := lt_min_iff.1 ht
  unfold Mesh.InOpen
  rw [crQ_mix, crQ_mix, crQ_mix, o.on]
  refine ⟨h1 t t0 t1, ?_, h3 t t0 t3⟩
  have := mul_neg_of_pos_of_neg t0 hc
  linarith

/-- the point of two edges at a place that is inside one of them -/
theorem Mesh.OnOpen.same (h : Inv m) (R : Rim m) {i k} (hi : IsE m.size i) (hk : IsE m.size k) {x y x' y' : ℚ} (o : m.OnOpen x y i)
    (w : m.InShut x y k) (on : m.crQ x y (m.p (nx k)) (m.p (pv k)) = 0) (T : m.InOpen x' y' k)
    (hc : m.crQ x' y' (m.p (nx i)) (m.p (pv i)) < 0) : k = i := by
  obtain ⟨d, hd, hn⟩ := o.near hc
  have t0 : 0 < min (d / 2) (1 / 2) := lt_min (by linarith) (by norm_num)
  have t1 : min (d / 2) (1 / 2) < d := lt_of_le_of_lt (min_le_left _ _) (by linarith)
  have t2 : min (d / 2) (1 / 2) < 1 := lt_of_le_of_lt (min_le_right _ _) (by norm_num)
  have o1 := hn _ t0 t1
  have o2 := InOpen.mix T w (t := 1 - min (d / 2) (1 / 2)) (by linarith) (by linarith)
  have ex : ∀ z z' t : ℚ, z' + (1 - t) * (z - z') = z + t * (z' - z) := fun z z' t => by ring
  rw [ex, ex] at o2
  have f := planar h R hi hk o1 o2
  rcases hi.face hk f with e | e | e
  · exact e
  · rw [e, hi.nx_nx, hi.pv_nx] at on; have := o.r; linarith
  · rw [e, hi.nx_pv, hi.pv_pv] at on; have := o.l; linarith

/-- a wall does not touch the inside of an unconstrained edge -/
theorem wall_off (h : Inv m) (R : Rim m) {i a b} (hi : IsE m.size i) (hc : m.c i = 0) {x y : ℚ} (o : m.OnOpen x y i)
    (o' : m.OnOpen x y (m.e i)) (w : m.Wall a b) {t : ℚ} (h0 : 0 ≤ t) (h1 : t ≤ 1) (ex : x = m.x a + t * (m.x b - m.x a)) (ey : y = m.y a + t * (m.y b - m.y a)) : False := by
  have he := h.free hi hc
  have P := h.pair hi he
  have main : ∀ k t, IsE m.size k → m.c k ≠ 0 → 0 ≤ t → t ≤ 1 → x = m.x (m.p (nx k)) + t * (m.x (m.p (pv k)) - m.x (m.p (nx k))) →
      y = m.y (m.p (nx k)) + t * (m.y (m.p (pv k)) - m.y (m.p (nx k))) → False := by
    intro k t hk ck h0 h1 ex ey
    obtain ⟨s, on⟩ := edge_shut h hk h0 h1
    rw [← ex, ← ey] at s on
    obtain ⟨x', y', T, hT⟩ : ∃ x' y', m.InOpen x' y' k ∧ m.crQ x' y' (m.p (nx i)) (m.p (pv i)) ≠ 0 := by
      have c := centre_open h hk
      generalize (((m.x (m.p k) + m.x (m.p (nx k)) + m.x (m.p (pv k)) : ℚ)) / 3) = cx at c
      generalize (((m.y (m.p k) + m.y (m.p (nx k)) + m.y (m.p (pv k)) : ℚ)) / 3) = cy at c
      by_cases z : m.crQ cx cy (m.p (nx i)) (m.p (pv i)) = 0
      · obtain ⟨d, hd, hn⟩ := near_open c (m.x (m.p i)) (m.y (m.p i))
        refine ⟨_, _, hn (d / 2) (by linarith) (by linarith), ?_⟩
        rw [crQ_mix, z]
        have cw : ((m.cr (m.p i) (m.p (nx i)) (m.p (pv i)) : ℤ) : ℚ) < 0 := by exact_mod_cast h.cw i hi
        have e : m.crQ (m.x (m.p i)) (m.y (m.p i)) (m.p (nx i)) (m.p (pv i)) = (m.cr (m.p i) (m.p (nx i)) (m.p (pv i)) : ℤ) := by
          unfold Mesh.crQ Mesh.cr; push_cast; ring
        rw [e, sub_zero, zero_add]
        exact mul_ne_zero (by linarith) cw.ne
      · exact ⟨cx, cy, c, z⟩
    rcases lt_or_gt_of_ne hT with hT | hT
    · rw [Mesh.OnOpen.same h R hi hk o s on T hT] at ck
      exact ck hc
    · have := Mesh.OnOpen.same h R P.ib hk o' s on T (by rw [P.n1, P.n2, crQ_swap]; linarith)
      rw [this, (h.tw i hi he).2.2.1] at ck
      exact ck hc
  rcases wall_iff.1 w with ⟨k, hk, ck, e⟩ | ⟨k, hk, ck, e⟩
  · unfold Mesh.ends at e
    rw [Prod.mk.injEq] at e
    exact main k t hk ck h0 h1 (by rw [e.1, e.2]; exact ex) (by rw [e.1, e.2]; exact ey)
  · unfold Mesh.ends at e
    rw [Prod.mk.injEq] at e
    exact main k (1 - t) hk ck (by linarith) (by linarith) (by rw [e.1, e.2, ex]; ring) (by rw [e.1, e.2, ey]; ring)

/-- the middle of an edge -/
theorem mid_on (h : Inv m) {i} (hi : IsE m.size i) : m.OnOpen ((m.x (m.p (nx i)) + m.x (m.p (pv i))) / 2)
    ((m.y (m.p (nx i)) + m.y (m.p (pv i))) / 2) i := by
  have cw : ((m.cr (m.p i) (m.p (nx i)) (m.p (pv i)) : ℤ) : ℚ) < 0 := by exact_mod_cast h.cw i hi
  unfold Mesh.cr at cw
  push_cast at cw
  constructor
  · unfold Mesh.crQ; ring
  · unfold Mesh.crQ; nlinarith
  · unfold Mesh.crQ; nlinarith

/-- the opposite corner can be seen through an unconstrained edge -/
theorem across_visible (h : Inv m) (R : Rim m) {i} (hi : IsE m.size i) (hc : m.c i = 0) :
    ∃ x y, m.InOpen x y i ∧ m.Visible x y (m.p (m.e i)) := by
  have he := h.free hi hc
  have P := h.pair hi he
  have o := mid_on h hi
  have o' : m.OnOpen ((m.x (m.p (nx i)) + m.x (m.p (pv i))) / 2) ((m.y (m.p (nx i)) + m.y (m.p (pv i))) / 2) (m.e i) := by
    have := mid_on h P.ib
    rw [P.n1, P.n2] at this
    rw [add_comm (m.x (m.p (nx i)) : ℚ), add_comm (m.y (m.p (nx i)) : ℚ)]
    exact this
  have c2 : ((m.cr (m.p (m.e i)) (m.p (pv i)) (m.p (nx i)) : ℤ) : ℚ) < 0 := by
    have := h.cw _ P.ib; rw [P.n1, P.n2] at this; exact_mod_cast this
  generalize ((m.x (m.p (nx i)) + m.x (m.p (pv i)) : ℚ)) / 2 = X at o o'
  generalize ((m.y (m.p (nx i)) + m.y (m.p (pv i)) : ℚ)) / 2 = Y at o o'
  -- a point on the other side
  have far : m.crQ (X + (X - m.x (m.p (m.e i)))) (Y + (Y - m.y (m.p (m.e i)))) (m.p (nx i)) (m.p (pv i)) < 0 := by
    have e := crQ_mix m X Y (m.x (m.p (m.e i))) (m.y (m.p (m.e i))) (-1) (m.p (nx i)) (m.p (pv i))
    rw [o.on] at e
    have e2 : m.crQ (m.x (m.p (m.e i))) (m.y (m.p (m.e i))) (m.p (nx i)) (m.p (pv i)) = -(m.cr (m.p (m.e i)) (m.p (pv i)) (m.p (nx i)) : ℤ) := by
      unfold Mesh.crQ Mesh.cr; push_cast; ring
    rw [e2] at e
    rw [show X + (X - (m.x (m.p (m.e i)) : ℚ)) = X + -1 * (m.x (m.p (m.e i)) - X) by ring,
      show Y + (Y - (m.y (m.p (m.e i)) : ℚ)) = Y + -1 * (m.y (m.p (m.e i)) - Y) by ring, e]
    linarith
  obtain ⟨d, hd, hn⟩ := o.near far
  have op := hn (d / 2) (by linarith) (by linarith)
  refine ⟨_, _, op, ?_⟩
  have dv : m.InShut (m.x (m.p (m.e i))) (m.y (m.p (m.e i))) (m.e i) := by
    refine ⟨le_of_eq ?_, ?_, le_of_eq ?_⟩
    · unfold Mesh.crQ; ring
    · rw [P.n1, P.n2]
      have e : m.crQ (m.x (m.p (m.e i))) (m.y (m.p (m.e i))) (m.p (pv i)) (m.p (nx i)) = (m.cr (m.p (m.e i)) (m.p (pv i)) (m.p (nx i)) : ℤ) := by
        unfold Mesh.crQ Mesh.cr; push_cast; ring
      rw [e]; exact c2.le
    · unfold Mesh.crQ; ring
  intro a b w s t s0 s1 t0 t1 ⟨ex, ey⟩
  have hη : 0 < d / 2 := by linarith
  generalize d / 2 = η at hη op ex ey
  rcases lt_trichotomy ((1 - s) * (1 + η)) 1 with hl | hl | hl
  · have o3 : m.InOpen (X + (1 - (1 - s) * (1 + η)) * (m.x (m.p (m.e i)) - X)) (Y + (1 - (1 - s) * (1 + η)) * (m.y (m.p (m.e i)) - Y)) (m.e i) := by
      have lp : 0 < (1 - s) * (1 + η) := mul_pos (by linarith) (by linarith)
      generalize (1 - s) * (1 + η) = l at hl lp
      have z1 : m.crQ (m.x (m.p (m.e i))) (m.y (m.p (m.e i))) (m.p (m.e i)) (m.p (nx (m.e i))) = 0 := by unfold Mesh.crQ; ring
      have z3 : m.crQ (m.x (m.p (m.e i))) (m.y (m.p (m.e i))) (m.p (pv (m.e i))) (m.p (m.e i)) = 0 := by unfold Mesh.crQ; ring
      have z2 : m.crQ (m.x (m.p (m.e i))) (m.y (m.p (m.e i))) (m.p (nx (m.e i))) (m.p (pv (m.e i))) = (m.cr (m.p (m.e i)) (m.p (pv i)) (m.p (nx i)) : ℤ) := by
        rw [P.n1, P.n2]; unfold Mesh.crQ Mesh.cr; push_cast; ring
      unfold Mesh.InOpen
      rw [crQ_mix, crQ_mix, crQ_mix, o'.on, z1, z2, z3]
      have := o'.l
      have := o'.r
      refine ⟨?_, ?_, ?_⟩ <;> nlinarith
    refine wall_out h R P.ib w t0 t1 ?_
    rw [← ex, ← ey]
    convert o3 using 1 <;> ring
  · refine wall_off h R hi hc o o' w t0 t1 ?_ ?_
    · rw [← ex]; linear_combination (-(X - m.x (m.p (m.e i)) : ℚ)) * hl
    · rw [← ey]; linear_combination (-(Y - m.y (m.p (m.e i)) : ℚ)) * hl
  · have o3 := InOpen.mix op o.shut (t := s * (1 + η) / η) (div_nonneg (mul_nonneg s0 (by linarith)) hη.le)
      ((div_lt_one hη).2 (by linarith))
    refine wall_out h R hi w t0 t1 ?_
    rw [← ex, ← ey]
    convert o3 using 1
    · field_simp; ring
    · field_simp; ring

end CE.Cdt
