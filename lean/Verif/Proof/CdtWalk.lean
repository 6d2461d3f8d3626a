import Verif.Proof.CdtPlane
import Verif.Proof.CdtLegal
/-! On a mesh whose edges are all locally Delaunay the walk to a point ends, and no vertex is inside the circle of a face. -/
namespace CE.Cdt

open CE.Vec

variable {m m' : Mesh}

/-! ### powers -/

/-- in-circle determinant of three vertices and a rational point -/
def Mesh.dtQ (m : Mesh) (x y : ℚ) (a b c : Nat) : ℚ :=
  ((m.x a - x) * (m.x a - x) + (m.y a - y) * (m.y a - y)) * m.crQ x y b c +
  ((m.x b - x) * (m.x b - x) + (m.y b - y) * (m.y b - y)) * m.crQ x y c a +
  ((m.x c - x) * (m.x c - x) + (m.y c - y) * (m.y c - y)) * m.crQ x y a b

theorem dtQ_vertex (m : Mesh) (v a b c : Nat) : m.dtQ (m.x v) (m.y v) a b c = (m.dt a b c v : ℤ) := by
  unfold Mesh.dtQ Mesh.crQ Mesh.dt detE; push_cast; ring

theorem dtQ_rot (m : Mesh) (x y : ℚ) (a b c : Nat) : m.dtQ x y a b c = m.dtQ x y b c a := by unfold Mesh.dtQ; ring

/-- how the determinant changes across an edge -/
theorem dtQ_cross (m : Mesh) (x y : ℚ) (a b c d : Nat) :
    m.dtQ x y d c b * (m.cr a b c : ℤ) = m.dtQ x y a b c * (m.cr d c b : ℤ) + (m.dt a b c d : ℤ) * m.crQ x y b c := by
  unfold Mesh.dtQ Mesh.crQ Mesh.dt detE Mesh.cr; push_cast; ring

theorem dt_cross (m : Mesh) (v a b c d : Nat) :
    m.dt d c b v * m.cr a b c = m.dt a b c v * m.cr d c b + m.dt a b c d * m.crP (m.x v) (m.y v) b c := by
  unfold Mesh.dt detE Mesh.cr Mesh.crP; ring

/-- power of a point with respect to the circle of the face of an edge -/
def Mesh.pw (m : Mesh) (x y : ℚ) (i : Nat) : ℚ := m.dtQ x y (m.p i) (m.p (nx i)) (m.p (pv i)) / -(m.cr (m.p i) (m.p (nx i)) (m.p (pv i)) : ℤ)

theorem pw_nx {x y : ℚ} {s i} (hi : IsE s i) : m.pw x y (nx i) = m.pw x y i := by
  unfold Mesh.pw; rw [hi.nx_nx, hi.pv_nx, ← dtQ_rot, ← cr_rot]
theorem pw_pv {x y : ℚ} {s i} (hi : IsE s i) : m.pw x y (pv i) = m.pw x y i := by
  unfold Mesh.pw; rw [hi.nx_pv, hi.pv_pv, dtQ_rot, cr_rot]

/-- every edge with a twin is locally Delaunay -/
def FullLegal (m : Mesh) : Prop := ∀ i, IsE m.size i → m.e i ≠ 0 → 0 ≤ m.det i

theorem pw_cross (h : Inv m) {x y : ℚ} {i} (hi : IsE m.size i) (he : m.e i ≠ 0) (hd : 0 ≤ m.det i)
    (hq : 0 < m.crQ x y (m.p (nx i)) (m.p (pv i))) : m.pw x y (m.e i) < m.pw x y i ∨ (m.pw x y (m.e i) = m.pw x y i ∧ m.det i = 0) := by
  have P := h.pair hi he
  have c1 : ((m.cr (m.p i) (m.p (nx i)) (m.p (pv i)) : ℤ) : ℚ) < 0 := by exact_mod_cast h.cw i hi
  have c2 : ((m.cr (m.p (m.e i)) (m.p (pv i)) (m.p (nx i)) : ℤ) : ℚ) < 0 := by
    have := h.cw _ P.ib; rw [P.n1, P.n2] at this; exact_mod_cast this
  have e := dtQ_cross m x y (m.p i) (m.p (nx i)) (m.p (pv i)) (m.p (m.e i))
  unfold Mesh.pw
  rw [P.n1, P.n2]
  have hd' : (0 : ℚ) ≤ ((m.det i : ℤ) : ℚ) := by exact_mod_cast hd
  change _ = _ + ((m.det i : ℤ) : ℚ) * _ at e
  by_cases h0 : m.det i = 0
  · right
    refine ⟨?_, h0⟩
    rw [h0] at e
    push_cast at e
    rw [div_eq_div_iff (by linarith) (by linarith)]
    linarith
  · left
    have hp : (0 : ℚ) < ((m.det i : ℤ) : ℚ) := lt_of_le_of_ne hd' (by exact_mod_cast Ne.symm h0)
    have := mul_pos hp hq
    rw [div_lt_div_iff₀ (by linarith) (by linarith)]
    linarith

/-! ### ties -/

theorem form_pos {X Y Z bx b_y cx cy : ℤ} (hX : 0 < X) (h : Z * Z ≤ X * Y) (hr : bx * cy - b_y * cx ≠ 0) :
    0 < X * (bx * bx + b_y * b_y) - 2 * Z * (bx * cx + b_y * cy) + Y * (cx * cx + cy * cy) := by
  have n : X * bx - Z * cx ≠ 0 ∨ X * b_y - Z * cy ≠ 0 := by
    by_contra hc
    push Not at hc
    have : X * (bx * cy - b_y * cx) = 0 := by linear_combination cy * hc.1 - cx * hc.2
    rcases mul_eq_zero.1 this with e | e
    · omega
    · exact hr e
  have : 0 < X * (X * (bx * bx + b_y * b_y) - 2 * Z * (bx * cx + b_y * cy) + Y * (cx * cx + cy * cy)) := by
    have q1 := mul_nonneg (sub_nonneg.2 h) (mul_self_nonneg cx)
    have q2 := mul_nonneg (sub_nonneg.2 h) (mul_self_nonneg cy)
    have q3 := mul_self_nonneg (X * bx - Z * cx)
    have q4 := mul_self_nonneg (X * b_y - Z * cy)
    rcases n with n | n
    · have := mul_self_pos.2 n; nlinarith
    · have := mul_self_pos.2 n; nlinarith
  exact (mul_pos_iff_of_pos_left hX).1 this

/-- a point beyond an edge of a face and not outside of its circle is on the inner side of the other edges -/
theorem convex_le {ax ay bx b_y cx cy : ℤ} (hr : 0 < bx * cy - b_y * cx)
    (hcw : (bx * cy - b_y * cx) + (cx * ay - cy * ax) + (ax * b_y - ay * bx) < 0) (hE : detE ax ay bx b_y cx cy ≤ 0) :
    cx * ay - cy * ax < 0 ∧ ax * b_y - ay * bx < 0 := by
  have hf := det_form ax ay bx b_y cx cy
  have hneg : (bx * cy - b_y * cx) * detE ax ay bx b_y cx cy ≤ 0 := mul_nonpos_of_nonneg_of_nonpos hr.le hE
  rw [hf] at hneg
  have hne : bx * cy - b_y * cx ≠ 0 := ne_of_gt hr
  have hne' : cx * b_y - cy * bx ≠ 0 := by intro e; apply hne; linarith
  generalize hr' : bx * cy - b_y * cx = r at *
  generalize hp' : cx * ay - cy * ax = p at *
  generalize hq' : ax * b_y - ay * bx = q at *
  constructor
  · by_contra hp
    push Not at hp
    have hq : q < 0 := by linarith
    have := form_pos (X := q * (q + r)) (Y := (-p) * (-p - r)) (Z := (-p) * q) (bx := cx) (b_y := cy) (cx := bx) (cy := b_y)
      (mul_pos_of_neg_of_neg hq (by linarith)) (by nlinarith [mul_nonneg (mul_nonneg hp (by linarith : (0:ℤ) ≤ -q)) (mul_nonneg hr.le (by linarith : (0:ℤ) ≤ -(q + r + p)))]) hne'
    linarith [this, mul_comm cx bx, mul_comm cy b_y]
  · by_contra hq
    push Not at hq
    have hp : p < 0 := by linarith
    have := form_pos (X := (-p) * (-p - r)) (Y := q * (q + r)) (Z := (-p) * q) (bx := bx) (b_y := b_y) (cx := cx) (cy := cy)
      (mul_pos (by linarith) (by linarith)) (by nlinarith [mul_nonneg (mul_nonneg hq (by linarith : (0:ℤ) ≤ -p)) (mul_nonneg hr.le (by linarith : (0:ℤ) ≤ -(q + r + p)))]) (by rw [hr']; exact hne)
    linarith

theorem beyond (m : Mesh) {a b c v : Nat} (hcw : m.cr a b c < 0) (hv : 0 < m.crP (m.x v) (m.y v) b c) (hd : m.dt a b c v ≤ 0) :
    m.crP (m.x v) (m.y v) c a < 0 ∧ m.crP (m.x v) (m.y v) a b < 0 := by
  have s := crP_sum m (m.x v) (m.y v) a b c
  unfold Mesh.dt at hd
  unfold Mesh.crP at *
  exact convex_le hv (by linarith) hd

/-- the vertices on the circle of a face, on its side of an edge -/
def Mesh.cnt (m : Mesh) (j : Nat) : Nat :=
  ((Finset.range m.size).filter fun v => m.dt (m.p j) (m.p (nx j)) (m.p (pv j)) v = 0 ∧
    m.crP (m.x v) (m.y v) (m.p (nx j)) (m.p (pv j)) < 0).card

theorem cnt_cross (h : Inv m) {j k} (hj : IsE m.size j) (hk : k = nx j ∨ k = pv j) (he : m.e k ≠ 0) (hd : m.det k = 0) :
    m.cnt (m.e k) < m.cnt j := by
  have hk' : IsE m.size k := by rcases hk with rfl | rfl; exacts [hj.nx, hj.pv]
  have P := h.pair hk' he
  unfold Mesh.cnt
  apply Finset.card_lt_card
  rw [Finset.ssubset_iff_of_subset]
  · refine ⟨m.p j, ?_, ?_⟩
    · rw [Finset.mem_filter, Finset.mem_range]
      refine ⟨h.pl j hj, by unfold Mesh.dt detE; ring, ?_⟩
      have := h.cw j hj
      unfold Mesh.cr at this
      unfold Mesh.crP
      linarith
    · rw [Finset.mem_filter]
      rintro ⟨-, -, hc⟩
      rw [P.n1, P.n2] at hc
      rcases hk with rfl | rfl
      · rw [hj.nx_nx, hj.pv_nx] at hc; unfold Mesh.crP at hc; linarith
      · rw [hj.nx_pv, hj.pv_pv] at hc; unfold Mesh.crP at hc; linarith
  · intro v hv
    rw [Finset.mem_filter] at hv ⊢
    obtain ⟨h1, h2, h3⟩ := hv
    rw [P.n1, P.n2] at h2 h3
    have x := dt_cross m v (m.p k) (m.p (nx k)) (m.p (pv k)) (m.p (m.e k))
    rw [h2, show m.dt (m.p k) (m.p (nx k)) (m.p (pv k)) (m.p (m.e k)) = 0 from hd] at x
    have c2 := h.cw _ P.ib
    rw [P.n1, P.n2] at c2
    have z : m.dt (m.p k) (m.p (nx k)) (m.p (pv k)) v = 0 := by
      have : m.dt (m.p k) (m.p (nx k)) (m.p (pv k)) v * m.cr (m.p (m.e k)) (m.p (pv k)) (m.p (nx k)) = 0 := by linarith
      rcases mul_eq_zero.1 this with e | e
      · exact e
      · omega
    have b := beyond m (h.cw k hk') (v := v) (by rw [crP_swap]; linarith) z.le
    refine ⟨h1, ?_, ?_⟩
    · rcases hk with rfl | rfl
      · rw [hj.nx_nx, hj.pv_nx] at z; rw [← z, dt_rot]
      · rw [hj.nx_pv, hj.pv_pv] at z; rw [← z, dt_rot']
    · rcases hk with rfl | rfl
      · rw [hj.nx_nx, hj.pv_nx] at b; exact b.2
      · rw [hj.nx_pv, hj.pv_pv] at b; exact b.1

/-! ### the measure of the walk -/

/-- the order on edges that the walk descends -/
def Mesh.below (m : Mesh) (x y : ℚ) (i j : Nat) : Prop :=
  m.pw x y i < m.pw x y j ∨ (m.pw x y i = m.pw x y j ∧ m.cnt i < m.cnt j)

theorem below_trans {x y : ℚ} {i j k} (h1 : m.below x y i j) (h2 : m.below x y j k) : m.below x y i k := by
  unfold Mesh.below at *
  rcases h1 with a | ⟨a, b⟩ <;> rcases h2 with c | ⟨c, d⟩
  · exact Or.inl (a.trans c)
  · exact Or.inl (c ▸ a)
  · exact Or.inl (a ▸ c)
  · exact Or.inr ⟨a.trans c, b.trans d⟩

theorem below_irrefl {x y : ℚ} {i} : ¬ m.below x y i i := by
  unfold Mesh.below; rintro (h | ⟨-, h⟩) <;> exact lt_irrefl _ h

open Classical in
/-- how many edges are below -/
noncomputable def Mesh.rank (m : Mesh) (x y : ℚ) (j : Nat) : Nat := (m.es.filter fun k => m.below x y k j).card

theorem rank_lt {x y : ℚ} {i j} (hi : IsE m.size i) (hb : m.below x y i j) : m.rank x y i < m.rank x y j := by
  classical
  unfold Mesh.rank
  apply Finset.card_lt_card
  rw [Finset.ssubset_iff_of_subset]
  · exact ⟨i, Finset.mem_filter.2 ⟨mem_es.2 hi, hb⟩, fun hc => below_irrefl (Finset.mem_filter.1 hc).2⟩
  · intro k hk
    rw [Finset.mem_filter] at hk ⊢
    exact ⟨hk.1, below_trans hk.2 hb⟩

theorem es_card : m.es.card ≤ 3 * (2 * m.size - 6) := by
  unfold Mesh.es
  refine Finset.card_biUnion_le.trans ?_
  refine (Finset.sum_le_card_nsmul _ _ 3 fun f _ => Finset.card_le_three).trans ?_
  rw [Nat.card_Ico, smul_eq_mul]
  omega

theorem rank_le {x y : ℚ} {j} : m.rank x y j ≤ 3 * (2 * m.size - 6) := by
  classical
  exact (Finset.card_filter_le _ _).trans es_card

theorem rank_cross (h : Inv m) (L : FullLegal m) {x y : ℚ} {j k} (hj : IsE m.size j) (hk : k = nx j ∨ k = pv j) (he : m.e k ≠ 0)
    (hq : 0 < m.crQ x y (m.p (nx k)) (m.p (pv k))) : m.rank x y (m.e k) < m.rank x y j := by
  have hk' : IsE m.size k := by rcases hk with rfl | rfl; exacts [hj.nx, hj.pv]
  refine rank_lt (h.pair hk' he).ib ?_
  have e : m.pw x y k = m.pw x y j := by rcases hk with rfl | rfl; exacts [pw_nx hj, pw_pv hj]
  unfold Mesh.below
  rw [← e]
  rcases pw_cross h hk' he (L k hk' he) hq with c | ⟨c, d⟩
  · exact Or.inl c
  · exact Or.inr ⟨c, cnt_cross h hj hk he d⟩

/-- a number that falls when the walk to the point goes on to another face -/
structure Falls (m : Mesh) (x y : ℚ) (r : Nat → Nat) : Prop where
  cross : ∀ j k, IsE m.size j → (k = nx j ∨ k = pv j) → m.e k ≠ 0 → 0 < m.crQ x y (m.p (nx k)) (m.p (pv k)) → r (m.e k) < r j
  le : ∀ j, r j ≤ 3 * (2 * m.size - 6)

/-- walks to all points end -/
def Tame (m : Mesh) : Prop := ∀ x y : ℚ, ∃ r, Falls m x y r

theorem FullLegal.tame (L : FullLegal m) (h : Inv m) : Tame m := fun x y =>
  ⟨m.rank x y, fun _ _ hj hk he hq => rank_cross h L hj hk he hq, fun _ => rank_le⟩

/-! ### the walk ends -/

/-- the test is defined on all edges, and a failed one means that the rational point is strictly beyond the edge -/
structure Sees (m : Mesh) (at' : Nat → Option V2) (ins : V2 → V2 → Option Bool) (x y : ℚ) : Prop where
  a : ∀ v, v < m.size → ∃ u, at' v = some u
  i : ∀ i, IsE m.size i → ∀ u v, at' (m.p (nx i)) = some u → at' (m.p (pv i)) = some v →
    ∃ b, ins u v = some b ∧ (b = false → 0 < m.crQ x y (m.p (nx i)) (m.p (pv i)))

theorem walk_total (h : Inv m) {r : Nat → Nat} {at' ins} (hf : Flipping m at' ins) {x y : ℚ} (L : Falls m x y r) (hs : Sees m at' ins x y) (asrt : Bool) :
    ∀ k s e p1 p2, ((e = 0 ∧ ins p1 p2 = some true ∧ 1 ≤ k) ∨ (At m at' ins e p1 p2 ∧ r e + 2 ≤ k)) →
    ∃ r, walk m at' ins asrt k s e p1 p2 = some r := by
  intro k
  induction k with
  | zero => intro s e p1 p2 ha; omega
  | succ k ih =>
    intro s e p1 p2 ha
    have hi : ins p1 p2 = some true := by rcases ha with ha | ha; exacts [ha.2.1, ha.1.i]
    by_cases he : e = 0
    · refine ⟨0, ?_⟩
      cases s
      · rw [walk, if_pos he]
      · rw [walk]
        cases asrt <;> simp [hi, he]
    · obtain ⟨A, hk⟩ : At m at' ins e p1 p2 ∧ r e + 2 ≤ k + 1 := by rcases ha with ha | ha; exacts [absurd ha.1 he, ha]
      obtain ⟨p0, a0⟩ := hs.a _ (h.pl e A.ie)
      obtain ⟨b1, i1, s1⟩ := hs.i _ A.ie.nx p2 p0 (by rw [A.ie.nx_nx]; exact A.a2) (by rw [A.ie.pv_nx]; exact a0)
      obtain ⟨b2, i2, s2⟩ := hs.i _ A.ie.pv p0 p1 (by rw [A.ie.nx_pv]; exact a0) (by rw [A.ie.pv_pv]; exact A.a1)
      have go : ∀ {c u v s}, (c = nx e ∨ c = pv e) → at' (m.p (nx c)) = some u → at' (m.p (pv c)) = some v → ins u v = some false →
          0 < m.crQ x y (m.p (nx c)) (m.p (pv c)) → ∃ r, walk m at' ins asrt k s (m.e c) v u = some r := by
        intro c u v s hc hu hv hn hq
        have hc' : IsE m.size c := by rcases hc with rfl | rfl; exacts [A.ie.nx, A.ie.pv]
        apply ih
        by_cases h0 : m.e c = 0
        · exact Or.inl ⟨h0, (hf c hc' u v hu hv).1 hn, by omega⟩
        · have r := L.cross _ _ A.ie hc h0 hq
          exact Or.inr ⟨(At.cross h hf hc' hu hv hn).resolve_left fun h' => h0 h'.1, by omega⟩
      have g1 : ∀ {s}, b1 = false → ∃ r, walk m at' ins asrt k s (m.e (nx e)) p0 p2 = some r := fun hb =>
        go (Or.inl rfl) (by rw [A.ie.nx_nx]; exact A.a2) (by rw [A.ie.pv_nx]; exact a0) (hb ▸ i1) (s1 hb)
      have g2 : ∀ {s}, b2 = false → ∃ r, walk m at' ins asrt k s (m.e (pv e)) p1 p0 = some r := fun hb =>
        go (Or.inr rfl) (by rw [A.ie.nx_pv]; exact a0) (by rw [A.ie.pv_pv]; exact A.a1) (hb ▸ i2) (s2 hb)
      cases s
      · rw [walk, if_neg he]
        simp only [Option.bind_eq_bind, a0, i1, i2, Option.bind_some]
        cases b1 <;> cases b2 <;> simp only [Bool.and_true, Bool.and_false, Bool.and_self, if_true, if_false, Bool.false_eq_true]
        · exact g1 rfl
        · exact g1 rfl
        · exact g2 rfl
        · exact ⟨_, rfl⟩
      · rw [walk]
        cases asrt <;> simp only [if_true, if_false, Bool.false_eq_true, hi, Option.bind_eq_bind, Option.bind_some, not_true_eq_false, he, a0, i2] <;>
          cases b2 <;> simp only [if_true, if_false, Bool.false_eq_true, i1, Option.bind_some]
        · exact g2 rfl
        · cases b1 <;> simp only [if_true, if_false, Bool.false_eq_true]
          · exact g1 rfl
          · exact ⟨_, rfl⟩
        · exact g2 rfl
        · cases b1 <;> simp only [if_true, if_false, Bool.false_eq_true]
          · exact g1 rfl
          · exact ⟨_, rfl⟩

theorem walkFrom_total (h : Inv m) (L : Tame m) {at' ins} (hf : Flipping m at' ins) {x y : ℚ} (hs : Sees m at' ins x y) (asrt : Bool)
    {k e} (he : IsE m.size e) (he4 : e % 4 = 0) (hk : 6 * m.size ≤ k) : ∃ r, walkFrom m at' ins asrt k e = some r := by
  have B := base he he4
  have h4 := h.sz
  obtain ⟨r, D⟩ := L x y
  obtain ⟨p1, a1⟩ := hs.a _ (h.pl _ B.i1)
  obtain ⟨p2, a2⟩ := hs.a _ (h.pl _ B.i2)
  obtain ⟨b, ib, sb⟩ := hs.i e he p1 p2 (by rw [B.n0]; exact a1) (by rw [B.p0]; exact a2)
  unfold walkFrom
  simp only [Option.bind_eq_bind, a1, a2, ib, Option.bind_some]
  cases b
  · simp only [if_false, Bool.false_eq_true]
    apply walk_total h hf D hs
    rcases At.cross h hf he (by rw [B.n0]; exact a1) (by rw [B.p0]; exact a2) ib with c | c
    · exact Or.inl ⟨c.1, (hf e he p1 p2 (by rw [B.n0]; exact a1) (by rw [B.p0]; exact a2)).1 ib, by omega⟩
    · exact Or.inr ⟨c, by have := D.le (m.e e); omega⟩
  · simp only [if_true]
    apply walk_total h hf D hs
    exact Or.inr ⟨⟨he, by rw [B.n0]; exact a1, by rw [B.p0]; exact a2, ib⟩, by have := D.le e; omega⟩

/-- more steps do not change the answer -/
theorem walk_mono {at' ins} (asrt : Bool) : ∀ k s e p1 p2 r, walk m at' ins asrt k s e p1 p2 = some r →
    walk m at' ins asrt (k + 1) s e p1 p2 = some r := by
  intro k
  induction k with
  | zero => intro s e p1 p2 r hr; simp [walk] at hr
  | succ k ih =>
    intro s e p1 p2 r hr
    cases s
    · rw [walk] at hr ⊢
      split at hr
      · rename_i he; rw [if_pos he]; exact hr
      · rename_i he
        rw [if_neg he]
        simp only [Option.bind_eq_bind, Option.bind_eq_some_iff] at hr ⊢
        obtain ⟨p0, a0, in1, i1, in2, i2, hr⟩ := hr
        refine ⟨p0, a0, in1, i1, in2, i2, ?_⟩
        cases in1 <;> cases in2 <;> simp only [Bool.and_true, Bool.and_false, Bool.and_self, if_true, if_false, Bool.false_eq_true] at hr ⊢
        · exact ih _ _ _ _ _ hr
        · exact ih _ _ _ _ _ hr
        · exact ih _ _ _ _ _ hr
        · exact hr
    · have key : ∀ k', walk m at' ins asrt (k' + 1) true e p1 p2 = some r ↔ ((asrt = true → ins p1 p2 = some true) ∧
          (if e = 0 then some 0 else (at' (m.p e)).bind fun p0 => (ins p0 p1).bind fun in2 =>
            if in2 then (ins p2 p0).bind fun in1 => if in1 then some e else walk m at' ins asrt k' false (m.e (nx e)) p0 p2
            else walk m at' ins asrt k' true (m.e (pv e)) p1 p0) = some r) := by
        intro k'
        rw [walk]
        cases asrt
        · simp
        · simp only [if_true, Option.bind_eq_bind, Option.bind_eq_some_iff, forall_const]
          constructor
          · rintro ⟨ok, hok, hr⟩
            cases ok
            · simp at hr
            · exact ⟨hok, by simpa using hr⟩
          · rintro ⟨hok, hr⟩
            exact ⟨true, hok, by simpa using hr⟩
      rw [key] at hr ⊢
      refine ⟨hr.1, ?_⟩
      replace hr := hr.2
      split at hr
      · rename_i he; rw [if_pos he]; exact hr
      rename_i he
      rw [if_neg he]
      simp only [Option.bind_eq_some_iff] at hr ⊢
      obtain ⟨p0, a0, in2, i2, hr⟩ := hr
      refine ⟨p0, a0, in2, i2, ?_⟩
      cases in2 <;> simp only [if_true, if_false, Bool.false_eq_true, Option.bind_eq_some_iff] at hr ⊢
      · exact ih _ _ _ _ _ hr
      · obtain ⟨in1, i1, hr⟩ := hr
        refine ⟨in1, i1, ?_⟩
        cases in1 <;> simp only [if_true, if_false, Bool.false_eq_true] at hr ⊢
        · exact ih _ _ _ _ _ hr
        · exact hr

theorem walkFrom_mono {at' ins} {asrt : Bool} {k k' e r} (hk : k ≤ k') (hr : walkFrom m at' ins asrt k e = some r) :
    walkFrom m at' ins asrt k' e = some r := by
  induction hk with
  | refl => exact hr
  | step _ ih =>
    unfold walkFrom at ih ⊢
    simp only [Option.bind_eq_bind, Option.bind_eq_some_iff] at ih ⊢
    obtain ⟨p1, a1, p2, a2, i, hi, hr⟩ := ih
    refine ⟨p1, a1, p2, a2, i, hi, ?_⟩
    cases i <;> simp only [if_true, if_false, Bool.false_eq_true] at hr ⊢
    · exact walk_mono _ _ _ _ _ _ _ hr
    · exact walk_mono _ _ _ _ _ _ _ hr

/-- the walk before an insertion ends -/
theorem locateIns_total (h : Inv m) (L : Tame m) (px py : Int) (hint : Nat) :
    ∃ r, ∀ k, 6 * m.size ≤ k → locateIns k m px py hint = some r := by
  have hs := h.sz
  have he : IsE m.size ((if hint < 24 ∨ hint ≥ m.size * 8 then m.size * 8 - 4 else hint) / 4 * 4) := by
    unfold IsE; split <;> omega
  have S : Sees m (fun v => some ⟨m.x v - px, m.y v - py⟩) (fun a b => some (inn a.x a.y b.x b.y)) px py := by
    refine ⟨fun v _ => ⟨_, rfl⟩, fun i hi u v hu hv => ⟨_, rfl, fun hb => ?_⟩⟩
    simp only [Option.some.injEq] at hu hv
    unfold inn at hb
    rw [← hu, ← hv, decide_eq_false_iff_not] at hb
    rw [crQ_cast]
    unfold Mesh.crP
    simp only at hb
    push Not at hb
    exact_mod_cast (by linarith : (0 : ℤ) < _)
  obtain ⟨r, hr⟩ := walkFrom_total h L (inn_flipping m px py) S true he (by omega) (le_refl _)
  exact ⟨r, fun k hk => walkFrom_mono hk hr⟩

/-- the walk of `locate` ends when no difference overflows -/
theorem locate_total (h : Inv m) (L : Tame m) {w px py : Int} (hw : 0 < w) (hint : Nat)
    (hf : ∀ v, v < m.size → ∃ u, m.at32 w px py v = some u) : ∃ r, ∀ k, 6 * m.size ≤ k → locate k m w px py hint = some r := by
  have hs := h.sz
  have he : IsE m.size (if hint / 4 * 4 < 24 ∨ hint / 4 * 4 > m.size * 8 - 4 then m.size * 8 - 4 else hint / 4 * 4) := by
    unfold IsE; split <;> omega
  have he4 : (if hint / 4 * 4 < 24 ∨ hint / 4 * 4 > m.size * 8 - 4 then m.size * 8 - 4 else hint / 4 * 4) % 4 = 0 := by
    split <;> omega
  have ev : Eventually fun ε δ => ∀ i ∈ m.es.toList, ∃ b,
      inside ⟨(m.pt w (m.p (nx i))).x - px, (m.pt w (m.p (nx i))).y - py⟩ ⟨(m.pt w (m.p (pv i))).x - px, (m.pt w (m.p (pv i))).y - py⟩ = some b ∧
      (b = true ↔ side (px - ε) (py - δ) (m.pt w (m.p (nx i)), m.pt w (m.p (pv i))) < 0) ∧
      side (px - ε) (py - δ) (m.pt w (m.p (nx i)), m.pt w (m.p (pv i))) ≠ 0 := by
    refine Eventually.all _ fun i hi => ?_
    rw [Finset.mem_toList, mem_es] at hi
    obtain ⟨u, hu⟩ := hf _ (h.pl _ hi.nx)
    obtain ⟨v, hv⟩ := hf _ (h.pl _ hi.pv)
    obtain ⟨-, f1⟩ := at32_eq hu
    obtain ⟨-, f2⟩ := at32_eq hv
    obtain ⟨b, hb⟩ := C43_defined ⟨(m.pt w (m.p (nx i))).x - px, (m.pt w (m.p (nx i))).y - py⟩
      ⟨(m.pt w (m.p (pv i))).x - px, (m.pt w (m.p (pv i))).y - py⟩ f1.1 f1.2 f2.1 f2.2
    have hne : m.pt w (m.p (nx i)) ≠ m.pt w (m.p (pv i)) := by
      intro e
      unfold Mesh.pt at e
      injection e with e1 e2
      rcases edge_ne h hi with n | n
      · exact n (mul_right_cancel₀ (ne_of_gt hw) e2)
      · exact n (mul_right_cancel₀ (ne_of_gt hw) e1)
    exact ((inside_side ⟨px, py⟩ _ _ b hb).and (side_ne ⟨px, py⟩ _ _ hne f1.1 f1.2 f2.1 f2.2)).mono fun ε δ e => ⟨b, hb, e.1, e.2⟩
  obtain ⟨ε, δ, hE⟩ := ev.exists
  have hw' : (0 : ℚ) < w := by exact_mod_cast hw
  have S : Sees m (m.at32 w px py) inside ((px - ε) / w) ((py - δ) / w) := by
    refine ⟨hf, fun i hi u v hu hv => ?_⟩
    obtain ⟨rfl, -⟩ := at32_eq hu
    obtain ⟨rfl, -⟩ := at32_eq hv
    obtain ⟨b, hb, e1, e2⟩ := hE i (Finset.mem_toList.2 (mem_es.2 hi))
    refine ⟨b, hb, fun hf' => ?_⟩
    have e3 : ¬ side (px - ε) (py - δ) (m.pt w (m.p (nx i)), m.pt w (m.p (pv i))) < 0 := fun hc => by
      have := e1.2 hc; rw [hf'] at this; exact Bool.noConfusion this
    have e4 : 0 < side (px - ε) (py - δ) (m.pt w (m.p (nx i)), m.pt w (m.p (pv i))) := lt_of_le_of_ne (not_lt.1 e3) (Ne.symm e2)
    have e5 : side (px - ε) (py - δ) (m.pt w (m.p (nx i)), m.pt w (m.p (pv i))) =
        w * w * m.crQ ((px - ε) / w) ((py - δ) / w) (m.p (nx i)) (m.p (pv i)) := by
      unfold side crossQ Mesh.pt Mesh.crQ
      push_cast
      field_simp
    rw [e5] at e4
    exact (mul_pos_iff_of_pos_left (mul_pos hw' hw')).1 e4
  obtain ⟨r, hr⟩ := walkFrom_total h L (inside_flipping h hw px py) S false he he4 (le_refl _)
  refine ⟨if r = 0 then 0 else r ||| 3, fun k hk => ?_⟩
  unfold locate
  simp only [walkFrom_mono hk hr, Option.bind_eq_bind, Option.bind_some]
  rfl

/-! ### no vertex in a circle -/

theorem Rim.innerQ (R : Rim m) {i} (b : Bnd m i) {x y : ℚ} (hx : -32768 ≤ x ∧ x ≤ 32767) (hy : -32768 ≤ y ∧ y ≤ 32767) :
    m.crQ x y (m.p (nx i)) (m.p (pv i)) ≤ 0 := by
  have hm := R.mem i b
  unfold sides Mesh.ends at hm
  simp only [List.mem_cons, List.not_mem_nil, or_false, Prod.mk.injEq] at hm
  unfold Mesh.crQ
  rcases hm with ⟨e1, e2⟩ | ⟨e1, e2⟩ | ⟨e1, e2⟩ | ⟨e1, e2⟩
  · rw [e1, e2, R.xy0.1, R.xy0.2, R.xy1.1, R.xy1.2]; push_cast; nlinarith
  · rw [e1, e2, R.xy0.1, R.xy0.2, R.xy2.1, R.xy2.2]; push_cast; nlinarith
  · rw [e1, e2, R.xy2.1, R.xy2.2, R.xy3.1, R.xy3.2]; push_cast; nlinarith
  · rw [e1, e2, R.xy3.1, R.xy3.2, R.xy1.1, R.xy1.2]; push_cast; nlinarith

theorem descend' (h : Inv m) (R : Rim m) (L : FullLegal m) {x y : ℚ} (hx : -32768 ≤ x ∧ x ≤ 32767) (hy : -32768 ≤ y ∧ y ≤ 32767) :
    ∀ n j, IsE m.size j → m.rank x y j < n → m.crQ x y (m.p (nx j)) (m.p (pv j)) ≤ 0 → ∃ i, IsE m.size i ∧ m.InShut x y i ∧ m.pw x y i ≤ m.pw x y j := by
  intro n
  induction n with
  | zero => intro j _ hr; omega
  | succ n ih =>
    intro j hj hr hc
    have go : ∀ k, (k = nx j ∨ k = pv j) → 0 < m.crQ x y (m.p (nx k)) (m.p (pv k)) → ∃ i, IsE m.size i ∧ m.InShut x y i ∧ m.pw x y i ≤ m.pw x y j := by
      intro k hk hq
      have hk' : IsE m.size k := by rcases hk with rfl | rfl; exacts [hj.nx, hj.pv]
      have he : m.e k ≠ 0 := fun he => by have := R.innerQ ⟨hk', he⟩ hx hy; linarith
      have P := h.pair hk' he
      have r := rank_cross h L hj hk he hq
      obtain ⟨i, h1, h2, h3⟩ := ih (m.e k) P.ib (by omega) (by rw [P.n1, P.n2, crQ_swap]; linarith)
      have e : m.pw x y k = m.pw x y j := by rcases hk with rfl | rfl; exacts [pw_nx hj, pw_pv hj]
      refine ⟨i, h1, h2, h3.trans ?_⟩
      rw [← e]
      rcases pw_cross h hk' he (L k hk' he) hq with c | ⟨c, -⟩
      · exact c.le
      · exact c.le
    by_cases c1 : m.crQ x y (m.p (pv j)) (m.p j) ≤ 0
    · by_cases c2 : m.crQ x y (m.p j) (m.p (nx j)) ≤ 0
      · exact ⟨j, hj, ⟨c2, hc, c1⟩, le_refl _⟩
      · exact go _ (Or.inr rfl) (by rw [hj.nx_pv, hj.pv_pv]; exact not_le.1 c2)
    · exact go _ (Or.inl rfl) (by rw [hj.nx_nx, hj.pv_nx]; exact not_le.1 c1)

/-- from any face there is a way to a face that contains the point, with powers that do not grow -/
theorem descend (h : Inv m) (R : Rim m) (L : FullLegal m) {x y : ℚ} (hx : -32768 ≤ x ∧ x ≤ 32767) (hy : -32768 ≤ y ∧ y ≤ 32767)
    {j} (hj : IsE m.size j) : ∃ i, IsE m.size i ∧ m.InShut x y i ∧ m.pw x y i ≤ m.pw x y j := by
  by_cases c : m.crQ x y (m.p (nx j)) (m.p (pv j)) ≤ 0
  · exact descend' h R L hx hy _ j hj (Nat.lt_succ_self _) c
  · have c := not_le.1 c
    have he : m.e j ≠ 0 := fun he => by have := R.innerQ ⟨hj, he⟩ hx hy; linarith
    have P := h.pair hj he
    obtain ⟨i, h1, h2, h3⟩ := descend' h R L hx hy _ (m.e j) P.ib (Nat.lt_succ_self _) (by rw [P.n1, P.n2, crQ_swap]; linarith)
    refine ⟨i, h1, h2, h3.trans ?_⟩
    rcases pw_cross h hj he (L j hj he) c with d | ⟨d, -⟩
    · exact d.le
    · exact d.le

/-- the mesh is Delaunay: no vertex is strictly inside the circle of a face -/
theorem delaunay (h : Inv m) (R : Rim m) (C : Cover m) (L : FullLegal m) {i v} (hi : IsE m.size i) (hv : v < m.size) :
    0 ≤ m.dt (m.p i) (m.p (nx i)) (m.p (pv i)) v := by
  by_contra hc
  push Not at hc
  obtain ⟨rx, ry⟩ := h.rng v hv
  unfold Is16 at rx ry
  obtain ⟨t, ht, hin, hp⟩ := descend h R L (x := m.x v) (y := m.y v) ⟨by exact_mod_cast rx.1, by exact_mod_cast rx.2⟩
    ⟨by exact_mod_cast ry.1, by exact_mod_cast ry.2⟩ hi
  have c1 : ((m.cr (m.p i) (m.p (nx i)) (m.p (pv i)) : ℤ) : ℚ) < 0 := by exact_mod_cast h.cw i hi
  have neg : m.pw (m.x v) (m.y v) i < 0 := by
    unfold Mesh.pw
    rw [dtQ_vertex]
    exact div_neg_of_neg_of_pos (by exact_mod_cast hc) (by linarith)
  obtain ⟨j, hj, ej⟩ := C v hv
  have hin' : m.InClosed (m.x (m.p j)) (m.y (m.p j)) t := by rw [ej]; exact shut_iff.1 hin
  obtain ⟨k, hk, hf, kx, ky⟩ := clean h R ht hj hin'
  rw [ej] at kx ky
  have z : m.pw (m.x v) (m.y v) t = 0 := by
    have zk : m.pw (m.x v) (m.y v) k = 0 := by
      unfold Mesh.pw Mesh.dtQ Mesh.crQ
      rw [kx, ky]
      ring
    rcases ht.face hk hf.symm with e | e | e
    · rw [← e]; exact zk
    · rw [← pw_nx ht, ← e]; exact zk
    · rw [← pw_pv ht, ← e]; exact zk
  linarith

end CE.Cdt
