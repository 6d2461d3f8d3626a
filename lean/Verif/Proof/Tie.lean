import Verif.Proof.Rough
import Verif.Props.Sight
/-! Two constrained Delaunay meshes of the same places and constraints have the same edges but for those inside of faces whose corners lie on one circle. -/
namespace CE.Cdt

variable {m m' n : Mesh} {F : Int → Int → ℝ} {a b : Nat}

/-- what is needed of the meshes -/
structure Cl (m : Mesh) : Prop where
  inv : Inv m
  rim : Rim m
  cover : Cover m
  once : Distinct m
  legal : Legal m

/-- every place of a vertex of one is one of the other -/
def Sub (m n : Mesh) : Prop := ∀ px py, m.Vertex px py → n.Vertex px py

/-- constrained edges at the same places -/
def Walls (m n : Mesh) : Prop := ∀ p q, m.WallAt p q ↔ n.WallAt p q

theorem Walls.symm (w : Walls m n) : Walls n m := fun p q => (w p q).symm

theorem Walls.trans {l : Mesh} (w : Walls m n) (w' : Walls n l) : Walls m l := fun p q => (w p q).trans (w' p q)

/-- a flip makes no constrained edge -/
theorem FlipSpec.bar_back {a b u v} (S : FlipSpec m n a b) (P : Pair m a b) (B : Bar n u v) : Bar m u v := by
  obtain ⟨i, hi, ci, ei⟩ := B
  rw [S.size] at hi
  have i1 : i ≠ pv a := by rintro rfl; exact ci S.c3
  have i2 : i ≠ pv b := by rintro rfl; exact ci S.c4
  unfold Bar
  rw [← ei]
  by_cases e1 : i = a
  · refine ⟨pv b, P.ib.pv, by rw [← S.c1, ← e1]; exact ci, ?_⟩
    rw [e1]
    unfold Mesh.ends
    rw [S.p1, S.ppa P, P.ib.nx_pv, P.ib.pv_pv, P.n1]
  by_cases e2 : i = b
  · refine ⟨pv a, P.ia.pv, by rw [← S.c2, ← e2]; exact ci, ?_⟩
    rw [e2]
    unfold Mesh.ends
    rw [S.p2, S.symm.ppa P.symm, P.ia.nx_pv, P.ia.pv_pv, P.n2]
  refine ⟨i, hi, by rw [← S.c5 _ e1 e2 i1 i2]; exact ci, ?_⟩
  unfold Mesh.ends
  rw [S.p3, S.p3]
  · intro e; exact i1 (hi.pv_inj P.ia.pv (by rw [e, P.ia.pv_pv]))
  · intro e; exact i2 (hi.pv_inj P.ib.pv (by rw [e, P.ib.pv_pv]))
  · intro e; exact e1 (hi.nx_inj P.ia e)
  · intro e; exact e2 (hi.nx_inj P.ib e)

/-- flips keep the constrained edges -/
theorem Flips.walls (s : Flips m n) : Walls m n := by
  induction s with
  | refl => exact fun _ _ => Iff.rfl
  | @step m m' n a b P hc hd S r ih =>
    refine Walls.trans (fun p q => ?_) ih
    unfold Mesh.WallAt Mesh.pos
    rw [S.x, S.y]
    refine exists_congr fun u => exists_congr fun v => and_congr_left fun _ => ?_
    rw [wall_iff, wall_iff]
    exact ⟨Or.imp (S.bar P hc) (S.bar P hc), Or.imp (S.bar_back P) (S.bar_back P)⟩

/-- the power is a sum of squares and something linear -/
theorem pw_form (h : Inv m) {i} (hi : IsE m.size i) : ∃ a b c : ℚ, ∀ x y, m.pw x y i = x * x + y * y + a * x + b * y + c := by
  have c : ((m.cr (m.p i) (m.p (nx i)) (m.p (pv i)) : ℤ) : ℚ) < 0 := by exact_mod_cast h.cw i hi
  refine ⟨m.pw 1 0 i - m.pw 0 0 i - 1, m.pw 0 1 i - m.pw 0 0 i - 1, m.pw 0 0 i, fun x y => ?_⟩
  unfold Mesh.pw Mesh.dtQ Mesh.crQ
  have c' := c.ne
  unfold Mesh.cr at c' ⊢
  push_cast at c' ⊢
  field_simp
  ring

theorem pw_p (m : Mesh) (i : Nat) : m.pw (m.x (m.p i)) (m.y (m.p i)) i = 0 := by
  unfold Mesh.pw Mesh.dtQ Mesh.crQ; ring
theorem pw_pnx (m : Mesh) (i : Nat) : m.pw (m.x (m.p (nx i))) (m.y (m.p (nx i))) i = 0 := by
  unfold Mesh.pw Mesh.dtQ Mesh.crQ; ring
theorem pw_ppv (m : Mesh) (i : Nat) : m.pw (m.x (m.p (pv i))) (m.y (m.p (pv i))) i = 0 := by
  unfold Mesh.pw Mesh.dtQ Mesh.crQ; ring

/-- a point on a circle and on the line of an edge is an end of the edge -/
theorem on_line (h : Inv m) {i} (hi : IsE m.size i) {x y : ℚ} (h1 : m.pw x y i = 0) (z : m.crQ x y (m.p (nx i)) (m.p (pv i)) = 0) :
    (x = m.x (m.p (nx i)) ∧ y = m.y (m.p (nx i))) ∨ (x = m.x (m.p (pv i)) ∧ y = m.y (m.p (pv i))) := by
  have c1 : ((m.cr (m.p i) (m.p (nx i)) (m.p (pv i)) : ℤ) : ℚ) ≠ 0 := by exact_mod_cast (h.cw i hi).ne
  unfold Mesh.pw at h1
  rw [div_eq_zero_iff, neg_eq_zero] at h1
  have h1 := h1.resolve_right c1
  generalize (m.p i) = A at *
  generalize (m.p (nx i)) = U at *
  generalize (m.p (pv i)) = V at *
  have dot : (x - m.x U) * (x - m.x V) + (y - m.y U) * (y - m.y V) = 0 := by
    have : ((m.cr A U V : ℤ) : ℚ) * ((x - m.x U) * (x - m.x V) + (y - m.y U) * (y - m.y V)) = 0 := by
      have i : m.dtQ x y A U V = -((m.cr A U V : ℤ) : ℚ) * ((x - m.x U) * (x - m.x V) + (y - m.y U) * (y - m.y V)) +
          m.crQ x y U V * ((m.x A - m.x U) * (m.x A - m.x V) + (m.y A - m.y U) * (m.y A - m.y V)) := by
        unfold Mesh.dtQ Mesh.crQ Mesh.cr; push_cast; ring
      rw [h1, z] at i
      linarith
    rcases mul_eq_zero.1 this with e | e
    · exact absurd e c1
    · exact e
  have prod : ((x - m.x U) ^ 2 + (y - m.y U) ^ 2) * ((x - m.x V) ^ 2 + (y - m.y V) ^ 2) = 0 := by
    unfold Mesh.crQ at z
    linear_combination ((x - m.x U) * (x - m.x V) + (y - m.y U) * (y - m.y V)) * dot +
      ((m.x U - x) * (m.y V - y) - (m.y U - y) * (m.x V - x)) * z
  have zero : ∀ s t : ℚ, s ^ 2 + t ^ 2 = 0 → s = 0 ∧ t = 0 := fun s t e => by
    constructor <;> nlinarith [sq_nonneg s, sq_nonneg t]
  rcases mul_eq_zero.1 prod with e | e
  · obtain ⟨a, b⟩ := zero _ _ e; exact Or.inl ⟨by linarith, by linarith⟩
  · obtain ⟨a, b⟩ := zero _ _ e; exact Or.inr ⟨by linarith, by linarith⟩

/-- a point on the circles on both sides of an edge is on its line -/
theorem on_both (h : Inv m) {i} (hi : IsE m.size i) (he : m.e i ≠ 0) (hd : m.det i ≠ 0) {x y : ℚ} (h1 : m.pw x y i = 0) (h2 : m.pw x y (m.e i) = 0) :
    m.crQ x y (m.p (nx i)) (m.p (pv i)) = 0 := by
  have P := h.pair hi he
  have c1 : ((m.cr (m.p i) (m.p (nx i)) (m.p (pv i)) : ℤ) : ℚ) ≠ 0 := by exact_mod_cast (h.cw i hi).ne
  have c2 : ((m.cr (m.p (m.e i)) (m.p (nx (m.e i))) (m.p (pv (m.e i))) : ℤ) : ℚ) ≠ 0 := by exact_mod_cast (h.cw _ P.ib).ne
  have d : ((m.det i : ℤ) : ℚ) ≠ 0 := by exact_mod_cast hd
  unfold Mesh.pw at h1 h2
  rw [div_eq_zero_iff, neg_eq_zero] at h1 h2
  have h1 := h1.resolve_right c1
  have h2 := h2.resolve_right c2
  rw [P.n1, P.n2] at h2
  have e := dtQ_cross m x y (m.p i) (m.p (nx i)) (m.p (pv i)) (m.p (m.e i))
  change _ = _ + ((m.det i : ℤ) : ℚ) * _ at e
  rw [h1, h2, zero_mul, zero_mul, zero_add] at e
  rcases mul_eq_zero.1 e.symm with e | e
  · exact absurd e d
  · exact e

/-- a point in a face is an average of its corners -/
theorem shares (h : Inv m) {i} (hi : IsE m.size i) {x y : ℚ} (o : m.InShut x y i) : ∃ l0 l1 l2 : ℚ, 0 ≤ l0 ∧ 0 ≤ l1 ∧ 0 ≤ l2 ∧ l0 + l1 + l2 = 1 ∧
    l0 * m.x (m.p i) + l1 * m.x (m.p (nx i)) + l2 * m.x (m.p (pv i)) = x ∧ l0 * m.y (m.p i) + l1 * m.y (m.p (nx i)) + l2 * m.y (m.p (pv i)) = y ∧
    (m.InOpen x y i → 0 < l0 ∧ 0 < l1 ∧ 0 < l2) := by
  have D : ((m.cr (m.p i) (m.p (nx i)) (m.p (pv i)) : ℤ) : ℚ) < 0 := by exact_mod_cast h.cw i hi
  obtain ⟨o1, o2, o3⟩ := o
  refine ⟨_ / _, _ / _, _ / _, div_nonneg_of_nonpos o2 D.le, div_nonneg_of_nonpos o3 D.le, div_nonneg_of_nonpos o1 D.le, ?_, ?_, ?_,
    fun q => ⟨div_pos_of_neg_of_neg q.2.1 D, div_pos_of_neg_of_neg q.2.2 D, div_pos_of_neg_of_neg q.1 D⟩⟩ <;>
  · have D' := D.ne
    unfold Mesh.crQ
    unfold Mesh.cr at D' ⊢
    push_cast at D' ⊢
    field_simp
    ring

/-- averages of powers -/
theorem mean {l0 l1 l2 k0 k1 k2 a b c a' b' c' x0 y0 x1 y1 x2 y2 u0 v0 u1 v1 u2 v2 x y : ℚ} (h0 : 0 < l0) (h1 : 0 < l1) (h2 : 0 < l2) (s : l0 + l1 + l2 = 1)
    (sx : l0 * x0 + l1 * x1 + l2 * x2 = x) (sy : l0 * y0 + l1 * y1 + l2 * y2 = y)
    (j0 : 0 < k0) (j1 : 0 < k1) (j2 : 0 < k2) (t : k0 + k1 + k2 = 1) (tx : k0 * u0 + k1 * u1 + k2 * u2 = x) (ty : k0 * v0 + k1 * v1 + k2 * v2 = y)
    {P Q : ℚ → ℚ → ℚ} (hP : ∀ x y, P x y = x * x + y * y + a * x + b * y + c) (hQ : ∀ x y, Q x y = x * x + y * y + a' * x + b' * y + c')
    (z0 : P x0 y0 = 0) (z1 : P x1 y1 = 0) (z2 : P x2 y2 = 0) (p0 : 0 ≤ P u0 v0) (p1 : 0 ≤ P u1 v1) (p2 : 0 ≤ P u2 v2)
    (w0 : Q u0 v0 = 0) (w1 : Q u1 v1 = 0) (w2 : Q u2 v2 = 0) (q0 : 0 ≤ Q x0 y0) (q1 : 0 ≤ Q x1 y1) (q2 : 0 ≤ Q x2 y2) :
    P u0 v0 = 0 ∧ P u1 v1 = 0 ∧ P u2 v2 = 0 := by
  have e : k0 * P u0 v0 + k1 * P u1 v1 + k2 * P u2 v2 + (l0 * Q x0 y0 + l1 * Q x1 y1 + l2 * Q x2 y2) = 0 := by
    rw [hP, hP, hP, hQ, hQ, hQ]
    rw [hP] at z0 z1 z2
    rw [hQ] at w0 w1 w2
    linear_combination l0 * z0 + l1 * z1 + l2 * z2 + k0 * w0 + k1 * w1 + k2 * w2 + (a - a') * tx + (b - b') * ty + (c - c') * t -
      (a - a') * sx - (b - b') * sy - (c - c') * s
  have a0 := mul_nonneg h0.le q0
  have a1 := mul_nonneg h1.le q1
  have a2 := mul_nonneg h2.le q2
  have b0 := mul_nonneg j0.le p0
  have b1 := mul_nonneg j1.le p1
  have b2 := mul_nonneg j2.le p2
  refine ⟨(mul_eq_zero.1 (?_ : k0 * _ = 0)).resolve_left j0.ne', (mul_eq_zero.1 (?_ : k1 * _ = 0)).resolve_left j1.ne',
    (mul_eq_zero.1 (?_ : k2 * _ = 0)).resolve_left j2.ne'⟩ <;> linarith

/-- a corner of a face of the other mesh is not inside the circle of a face that overlaps -/
theorem Cl.seen (hm : Cl m) (hn : Cl n) (s' : Sub n m) (w : Walls m n) {i j} (hi : IsE m.size i) (hj : IsE n.size j) {x y : ℚ}
    (o : m.InOpen x y i) (o' : n.InOpen x y j) : 0 ≤ m.pw (n.x (n.p j)) (n.y (n.p j)) i := by
  obtain ⟨v, hv, ex, ey⟩ := s' _ _ ⟨_, hn.inv.pl _ hj, rfl, rfl⟩
  have vis : m.Visible x y v := Visible.move w.symm (by unfold Mesh.pos; rw [ex, ey]) (corner_visible hn.inv hn.rim hj o')
  have d : (0 : ℚ) ≤ (m.dt (m.p i) (m.p (nx i)) (m.p (pv i)) v : ℤ) := by
    exact_mod_cast sight hm.inv hm.rim hm.cover hm.once hm.legal hv hi o vis
  have c : ((m.cr (m.p i) (m.p (nx i)) (m.p (pv i)) : ℤ) : ℚ) < 0 := by exact_mod_cast hm.inv.cw i hi
  unfold Mesh.pw
  rw [← ex, ← ey, dtQ_vertex]
  exact div_nonneg d (by linarith)

/-- faces that overlap have their corners on one circle -/
theorem overlap (hm : Cl m) (hn : Cl n) (s : Sub m n) (s' : Sub n m) (w : Walls m n) {i j} (hi : IsE m.size i) (hj : IsE n.size j) {x y : ℚ}
    (o : m.InOpen x y i) (o' : n.InOpen x y j) : m.pw (n.x (n.p j)) (n.y (n.p j)) i = 0 ∧ m.pw (n.x (n.p (nx j))) (n.y (n.p (nx j))) i = 0 ∧
      m.pw (n.x (n.p (pv j))) (n.y (n.p (pv j))) i = 0 := by
  obtain ⟨a, b, c, fm⟩ := pw_form hm.inv hi
  obtain ⟨a', b', c', fn⟩ := pw_form hn.inv hj
  obtain ⟨l0, l1, l2, -, -, -, hs, sx, sy, pl⟩ := shares hm.inv hi ⟨o.1.le, o.2.1.le, o.2.2.le⟩
  obtain ⟨k0, k1, k2, -, -, -, ht, tx, ty, pk⟩ := shares hn.inv hj ⟨o'.1.le, o'.2.1.le, o'.2.2.le⟩
  obtain ⟨h0, h1, h2⟩ := pl o
  obtain ⟨j0, j1, j2⟩ := pk o'
  exact mean h0 h1 h2 hs sx sy j0 j1 j2 ht tx ty fm fn (pw_p m i) (pw_pnx m i) (pw_ppv m i)
    (hm.seen hn s' w hi hj o o') (hm.seen hn s' w hi hj.nx o (InOpen.nx hj o')) (hm.seen hn s' w hi hj.pv o (InOpen.pv hj o'))
    (pw_p n j) (pw_pnx n j) (pw_ppv n j)
    (hn.seen hm s w.symm hj hi o' o) (hn.seen hm s w.symm hj hi.nx o' (InOpen.nx hi o)) (hn.seen hm s w.symm hj hi.pv o' (InOpen.pv hi o))

theorem corner_shut (h : Inv m) {i} (hi : IsE m.size i) : m.InShut (m.x (m.p i)) (m.y (m.p i)) i := by
  have cw : ((m.cr (m.p i) (m.p (nx i)) (m.p (pv i)) : ℤ) : ℚ) < 0 := by exact_mod_cast h.cw i hi
  refine ⟨le_of_eq ?_, ?_, le_of_eq ?_⟩
  · unfold Mesh.crQ; ring
  · have e : m.crQ (m.x (m.p i)) (m.y (m.p i)) (m.p (nx i)) (m.p (pv i)) = (m.cr (m.p i) (m.p (nx i)) (m.p (pv i)) : ℤ) := by
      unfold Mesh.crQ Mesh.cr; push_cast; ring
    rw [e]; exact cw.le
  · unfold Mesh.crQ; ring

theorem shut_nx {i} {x y : ℚ} (hi : IsE m.size i) (o : m.InShut x y i) : m.InShut x y (nx i) := by
  unfold Mesh.InShut at *; rw [hi.nx_nx, hi.pv_nx]; exact ⟨o.2.1, o.2.2, o.1⟩

/-- a face that contains a point of an edge and has a corner on this side of it overlaps the face of the edge -/
theorem cross_in (hn : Inv n) {i j} (hj : IsE n.size j) {x y : ℚ} (o : m.OnOpen x y i) (o' : n.InShut x y j)
    (neg : m.crQ (n.x (n.p j)) (n.y (n.p j)) (m.p (nx i)) (m.p (pv i)) < 0) : ∃ x y, m.InOpen x y i ∧ n.InOpen x y j := by
  have c := centre_open hn hj
  generalize (((n.x (n.p j) + n.x (n.p (nx j)) + n.x (n.p (pv j)) : ℚ)) / 3) = cx at c
  generalize (((n.y (n.p j) + n.y (n.p (nx j)) + n.y (n.p (pv j)) : ℚ)) / 3) = cy at c
  obtain ⟨zx, zy, z, hz⟩ : ∃ zx zy, n.InOpen zx zy j ∧ m.crQ zx zy (m.p (nx i)) (m.p (pv i)) < 0 := by
    by_cases hA : m.crQ cx cy (m.p (nx i)) (m.p (pv i)) < 0
    · exact ⟨cx, cy, c, hA⟩
    have hA := not_lt.1 hA
    generalize eB : m.crQ (n.x (n.p j)) (n.y (n.p j)) (m.p (nx i)) (m.p (pv i)) = B at neg
    generalize eA : m.crQ cx cy (m.p (nx i)) (m.p (pv i)) = A at hA
    have d : 0 < A - B := by linarith
    refine ⟨_, _, InOpen.mix c (corner_shut hn hj) (t := (A - B / 2) / (A - B)) (div_nonneg (by linarith) d.le) ((div_lt_one d).2 (by linarith)), ?_⟩
    rw [crQ_mix, eA, eB]
    have : A + (A - B / 2) / (A - B) * (B - A) = B / 2 := by
      have := d.ne'
      field_simp
      ring
    rw [this]
    linarith
  obtain ⟨d, hd, near⟩ := o.near hz
  have t0 : 0 < min (d / 2) (1 / 2) := lt_min (by linarith) (by norm_num)
  have t1 : min (d / 2) (1 / 2) < d := lt_of_le_of_lt (min_le_left _ _) (by linarith)
  have t2 : min (d / 2) (1 / 2) < 1 := lt_of_le_of_lt (min_le_right _ _) (by norm_num)
  refine ⟨_, _, near _ t0 t1, ?_⟩
  have := InOpen.mix z o' (t := 1 - min (d / 2) (1 / 2)) (by linarith) (by linarith)
  have ex : ∀ z z' t : ℚ, z' + (1 - t) * (z - z') = z + t * (z' - z) := fun z z' t => by ring
  rw [ex, ex] at this
  exact this

theorem Cl.inj (h : Cl m) {v w} (hv : v < m.size) (hw : w < m.size) (e : m.pos v = m.pos w) : v = w := by
  unfold Mesh.pos at e; rw [Prod.mk.injEq] at e; exact h.once v w hv hw e.1 e.2

/-- the edge is one of the other mesh, in one direction or the other -/
def EdgeIn (m : Mesh) (i : Nat) (n : Mesh) : Prop := ∃ j, IsE n.size j ∧ ((n.pos (n.p (nx j)) = m.pos (m.p (nx i)) ∧ n.pos (n.p (pv j)) = m.pos (m.p (pv i))) ∨
  (n.pos (n.p (nx j)) = m.pos (m.p (pv i)) ∧ n.pos (n.p (pv j)) = m.pos (m.p (nx i))))

/-- a face that contains the middle of an edge, is on one side of it and has its corners on the circle: it has the edge -/
theorem edge_half (hm : Cl m) (hn : Cl n) {i j} (hi : IsE m.size i) (hj : IsE n.size j)
    (o : n.InShut ((m.x (m.p (nx i)) + m.x (m.p (pv i))) / 2) ((m.y (m.p (nx i)) + m.y (m.p (pv i))) / 2) j)
    (n0 : m.crQ (n.x (n.p j)) (n.y (n.p j)) (m.p (nx i)) (m.p (pv i)) ≤ 0)
    (n1 : m.crQ (n.x (n.p (nx j))) (n.y (n.p (nx j))) (m.p (nx i)) (m.p (pv i)) ≤ 0)
    (n2 : m.crQ (n.x (n.p (pv j))) (n.y (n.p (pv j))) (m.p (nx i)) (m.p (pv i)) ≤ 0)
    (z : m.pw (n.x (n.p j)) (n.y (n.p j)) i = 0 ∧ m.pw (n.x (n.p (nx j))) (n.y (n.p (nx j))) i = 0 ∧
      m.pw (n.x (n.p (pv j))) (n.y (n.p (pv j))) i = 0) : EdgeIn m i n := by
  have lu := hm.inv.pl _ hi.nx
  have lv := hm.inv.pl _ hi.pv
  have uv : m.p (nx i) ≠ m.p (pv i) := hm.inv.ne3 hi
  obtain ⟨l0, l1, l2, h0, h1, h2, hs, sx, sy, -⟩ := shares hn.inv hj o
  have e : l0 * m.crQ (n.x (n.p j)) (n.y (n.p j)) (m.p (nx i)) (m.p (pv i)) + l1 * m.crQ (n.x (n.p (nx j))) (n.y (n.p (nx j))) (m.p (nx i)) (m.p (pv i)) +
      l2 * m.crQ (n.x (n.p (pv j))) (n.y (n.p (pv j))) (m.p (nx i)) (m.p (pv i)) = 0 := by
    unfold Mesh.crQ
    linear_combination (m.x (m.p (nx i)) * m.y (m.p (pv i)) - m.y (m.p (nx i)) * m.x (m.p (pv i)) : ℚ) * hs -
      (m.y (m.p (pv i)) - m.y (m.p (nx i)) : ℚ) * sx - (m.x (m.p (nx i)) - m.x (m.p (pv i)) : ℚ) * sy
  have a0 := mul_nonneg h0 (neg_nonneg.2 n0)
  have a1 := mul_nonneg h1 (neg_nonneg.2 n1)
  have a2 := mul_nonneg h2 (neg_nonneg.2 n2)
  have corner : ∀ {l : ℚ} {w : Nat}, l * m.crQ (n.x w) (n.y w) (m.p (nx i)) (m.p (pv i)) = 0 → m.pw (n.x w) (n.y w) i = 0 →
      l = 0 ∨ n.pos w = m.pos (m.p (nx i)) ∨ n.pos w = m.pos (m.p (pv i)) := by
    intro l w a b
    by_cases hl : l = 0
    · exact Or.inl hl
    rcases on_line hm.inv hi b ((mul_eq_zero.1 a).resolve_left hl) with ⟨p, q⟩ | ⟨p, q⟩
    · exact Or.inr (Or.inl (by unfold Mesh.pos; exact Prod.ext (by exact_mod_cast p) (by exact_mod_cast q)))
    · exact Or.inr (Or.inr (by unfold Mesh.pos; exact Prod.ext (by exact_mod_cast p) (by exact_mod_cast q)))
  have k0 := corner (l := l0) (by linarith) z.1
  have k1 := corner (l := l1) (by linarith) z.2.1
  have k2 := corner (l := l2) (by linarith) z.2.2
  have ne : m.pos (m.p (nx i)) ≠ m.pos (m.p (pv i)) := fun e => uv (hm.inj lu lv e)
  -- if one end is no corner the middle would be the other end
  have only : ∀ {u v : ℤ × ℤ}, (u.1 : ℚ) + v.1 = m.x (m.p (nx i)) + m.x (m.p (pv i)) → (u.2 : ℚ) + v.2 = m.y (m.p (nx i)) + m.y (m.p (pv i)) → u ≠ v →
      (l0 = 0 ∨ n.pos (n.p j) = u) → (l1 = 0 ∨ n.pos (n.p (nx j)) = u) → (l2 = 0 ∨ n.pos (n.p (pv j)) = u) → False := by
    intro u v ex ey huv c0 c1 c2
    have w : ∀ {l : ℚ} {w : Nat}, (l = 0 ∨ n.pos w = u) → l * n.x w = l * u.1 ∧ l * n.y w = l * u.2 := by
      rintro l w (rfl | e)
      · simp
      · rw [← e]; exact ⟨rfl, rfl⟩
    rw [(w c0).1, (w c1).1, (w c2).1, ← ex] at sx
    rw [(w c0).2, (w c1).2, (w c2).2, ← ey] at sy
    have x : (u.1 : ℚ) = v.1 := by linear_combination 2 * sx - 2 * (u.1 : ℚ) * hs
    have y : (u.2 : ℚ) = v.2 := by linear_combination 2 * sy - 2 * (u.2 : ℚ) * hs
    exact huv (Prod.ext (by exact_mod_cast x) (by exact_mod_cast y))
  by_cases hu : n.pos (n.p j) = m.pos (m.p (nx i)) ∨ n.pos (n.p (nx j)) = m.pos (m.p (nx i)) ∨ n.pos (n.p (pv j)) = m.pos (m.p (nx i))
  · by_cases hv : n.pos (n.p j) = m.pos (m.p (pv i)) ∨ n.pos (n.p (nx j)) = m.pos (m.p (pv i)) ∨ n.pos (n.p (pv j)) = m.pos (m.p (pv i))
    · rcases hu with u | u | u <;> rcases hv with v | v | v
      · exact absurd (u.symm.trans v) ne
      · exact ⟨pv j, hj.pv, Or.inl ⟨by rw [hj.nx_pv]; exact u, by rw [hj.pv_pv]; exact v⟩⟩
      · exact ⟨nx j, hj.nx, Or.inr ⟨by rw [hj.nx_nx]; exact v, by rw [hj.pv_nx]; exact u⟩⟩
      · exact ⟨pv j, hj.pv, Or.inr ⟨by rw [hj.nx_pv]; exact v, by rw [hj.pv_pv]; exact u⟩⟩
      · exact absurd (u.symm.trans v) ne
      · exact ⟨j, hj, Or.inl ⟨u, v⟩⟩
      · exact ⟨nx j, hj.nx, Or.inl ⟨by rw [hj.nx_nx]; exact u, by rw [hj.pv_nx]; exact v⟩⟩
      · exact ⟨j, hj, Or.inr ⟨v, u⟩⟩
      · exact absurd (u.symm.trans v) ne
    · push Not at hv
      exact (only (u := m.pos (m.p (nx i))) (v := m.pos (m.p (pv i))) rfl rfl ne (k0.imp_right fun k => k.resolve_right hv.1) (k1.imp_right fun k => k.resolve_right hv.2.1)
        (k2.imp_right fun k => k.resolve_right hv.2.2)).elim
  · push Not at hu
    exact (only (u := m.pos (m.p (pv i))) (v := m.pos (m.p (nx i))) (add_comm _ _) (add_comm _ _) ne.symm (k0.imp_right fun k => k.resolve_left hu.1)
      (k1.imp_right fun k => k.resolve_left hu.2.1) (k2.imp_right fun k => k.resolve_left hu.2.2)).elim


/-- an edge that is strictly Delaunay is one of the other mesh -/
theorem edge_in (hm : Cl m) (hn : Cl n) (s : Sub m n) (s' : Sub n m) (w : Walls m n) {i} (hi : IsE m.size i) (he : m.e i ≠ 0) (hd : m.det i ≠ 0) :
    EdgeIn m i n := by
  have P := hm.inv.pair hi he
  obtain ⟨rux, ruy⟩ := hm.inv.rng _ (hm.inv.pl _ hi.nx)
  obtain ⟨rvx, rvy⟩ := hm.inv.rng _ (hm.inv.pl _ hi.pv)
  unfold Is16 at rux ruy rvx rvy
  have half : ∀ {s t : ℤ}, (-32768 ≤ s ∧ s ≤ 32767) → (-32768 ≤ t ∧ t ≤ 32767) → (-32768 : ℚ) ≤ (s + t) / 2 ∧ ((s : ℚ) + t) / 2 ≤ 32767 := by
    intro s t hs ht
    have a1 : (-32768 : ℚ) ≤ s := by exact_mod_cast hs.1
    have a2 : (s : ℚ) ≤ 32767 := by exact_mod_cast hs.2
    have a3 : (-32768 : ℚ) ≤ t := by exact_mod_cast ht.1
    have a4 : (t : ℚ) ≤ 32767 := by exact_mod_cast ht.2
    constructor <;> linarith
  obtain ⟨j, hj, o⟩ := covered hn.inv hn.rim (half rux rvx) (half ruy rvy)
  have on := mid_on hm.inv hi
  have on' := mid_on hm.inv P.ib
  rw [P.n1, P.n2, add_comm, add_comm (m.y (m.p (pv i)) : ℚ)] at on'
  -- a corner on one side makes the face overlap the face on that side
  have side : ∀ {i'}, IsE m.size i' → m.OnOpen ((m.x (m.p (nx i)) + m.x (m.p (pv i))) / 2) ((m.y (m.p (nx i)) + m.y (m.p (pv i))) / 2) i' →
      (m.crQ (n.x (n.p j)) (n.y (n.p j)) (m.p (nx i')) (m.p (pv i')) < 0 ∨ m.crQ (n.x (n.p (nx j))) (n.y (n.p (nx j))) (m.p (nx i')) (m.p (pv i')) < 0 ∨
        m.crQ (n.x (n.p (pv j))) (n.y (n.p (pv j))) (m.p (nx i')) (m.p (pv i')) < 0) →
      m.pw (n.x (n.p j)) (n.y (n.p j)) i' = 0 ∧ m.pw (n.x (n.p (nx j))) (n.y (n.p (nx j))) i' = 0 ∧ m.pw (n.x (n.p (pv j))) (n.y (n.p (pv j))) i' = 0 := by
    intro i' hi' on h
    rcases h with h | h | h
    · obtain ⟨x, y, a, b⟩ := cross_in hn.inv hj on o h
      exact overlap hm hn s s' w hi' hj a b
    · obtain ⟨x, y, a, b⟩ := cross_in hn.inv hj.nx on (shut_nx hj o) h
      have := overlap hm hn s s' w hi' hj.nx a b
      rw [hj.nx_nx, hj.pv_nx] at this
      exact ⟨this.2.2, this.1, this.2.1⟩
    · have o2 := shut_nx hj.nx (shut_nx hj o)
      rw [hj.nx_nx] at o2
      obtain ⟨x, y, a, b⟩ := cross_in hn.inv hj.pv on o2 h
      have := overlap hm hn s s' w hi' hj.pv a b
      rw [hj.nx_pv, hj.pv_pv] at this
      exact ⟨this.2.1, this.2.2, this.1⟩
  have opp : ∀ x y : ℚ, m.crQ x y (m.p (nx (m.e i))) (m.p (pv (m.e i))) = -m.crQ x y (m.p (nx i)) (m.p (pv i)) := fun x y => by
    rw [P.n1, P.n2, crQ_swap]
  by_cases A : m.crQ (n.x (n.p j)) (n.y (n.p j)) (m.p (nx i)) (m.p (pv i)) < 0 ∨ m.crQ (n.x (n.p (nx j))) (n.y (n.p (nx j))) (m.p (nx i)) (m.p (pv i)) < 0 ∨
      m.crQ (n.x (n.p (pv j))) (n.y (n.p (pv j))) (m.p (nx i)) (m.p (pv i)) < 0
  · have z := side hi on A
    by_cases B : m.crQ (n.x (n.p j)) (n.y (n.p j)) (m.p (nx (m.e i))) (m.p (pv (m.e i))) < 0 ∨
        m.crQ (n.x (n.p (nx j))) (n.y (n.p (nx j))) (m.p (nx (m.e i))) (m.p (pv (m.e i))) < 0 ∨
        m.crQ (n.x (n.p (pv j))) (n.y (n.p (pv j))) (m.p (nx (m.e i))) (m.p (pv (m.e i))) < 0
    · have z' := side P.ib on' B
      have b0 := on_both hm.inv hi he hd z.1 z'.1
      have b1 := on_both hm.inv hi he hd z.2.1 z'.2.1
      have b2 := on_both hm.inv hi he hd z.2.2 z'.2.2
      rw [b0, b1, b2] at A
      rcases A with A | A | A <;> exact absurd A (lt_irrefl _)
    · push Not at B
      rw [opp, opp, opp] at B
      exact edge_half hm hn hi hj o (by linarith [B.1]) (by linarith [B.2.1]) (by linarith [B.2.2]) z
  · push Not at A
    have B : m.crQ (n.x (n.p j)) (n.y (n.p j)) (m.p (nx (m.e i))) (m.p (pv (m.e i))) < 0 ∨
        m.crQ (n.x (n.p (nx j))) (n.y (n.p (nx j))) (m.p (nx (m.e i))) (m.p (pv (m.e i))) < 0 ∨
        m.crQ (n.x (n.p (pv j))) (n.y (n.p (pv j))) (m.p (nx (m.e i))) (m.p (pv (m.e i))) < 0 := by
      by_contra B
      push Not at B
      rw [opp, opp, opp] at B
      -- the three corners would be on a line
      have z0 : m.crQ (n.x (n.p j)) (n.y (n.p j)) (m.p (nx i)) (m.p (pv i)) = 0 := by linarith [A.1, B.1]
      have z1 : m.crQ (n.x (n.p (nx j))) (n.y (n.p (nx j))) (m.p (nx i)) (m.p (pv i)) = 0 := by linarith [A.2.1, B.2.1]
      have z2 : m.crQ (n.x (n.p (pv j))) (n.y (n.p (pv j))) (m.p (nx i)) (m.p (pv i)) = 0 := by linarith [A.2.2, B.2.2]
      have c : ((n.cr (n.p j) (n.p (nx j)) (n.p (pv j)) : ℤ) : ℚ) < 0 := by exact_mod_cast hn.inv.cw j hj
      have q : ∀ x y : ℚ, x * x + y * y = 0 → x = 0 ∧ y = 0 := fun x y e => by constructor <;> nlinarith [mul_self_nonneg x, mul_self_nonneg y]
      have dx : ((m.x (m.p (nx i)) : ℚ) - m.x (m.p (pv i))) * (n.cr (n.p j) (n.p (nx j)) (n.p (pv j)) : ℤ) = 0 := by
        unfold Mesh.crQ at z0 z1 z2
        unfold Mesh.cr
        push_cast
        linear_combination (n.x (n.p (nx j)) - n.x (n.p (pv j)) : ℚ) * z0 + (n.x (n.p (pv j)) - n.x (n.p j) : ℚ) * z1 + (n.x (n.p j) - n.x (n.p (nx j)) : ℚ) * z2
      have dy : ((m.y (m.p (nx i)) : ℚ) - m.y (m.p (pv i))) * (n.cr (n.p j) (n.p (nx j)) (n.p (pv j)) : ℤ) = 0 := by
        unfold Mesh.crQ at z0 z1 z2
        unfold Mesh.cr
        push_cast
        linear_combination (n.y (n.p (nx j)) - n.y (n.p (pv j)) : ℚ) * z0 + (n.y (n.p (pv j)) - n.y (n.p j) : ℚ) * z1 + (n.y (n.p j) - n.y (n.p (nx j)) : ℚ) * z2
      have ex := (mul_eq_zero.1 dx).resolve_right c.ne
      have ey := (mul_eq_zero.1 dy).resolve_right c.ne
      exact hm.inv.ne3 hi (hm.once _ _ (hm.inv.pl _ hi.nx) (hm.inv.pl _ hi.pv) (by exact_mod_cast sub_eq_zero.1 ex) (by exact_mod_cast sub_eq_zero.1 ey))
    have z := side P.ib on' B
    have o' := o
    rw [add_comm, add_comm (m.y (m.p (nx i)) : ℚ)] at o'
    obtain ⟨k, hk, e⟩ := edge_half hm hn P.ib hj (by rw [P.n1, P.n2]; exact o') (by rw [opp]; linarith [A.1]) (by rw [opp]; linarith [A.2.1])
      (by rw [opp]; linarith [A.2.2]) z
    rw [P.n1, P.n2] at e
    exact ⟨k, hk, e.symm⟩

/-- the corners of the square are at the same places -/
theorem corner_place (R : Rim m) (R' : Rim n) {v} (h : v < 4) : n.pos v = m.pos v := by
  unfold Mesh.pos
  have : v = 0 ∨ v = 1 ∨ v = 2 ∨ v = 3 := by omega
  rcases this with rfl | rfl | rfl | rfl
  · rw [R.xy0.1, R.xy0.2, R'.xy0.1, R'.xy0.2]
  · rw [R.xy1.1, R.xy1.2, R'.xy1.1, R'.xy1.2]
  · rw [R.xy2.1, R.xy2.2, R'.xy2.1, R'.xy2.2]
  · rw [R.xy3.1, R.xy3.2, R'.xy3.1, R'.xy3.2]

theorem sides_lt {s : Nat × Nat} (h : s ∈ sides) : s.1 < 4 ∧ s.2 < 4 := by
  unfold sides at h
  simp only [List.mem_cons, List.not_mem_nil, or_false] at h
  rcases h with rfl | rfl | rfl | rfl <;> decide

/-- a side of the square in one mesh is one in the other -/
theorem side_in (hm : Cl m) (hn : Cl n) {j} (hj : Bnd n j) {u v : Nat} (hu : u < m.size) (hv : v < m.size) (eu : n.pos (n.p (nx j)) = m.pos u)
    (ev : n.pos (n.p (pv j)) = m.pos v) : ∃ k, Bnd m k ∧ m.ends k = (u, v) := by
  have hs := hn.rim.mem j hj
  obtain ⟨k, bk, ek, -⟩ := hm.rim.one _ hs
  obtain ⟨l1, l2⟩ := sides_lt hs
  have h4 := hm.inv.sz
  have c1 : n.p (nx j) = u := hm.inj (by unfold Mesh.ends at l1; simp only at l1; omega) hu (by rw [← eu]; exact (corner_place hm.rim hn.rim l1).symm)
  have c2 : n.p (pv j) = v := hm.inj (by unfold Mesh.ends at l2; simp only at l2; omega) hv (by rw [← ev]; exact (corner_place hm.rim hn.rim l2).symm)
  exact ⟨k, bk, by rw [ek]; unfold Mesh.ends; rw [c1, c2]⟩

/-- the same edge in two meshes -/
structure Like (m : Mesh) (i : Nat) (n : Mesh) (j : Nat) : Prop where
  u : n.pos (n.p (nx j)) = m.pos (m.p (nx i))
  v : n.pos (n.p (pv j)) = m.pos (m.p (pv i))

theorem Like.symm {i j} (l : Like m i n j) : Like n j m i := ⟨l.u.symm, l.v.symm⟩

/-- an edge inside is inside in the other mesh -/
theorem Like.inner (hm : Cl m) (hn : Cl n) {i j} (hi : IsE m.size i) (hj : IsE n.size j) (l : Like m i n j) (he : m.e i ≠ 0) : n.e j ≠ 0 := by
  intro h0
  obtain ⟨k, bk, ek⟩ := side_in hm hn ⟨hj, h0⟩ (hm.inv.pl _ hi.nx) (hm.inv.pl _ hi.pv) l.u l.v
  have := ends_inj hm.inv hm.rim bk.1 hi ek
  rw [this] at bk
  exact he bk.2

theorem Like.twin (hm : Cl m) (hn : Cl n) {i j} (hi : IsE m.size i) (hj : IsE n.size j) (l : Like m i n j) (he : m.e i ≠ 0) : Like m (m.e i) n (n.e j) := by
  have P := hm.inv.pair hi he
  have Q := hn.inv.pair hj (l.inner hm hn hi hj he)
  exact ⟨by rw [P.n1, Q.n1]; exact l.v, by rw [P.n2, Q.n2]; exact l.u⟩

/-- the angles opposite the same edge are the same -/
theorem Like.cot (hm : Cl m) (hn : Cl n) (s : Sub m n) (s' : Sub n m) (w : Walls m n) {i j} (hi : IsE m.size i) (hj : IsE n.size j) (l : Like m i n j) :
    m.cot i = n.cot j := by
  have c := hm.inv.cw i hi
  have c' := hn.inv.cw j hj
  have eu := l.u
  have ev := l.v
  unfold Mesh.pos at eu ev
  rw [Prod.mk.injEq] at eu ev
  have on := mid_on hm.inv hi
  have on' := mid_on hn.inv hj
  rw [eu.1, eu.2, ev.1, ev.2] at on'
  have q : m.crQ (m.x (m.p i)) (m.y (m.p i)) (m.p (nx i)) (m.p (pv i)) < 0 := by
    have e : m.crQ (m.x (m.p i)) (m.y (m.p i)) (m.p (nx i)) (m.p (pv i)) = (m.cr (m.p i) (m.p (nx i)) (m.p (pv i)) : ℤ) := by
      unfold Mesh.crQ Mesh.cr; push_cast; ring
    rw [e]; exact_mod_cast c
  have q' : n.crQ (m.x (m.p i)) (m.y (m.p i)) (n.p (nx j)) (n.p (pv j)) < 0 := by
    unfold Mesh.crQ at q ⊢
    rw [eu.1, eu.2, ev.1, ev.2]
    exact q
  obtain ⟨d, hd, near⟩ := on.near q
  obtain ⟨d', hd', near'⟩ := on'.near q'
  have t0 : 0 < min d d' / 2 := half_pos (lt_min hd hd')
  have t1 : min d d' / 2 < d := lt_of_lt_of_le (half_lt_self (lt_min hd hd')) (min_le_left _ _)
  have t2 : min d d' / 2 < d' := lt_of_lt_of_le (half_lt_self (lt_min hd hd')) (min_le_right _ _)
  have z := (overlap hm hn s s' w hi hj (near _ t0 t1) (near' _ t0 t2)).1
  have dz : ((m.cr (m.p i) (m.p (nx i)) (m.p (pv i)) : ℤ) : ℚ) ≠ 0 := by exact_mod_cast c.ne
  unfold Mesh.pw at z
  rw [div_eq_zero_iff, neg_eq_zero] at z
  have z := z.resolve_right dz
  have r : (((m.x (m.p (nx i)) - m.x (m.p i)) * (m.x (m.p (pv i)) - m.x (m.p i)) + (m.y (m.p (nx i)) - m.y (m.p i)) * (m.y (m.p (pv i)) - m.y (m.p i)) : ℤ)) *
      n.cr (n.p j) (n.p (nx j)) (n.p (pv j)) =
      (((n.x (n.p (nx j)) - n.x (n.p j)) * (n.x (n.p (pv j)) - n.x (n.p j)) + (n.y (n.p (nx j)) - n.y (n.p j)) * (n.y (n.p (pv j)) - n.y (n.p j)) : ℤ)) *
      m.cr (m.p i) (m.p (nx i)) (m.p (pv i)) := by
    unfold Mesh.cr
    rw [eu.1, eu.2, ev.1, ev.2]
    unfold Mesh.dtQ Mesh.crQ at z
    have : (((((m.x (m.p (nx i)) - m.x (m.p i)) * (m.x (m.p (pv i)) - m.x (m.p i)) + (m.y (m.p (nx i)) - m.y (m.p i)) * (m.y (m.p (pv i)) - m.y (m.p i)) : ℤ)) *
      ((m.x (m.p (nx i)) - n.x (n.p j)) * (m.y (m.p (pv i)) - n.y (n.p j)) - (m.y (m.p (nx i)) - n.y (n.p j)) * (m.x (m.p (pv i)) - n.x (n.p j))) : ℤ) : ℚ) =
      (((((m.x (m.p (nx i)) - n.x (n.p j)) * (m.x (m.p (pv i)) - n.x (n.p j)) + (m.y (m.p (nx i)) - n.y (n.p j)) * (m.y (m.p (pv i)) - n.y (n.p j)) : ℤ)) *
      ((m.x (m.p (nx i)) - m.x (m.p i)) * (m.y (m.p (pv i)) - m.y (m.p i)) - (m.y (m.p (nx i)) - m.y (m.p i)) * (m.x (m.p (pv i)) - m.x (m.p i))) : ℤ) : ℚ) := by
      push_cast
      linear_combination z
    exact_mod_cast this
  unfold Mesh.cot
  have d : ((m.cr (m.p i) (m.p (nx i)) (m.p (pv i)) : ℤ) : ℝ) ≠ 0 := by exact_mod_cast c.ne
  have d' : ((n.cr (n.p j) (n.p (nx j)) (n.p (pv j)) : ℤ) : ℝ) ≠ 0 := by exact_mod_cast c'.ne
  rw [div_eq_div_iff (neg_ne_zero.2 d) (neg_ne_zero.2 d'), mul_neg, mul_neg, neg_inj]
  exact_mod_cast r

/-- the angles on both sides of an edge -/
theorem cot_twin (h : Inv m) {i} (hi : IsE m.size i) (he : m.e i ≠ 0) : ∃ k : ℝ, k ≠ 0 ∧ m.cot i + m.cot (m.e i) = (m.det i : ℤ) * k := by
  have P := h.pair hi he
  have c : ((m.cr (m.p i) (m.p (nx i)) (m.p (pv i)) : ℤ) : ℝ) ≠ 0 := by exact_mod_cast (h.cw i hi).ne
  have c' : ((m.cr (m.p (m.e i)) (m.p (pv i)) (m.p (nx i)) : ℤ) : ℝ) ≠ 0 := by
    have := (h.cw _ P.ib).ne; rw [P.n1, P.n2] at this; exact_mod_cast this
  refine ⟨1 / (((m.cr (m.p i) (m.p (nx i)) (m.p (pv i)) : ℤ) : ℝ) * ((m.cr (m.p (m.e i)) (m.p (pv i)) (m.p (nx i)) : ℤ) : ℝ)), one_div_ne_zero (mul_ne_zero c c'), ?_⟩
  unfold Mesh.cot Mesh.det
  rw [P.n1, P.n2]
  have r : ((m.dt (m.p i) (m.p (nx i)) (m.p (pv i)) (m.p (m.e i)) : ℤ) : ℝ) =
    -((((m.x (m.p (nx i)) - m.x (m.p i)) * (m.x (m.p (pv i)) - m.x (m.p i)) + (m.y (m.p (nx i)) - m.y (m.p i)) * (m.y (m.p (pv i)) - m.y (m.p i)) : ℤ) : ℝ) *
      ((m.cr (m.p (m.e i)) (m.p (pv i)) (m.p (nx i)) : ℤ) : ℝ) +
      (((m.x (m.p (pv i)) - m.x (m.p (m.e i))) * (m.x (m.p (nx i)) - m.x (m.p (m.e i))) + (m.y (m.p (pv i)) - m.y (m.p (m.e i))) * (m.y (m.p (nx i)) - m.y (m.p (m.e i))) : ℤ) : ℝ) *
      ((m.cr (m.p i) (m.p (nx i)) (m.p (pv i)) : ℤ) : ℝ)) := by
    unfold Mesh.dt detE Mesh.cr; push_cast; ring
  rw [r]
  field_simp
  ring

/-- the edges that count: the constrained ones and those that are strictly Delaunay -/
def Mesh.Strict (m : Mesh) (i : Nat) : Prop := m.c i ≠ 0 ∨ m.det i ≠ 0

instance (m : Mesh) (i : Nat) : Decidable (m.Strict i) := by unfold Mesh.Strict; infer_instance

theorem EdgeIn.like (hm : Cl m) (hn : Cl n) {i} (hi : IsE m.size i) (h : EdgeIn m i n) : ∃ j, IsE n.size j ∧ Like m i n j := by
  by_cases he : m.e i = 0
  · obtain ⟨l1, l2⟩ := sides_lt (hm.rim.mem i ⟨hi, he⟩)
    have h4 := hn.inv.sz
    unfold Mesh.ends at l1 l2
    simp only at l1 l2
    obtain ⟨k, bk, ek⟩ := side_in hn hm ⟨hi, he⟩ (u := m.p (nx i)) (v := m.p (pv i)) (by omega) (by omega)
      (corner_place hn.rim hm.rim l1) (corner_place hn.rim hm.rim l2)
    unfold Mesh.ends at ek
    rw [Prod.mk.injEq] at ek
    exact ⟨k, bk.1, by rw [ek.1]; exact corner_place hm.rim hn.rim l1, by rw [ek.2]; exact corner_place hm.rim hn.rim l2⟩
  have P := hm.inv.pair hi he
  obtain ⟨j, hj, ⟨a, b⟩ | ⟨a, b⟩⟩ := h
  · exact ⟨j, hj, a, b⟩
  · have l : Like m (m.e i) n j := ⟨by rw [P.n1]; exact a, by rw [P.n2]; exact b⟩
    have he' : m.e (m.e i) ≠ 0 := by rw [P.ba]; exact hi.pos
    have Q := hn.inv.pair hj (l.inner hm hn P.ib hj he')
    have := l.twin hm hn P.ib hj he'
    rw [P.ba] at this
    exact ⟨_, Q.ib, this⟩

theorem Like.only (hm : Cl m) {i i' j} (hi : IsE m.size i) (hi' : IsE m.size i') (l : Like m i n j) (l' : Like m i' n j) : i = i' := by
  refine ends_inj hm.inv hm.rim hi hi' ?_
  unfold Mesh.ends
  rw [hm.inj (hm.inv.pl _ hi.nx) (hm.inv.pl _ hi'.nx) (l.u.symm.trans l'.u), hm.inj (hm.inv.pl _ hi.pv) (hm.inv.pl _ hi'.pv) (l.v.symm.trans l'.v)]

/-- a constrained edge is one in the other mesh -/
theorem wall_in (hm : Cl m) (hn : Cl n) (w : Walls m n) {i} (hi : IsE m.size i) (hc : m.c i ≠ 0) : ∃ j, IsE n.size j ∧ n.c j ≠ 0 ∧ Like m i n j := by
  obtain ⟨a, b, hw, ea, eb⟩ := (w _ _).1 ⟨_, _, wall_iff.2 (Or.inl ⟨i, hi, hc, rfl⟩), rfl, rfl⟩
  have e : EdgeIn m i n ∧ ∃ j, IsE n.size j ∧ n.c j ≠ 0 ∧ ((n.pos (n.p (nx j)) = m.pos (m.p (nx i)) ∧ n.pos (n.p (pv j)) = m.pos (m.p (pv i))) ∨
      (n.pos (n.p (nx j)) = m.pos (m.p (pv i)) ∧ n.pos (n.p (pv j)) = m.pos (m.p (nx i)))) := by
    rcases wall_iff.1 hw with ⟨j, hj, cj, ej⟩ | ⟨j, hj, cj, ej⟩ <;> unfold Mesh.ends at ej <;> rw [Prod.mk.injEq] at ej
    · rw [← ej.1] at ea
      rw [← ej.2] at eb
      exact ⟨⟨j, hj, Or.inl ⟨ea, eb⟩⟩, j, hj, cj, Or.inl ⟨ea, eb⟩⟩
    · rw [← ej.2] at ea
      rw [← ej.1] at eb
      exact ⟨⟨j, hj, Or.inr ⟨eb, ea⟩⟩, j, hj, cj, Or.inr ⟨eb, ea⟩⟩
  obtain ⟨j, hj, l⟩ := e.1.like hm hn hi
  obtain ⟨k, hk, ck, ⟨a, b⟩ | ⟨a, b⟩⟩ := e.2
  · exact ⟨k, hk, ck, a, b⟩
  · refine ⟨j, hj, ?_, l⟩
    have : n.e j = k := by
      refine ends_twin hn.inv hn.rim hj hk ?_
      unfold Mesh.ends
      rw [hn.inj (hn.inv.pl _ hj.nx) (hn.inv.pl _ hk.pv) (l.u.trans b.symm), hn.inj (hn.inv.pl _ hj.pv) (hn.inv.pl _ hk.nx) (l.v.trans a.symm)]
    have Q := hn.inv.pair hj (by rw [this]; exact hk.pos)
    rw [← Q.cc, this]
    exact ck

theorem strict_in (hm : Cl m) (hn : Cl n) (s : Sub m n) (s' : Sub n m) (w : Walls m n) {i} (hi : IsE m.size i) (h : m.Strict i) :
    ∃ j, IsE n.size j ∧ n.Strict j ∧ Like m i n j := by
  by_cases hc : m.c i ≠ 0
  · obtain ⟨j, hj, cj, l⟩ := wall_in hm hn w hi hc
    exact ⟨j, hj, Or.inl cj, l⟩
  have hd := h.resolve_left hc
  have he := hm.inv.free hi (not_not.1 hc)
  have P := hm.inv.pair hi he
  obtain ⟨j, hj, l⟩ := (edge_in hm hn s s' w hi he hd).like hm hn hi
  refine ⟨j, hj, Or.inr fun z => ?_, l⟩
  have he' := l.inner hm hn hi hj he
  have Q := hn.inv.pair hj he'
  obtain ⟨k, hk, e⟩ := cot_twin hm.inv hi he
  obtain ⟨k', -, e'⟩ := cot_twin hn.inv hj he'
  rw [l.cot hm hn s s' w hi hj, (l.twin hm hn hi hj he).cot hm hn s s' w P.ib Q.ib, e', z] at e
  have : ((m.det i : ℤ) : ℝ) ≠ 0 := by exact_mod_cast hd
  simp [this, hk] at e

theorem rough_edges (h : Inv m) : m.rough F = (∑ i ∈ m.es, m.bump F i) / 2 := by
  rw [rough_steep h, es_sum]
  congr 1
  refine Finset.sum_congr rfl fun f hf => ?_
  have B := base (isE_face hf) (by omega)
  unfold Mesh.steep
  rw [B.n0, B.p0]

/-- only the strict edges count -/
theorem rough_strict (h : Inv m) : m.rough F = (∑ i ∈ m.es.filter m.Strict, m.bump F i) / 2 := by
  rw [rough_edges h, ← Finset.sum_filter_add_sum_filter_not m.es m.Strict]
  have : ∑ i ∈ m.es.filter (fun i => ¬ m.Strict i), m.bump F i = 0 := by
    refine Finset.sum_involution (fun i _ => m.e i) ?_ ?_ ?_ ?_
    · intro i hi
      rw [Finset.mem_filter, mem_es] at hi
      obtain ⟨hi, hs⟩ := hi
      unfold Mesh.Strict at hs
      push Not at hs
      have P := h.pair hi (h.free hi hs.1)
      obtain ⟨k, -, e⟩ := cot_twin h hi (h.free hi hs.1)
      rw [hs.2, Int.cast_zero, zero_mul] at e
      unfold Mesh.bump
      rw [P.n1, P.n2]
      linear_combination (m.height F (m.p (nx i)) - m.height F (m.p (pv i))) ^ 2 * e
    · intro i hi _ e
      rw [Finset.mem_filter, mem_es] at hi
      obtain ⟨hi, hs⟩ := hi
      unfold Mesh.Strict at hs
      push Not at hs
      have := h.other hi (h.free hi hs.1)
      rw [e] at this
      exact this rfl
    · intro i hi
      rw [Finset.mem_filter, mem_es] at hi ⊢
      obtain ⟨hi, hs⟩ := hi
      unfold Mesh.Strict at hs ⊢
      push Not at hs ⊢
      have P := h.pair hi (h.free hi hs.1)
      exact ⟨P.ib, by rw [P.cc]; exact hs.1, by rw [det_twin P]; exact hs.2⟩
    · intro i hi
      rw [Finset.mem_filter, mem_es] at hi
      obtain ⟨hi, hs⟩ := hi
      unfold Mesh.Strict at hs
      push Not at hs
      exact (h.pair hi (h.free hi hs.1)).ba
  rw [this, add_zero]

/-- two constrained Delaunay meshes of the same places and constraints are equally rough -/
theorem tie (hm : Cl m) (hn : Cl n) (s : Sub m n) (s' : Sub n m) (w : Walls m n) : m.rough F = n.rough F := by
  rw [rough_strict hm.inv, rough_strict hn.inv]
  congr 1
  have mem : ∀ {m : Mesh} {i}, i ∈ m.es.filter m.Strict ↔ IsE m.size i ∧ m.Strict i := by
    intro m i; rw [Finset.mem_filter, mem_es]
  have ex : ∀ i, ∃ j, i ∈ m.es.filter m.Strict → IsE n.size j ∧ n.Strict j ∧ Like m i n j := fun i => by
    by_cases hi : i ∈ m.es.filter m.Strict
    · obtain ⟨j, h⟩ := strict_in hm hn s s' w (mem.1 hi).1 (mem.1 hi).2; exact ⟨j, fun _ => h⟩
    · exact ⟨0, fun h => absurd h hi⟩
  choose g hg using ex
  refine Finset.sum_bij (fun i _ => g i) ?_ ?_ ?_ ?_
  · intro i hi
    exact mem.2 ⟨(hg i hi).1, (hg i hi).2.1⟩
  · intro i hi i' hi' e
    have l := (hg i hi).2.2
    have l' := (hg i' hi').2.2
    rw [← e] at l'
    exact l.only hm (mem.1 hi).1 (mem.1 hi').1 l'
  · intro j hj
    obtain ⟨i, hi, hs, l⟩ := strict_in hn hm s' s w.symm (mem.1 hj).1 (mem.1 hj).2
    have hi' := mem.2 ⟨hi, hs⟩
    exact ⟨i, hi', (hg i hi').2.2.symm.only hn (hg i hi').1 (mem.1 hj).1 l⟩
  · intro i hi
    obtain ⟨hj, -, l⟩ := hg i hi
    have eu := l.u
    have ev := l.v
    unfold Mesh.pos at eu ev
    rw [Prod.mk.injEq] at eu ev
    unfold Mesh.bump Mesh.height
    rw [l.cot hm hn s s' w (mem.1 hi).1 hj, eu.1, eu.2, ev.1, ev.2]

end CE.Cdt
