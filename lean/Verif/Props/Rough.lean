import Verif.Spec.Rough
import Verif.Proof.Tie
import Verif.Props.Delaunay
import Verif.Props.Best
/-! C130: of all triangulations with vertices at the same places the one of points has the least rough surface, whatever the heights;
with constraints, of all that have the constrained edges. -/
namespace CE.Cdt

variable {m m' : Mesh} {F : Int → Int → ℝ} {limit : Nat} {W : Int × Int → Int × Int → Prop}

/-! ### a mesh that is a triangulation, with other constraints -/

/-- the edge is a side of the square or is between places that `W` tells -/
def Mesh.Kept (m : Mesh) (W : Int × Int → Int × Int → Prop) (i : Nat) : Prop :=
  m.e i = 0 ∨ W (m.pos (m.p (nx i))) (m.pos (m.p (pv i))) ∨ W (m.pos (m.p (pv i))) (m.pos (m.p (nx i)))

open Classical in
/-- the same faces, no constraints but the outline and those that `W` tells, and the placeholders as `reset` leaves them -/
noncomputable def Mesh.plain (m : Mesh) (W : Int × Int → Int × Int → Prop) : Mesh :=
  { m with
    c := fun i => if i < 24 ∨ m.Kept W i then 1 else 0
    p := fun i => if i < 24 then 0 else m.p i
    e := fun i => if i < 24 then 0 else m.e i }

theorem plain_p {i} (h : IsE m.size i) : (m.plain W).p i = m.p i := by
  unfold Mesh.plain; exact if_neg (by unfold IsE at h; omega)
theorem plain_e {i} (h : IsE m.size i) : (m.plain W).e i = m.e i := by
  unfold Mesh.plain; exact if_neg (by unfold IsE at h; omega)
theorem plain_c1 {i} (k : m.Kept W i) : (m.plain W).c i = 1 := by
  unfold Mesh.plain; exact if_pos (Or.inr k)
theorem plain_c0 {i} (h : IsE m.size i) (k : ¬ m.Kept W i) : (m.plain W).c i = 0 := by
  unfold Mesh.plain; exact if_neg fun e => k (e.resolve_left (by unfold IsE at h; omega))
theorem plain_c {i} (h : IsE m.size i) : (m.plain W).c i ≠ 0 ↔ m.Kept W i := by
  by_cases k : m.Kept W i
  · rw [plain_c1 k]; simp [k]
  · rw [plain_c0 h k]; simp [k]

theorem Sheet.pair (S : Sheet m) {i} (hi : IsE m.size i) (he : m.e i ≠ 0) : IsE m.size (m.e i) ∧ m.e (m.e i) = i ∧
    m.p (nx (m.e i)) = m.p (pv i) ∧ m.p (pv (m.e i)) = m.p (nx i) := by
  obtain ⟨f, j, u, hj, rfl⟩ : ∃ f j, Used m f ∧ j < 3 ∧ i = 4 * f + j :=
    ⟨i / 4, i % 4, by unfold IsE at hi; unfold Used; omega, by unfold IsE at hi; omega, by omega⟩
  rcases S.linked.twin f j u hj with ⟨h0, -⟩ | ⟨g, l, ug, hl, e1, e2, -, c1, c2⟩
  · exact absurd h0 he
  rw [corner_nx m g hl, corner_pv m f hj] at c1
  rw [corner_pv m g hl, corner_nx m f hj] at c2
  rw [e1]
  exact ⟨ug.isE hl, e2, c1, c2⟩

theorem Sheet.cw (S : Sheet m) {i} (hi : IsE m.size i) : m.cr (m.p i) (m.p (nx i)) (m.p (pv i)) < 0 := by
  have u : Used m (i / 4) := by unfold IsE at hi; unfold Used; omega
  have c := S.clockwise _ u
  have e : m.area (m.corner (i / 4) 0) (m.corner (i / 4) 1) (m.corner (i / 4) 2) =
    m.cr (m.p (4 * (i / 4))) (m.p (4 * (i / 4) + 1)) (m.p (4 * (i / 4) + 2)) := rfl
  rw [e] at c
  rcases hi.thirds with ⟨e1, e2, e3⟩ | ⟨e1, e2, e3⟩ | ⟨e1, e2, e3⟩
  · rw [e2, e3, e1]; convert c using 3 <;> omega
  · rw [e2, e3, e1, cr_rot']; convert c using 3 <;> omega
  · rw [e2, e3, e1, cr_rot]; convert c using 3 <;> omega

theorem Sheet.inv (S : Sheet m) : Inv (m.plain W) := by
  have sz : (m.plain W).size = m.size := rfl
  refine ⟨S.four, ?_, ?_, ?_, ?_, ?_, ?_, ?_⟩
  · intro v hv; exact S.coords v hv
  · intro i hi _
    unfold Mesh.plain
    simp only [hi, true_or, if_true, and_self]
  · intro i hi
    rw [sz] at hi ⊢
    rw [plain_p hi]
    have := S.linked.vertex (i / 4) (i % 4) (by unfold IsE at hi; unfold Used; omega)
    rw [corner_at m _ (by unfold IsE at hi; omega), show 4 * (i / 4) + i % 4 = i by omega] at this
    exact this
  · intro i hi
    have hi' : IsE m.size i := hi
    unfold Mesh.plain; simp only; split <;> omega
  · intro i hi h0
    have hi' : IsE m.size i := hi
    rw [plain_e hi'] at h0
    unfold Mesh.plain
    exact if_pos (Or.inr (Or.inl h0))
  · intro i hi he
    have hi' : IsE m.size i := hi
    rw [plain_e hi'] at he ⊢
    obtain ⟨t1, t2, t3, t4⟩ := S.pair hi' he
    refine ⟨t1, by rw [plain_e t1, t2], ?_, ?_, ?_⟩
    · have k : m.Kept W (m.e i) ↔ m.Kept W i := by
        unfold Mesh.Kept
        rw [t2, t3, t4]
        simp only [he, hi'.pos, false_or]
        exact Or.comm
      by_cases k' : m.Kept W i
      · rw [plain_c1 k', plain_c1 (k.2 k')]
      · rw [plain_c0 hi' k', plain_c0 t1 fun h => k' (k.1 h)]
    · rw [plain_p t1.nx, plain_p hi'.pv, t3]
    · rw [plain_p t1.pv, plain_p hi'.nx, t4]
  · intro i hi
    have hi' : IsE m.size i := hi
    rw [plain_p hi', plain_p hi'.nx, plain_p hi'.pv]
    exact S.cw hi'

theorem plain_ends {i} (h : IsE m.size i) : (m.plain W).ends i = m.ends i := by
  unfold Mesh.ends; rw [plain_p h.nx, plain_p h.pv]

theorem Sheet.rim (S : Sheet m) : Rim (m.plain W) := by
  have O := S.outline
  have cut : ∀ {i}, IsE m.size i → ∃ f j, Used m f ∧ j < 3 ∧ i = 4 * f + j := fun {i} hi =>
    ⟨i / 4, i % 4, by unfold IsE at hi; unfold Used; omega, by unfold IsE at hi; omega, by omega⟩
  have cor := O.corners
  simp only [Prod.mk.injEq] at cor
  refine ⟨?_, ?_, cor.1, cor.2.1, cor.2.2.1, cor.2.2.2⟩
  · rintro i ⟨hi, h0⟩
    have hi' : IsE m.size i := hi
    rw [plain_e hi'] at h0
    rw [plain_ends hi']
    obtain ⟨f, j, u, hj, rfl⟩ := cut hi'
    have := O.only f j u hj h0
    rw [corner_nx m f hj, corner_pv m f hj] at this
    exact this
  · intro s hs
    obtain ⟨⟨f, j⟩, ⟨u, hj, h0, e⟩, un⟩ := O.once s hs
    simp only at u hj h0 e
    have hi := u.isE hj
    rw [corner_nx m f hj, corner_pv m f hj] at e
    refine ⟨4 * f + j, ⟨hi, by rw [plain_e hi]; exact h0⟩, by rw [plain_ends hi]; exact e, ?_⟩
    rintro k ⟨hk, k0⟩ ek
    have hk' : IsE m.size k := hk
    rw [plain_e hk'] at k0
    rw [plain_ends hk'] at ek
    obtain ⟨g, l, ug, hl, rfl⟩ := cut hk'
    have := un (g, l) ug hl k0 (by simp only; rw [corner_nx m g hl, corner_pv m g hl]; exact ek)
    rw [Prod.mk.injEq] at this
    rw [this.1, this.2]

theorem Sheet.cover (S : Sheet m) : Cover (m.plain W) := by
  intro v hv
  obtain ⟨f, j, u, hj, e⟩ := S.used v hv
  refine ⟨4 * f + j, u.isE hj, ?_⟩
  rw [plain_p (u.isE hj), ← corner_at m f hj, e]

theorem plain_rough : (m.plain W).rough F = m.rough F := by
  unfold Mesh.rough
  refine Finset.sum_congr rfl fun f hf => ?_
  have u : Used m f := Finset.mem_Ico.1 hf
  have c : ∀ j, (m.plain W).corner f j = m.corner f j := fun j => by
    unfold Mesh.corner; exact plain_p (u.isE (Nat.mod_lt _ (by omega)))
  unfold Mesh.slopeX Mesh.slopeY Mesh.size2
  simp only [c]
  rfl

theorem Sheet.but (S : Sheet m) : Legal (m.plain W) ↔ m.DelaunayBut fun p q => W p q ∨ W q p := by
  constructor
  · intro L f j u hj he hw
    have hi := u.isE hj
    rw [circle_dt u hj]
    rw [corner_nx m f hj, corner_pv m f hj] at hw
    have := L (4 * f + j) hi (by
      by_contra hc
      rcases (plain_c hi).1 hc with k | k
      · exact he k
      · exact hw k)
    unfold Mesh.det at this
    rw [plain_e hi, plain_p hi, plain_p hi.nx, plain_p hi.pv, plain_p (S.pair hi he).1] at this
    exact this
  · intro D i hi hc
    have hi' : IsE m.size i := hi
    obtain ⟨f, j, u, hj, rfl⟩ : ∃ f j, Used m f ∧ j < 3 ∧ i = 4 * f + j :=
      ⟨i / 4, i % 4, by unfold IsE at hi'; unfold Used; omega, by unfold IsE at hi'; omega, by omega⟩
    have nk := fun k => (plain_c (W := W) hi').2 k hc
    unfold Mesh.Kept at nk
    have := D f j u hj (fun h => nk (Or.inl h)) (by
      rw [corner_nx m f hj, corner_pv m f hj]
      exact fun h => nk (Or.inr h))
    rw [circle_dt u hj] at this
    unfold Mesh.det
    rw [plain_e hi', plain_p hi', plain_p hi'.nx, plain_p hi'.pv, plain_p (S.pair hi' (fun h => nk (Or.inl h))).1]
    exact this

theorem Sheet.cl (S : Sheet m) (L : Legal (m.plain W)) : Cl (m.plain W) := ⟨S.inv, S.rim, S.cover, S.once, L⟩

theorem Sheet.flips (S : Sheet m) (W : Int × Int → Int × Int → Prop) : ∃ n, Flips (m.plain W) n ∧ Legal n ∧ Cl n ∧
    n.size = m.size ∧ n.x = m.x ∧ n.y = m.y := by
  obtain ⟨n, s, L⟩ := lawson (S.inv (W := W))
  have t := s.steps S.inv
  have z := s.size
  exact ⟨n, s, L, ⟨s.inv S.inv, t.rim S.inv S.rim, t.cover S.inv S.cover, t.distinct S.inv S.rim S.cover S.once, L⟩, z.1, z.2.1, z.2.2.1⟩

theorem Sheet.wallAt (_ : Sheet m) {p q} : (m.plain W).WallAt p q ↔ ∃ i, IsE m.size i ∧ m.Kept W i ∧
    ((m.pos (m.p (nx i)) = p ∧ m.pos (m.p (pv i)) = q) ∨ (m.pos (m.p (nx i)) = q ∧ m.pos (m.p (pv i)) = p)) := by
  constructor
  · rintro ⟨a, b, hw, ea, eb⟩
    rcases wall_iff.1 hw with ⟨i, hi, ci, ei⟩ | ⟨i, hi, ci, ei⟩ <;>
    · have hi' : IsE m.size i := hi
      rw [plain_ends hi'] at ei
      unfold Mesh.ends at ei
      rw [Prod.mk.injEq] at ei
      refine ⟨i, hi', (plain_c hi').1 ci, ?_⟩
      rw [ei.1, ei.2]
      first
        | exact Or.inl ⟨ea, eb⟩
        | exact Or.inr ⟨eb, ea⟩
  · rintro ⟨i, hi, k, e⟩
    have B : Bar (m.plain W) (m.p (nx i)) (m.p (pv i)) := ⟨i, hi, (plain_c hi).2 k, by rw [plain_ends hi]; rfl⟩
    rcases e with ⟨e1, e2⟩ | ⟨e1, e2⟩
    · exact ⟨_, _, wall_iff.2 (Or.inl B), e1, e2⟩
    · exact ⟨_, _, wall_iff.2 (Or.inr B), e2, e1⟩

/-- an edge that is kept is kept in the other -/
theorem Sheet.keeps (S : Sheet m) (S' : Sheet m') (sub : ∀ p q, m.EdgeAt p q → (W p q ∨ W q p) → m'.EdgeAt p q) {p q} (h : (m.plain W).WallAt p q) :
    (m'.plain W).WallAt p q := by
  obtain ⟨i, hi, k, e⟩ := S.wallAt.1 h
  rw [S'.wallAt]
  rcases k with h0 | hw
  · have bi : Bnd (m.plain W) i := ⟨hi, by rw [plain_e hi]; exact h0⟩
    have hs := (S.rim (W := W)).mem i bi
    obtain ⟨k, bk, ek, -⟩ := (S'.rim (W := W)).one _ hs
    have hk : IsE m'.size k := bk.1
    obtain ⟨l1, l2⟩ := sides_lt hs
    rw [plain_ends hi] at ek l1 l2
    rw [plain_ends hk] at ek
    have k0 := bk.2
    rw [plain_e hk] at k0
    unfold Mesh.ends at ek l1 l2
    rw [Prod.mk.injEq] at ek
    simp only at l1 l2
    refine ⟨k, hk, Or.inl k0, ?_⟩
    rw [ek.1, ek.2]
    have c1 : m'.pos (m.p (nx i)) = m.pos (m.p (nx i)) := corner_place (S.rim (W := W)) (S'.rim (W := W)) l1
    have c2 : m'.pos (m.p (pv i)) = m.pos (m.p (pv i)) := corner_place (S.rim (W := W)) (S'.rim (W := W)) l2
    rw [c1, c2]
    exact e
  · have u : Used m (i / 4) := by unfold IsE at hi; unfold Used; omega
    have h3 : i % 4 < 3 := by unfold IsE at hi; omega
    have ei : 4 * (i / 4) + i % 4 = i := by omega
    have w : W p q ∨ W q p := by
      rcases e with ⟨e1, e2⟩ | ⟨e1, e2⟩ <;> rw [e1, e2] at hw
      · exact hw
      · exact hw.symm
    obtain ⟨f, j, u', hj, e'⟩ := sub p q ⟨i / 4, i % 4, u, h3, by rw [corner_nx m _ h3, corner_pv m _ h3, ei]; exact e⟩ w
    rw [corner_nx m' f hj, corner_pv m' f hj] at e'
    refine ⟨4 * f + j, u'.isE hj, Or.inr ?_, e'⟩
    rcases e' with ⟨e1, e2⟩ | ⟨e1, e2⟩ <;> rw [e1, e2]
    · exact w
    · exact w.symm

theorem Sheet.walls (S : Sheet m) (S' : Sheet m') (edge : ∀ p q, (W p q ∨ W q p) → (m.EdgeAt p q ↔ m'.EdgeAt p q)) : Walls (m.plain W) (m'.plain W) :=
  fun _ _ => ⟨S.keeps S' fun p q e w => (edge p q w).1 e, S'.keeps S fun p q e w => (edge p q w).2 e⟩

/-- the flips from a triangulation lead to something as rough as a constrained Delaunay one -/
theorem Sheet.least (S : Sheet m) (S' : Sheet m') (L : Legal (m.plain W)) (same : ∀ px py, m.Vertex px py ↔ m'.Vertex px py)
    (edge : ∀ p q, (W p q ∨ W q p) → (m.EdgeAt p q ↔ m'.EdgeAt p q)) :
    (∀ F, m.rough F ≤ m'.rough F) ∧ ((∀ F, m'.rough F ≤ m.rough F) ↔ Legal (m'.plain W)) := by
  obtain ⟨n, s, Ln, hn, z⟩ := S'.flips W
  have v : ∀ px py, n.Vertex px py ↔ m'.Vertex px py := fun px py => by
    unfold Mesh.Vertex; rw [z.1, z.2.1, z.2.2]
  have e : ∀ F, m.rough F = n.rough F := fun F => by
    rw [← plain_rough (W := W)]
    exact tie (S.cl L) hn (fun px py h => (v px py).2 ((same px py).1 h)) (fun px py h => (same px py).2 ((v px py).1 h))
      ((S.walls S' edge).trans s.walls)
  refine ⟨fun F => ?_, fun b => ?_, fun L' F => ?_⟩
  · rw [e, ← plain_rough (m := m') (W := W)]
    exact s.rough S'.inv
  · by_contra hD
    have lt := s.bowl S'.inv hD Ln
    have := b bowl
    rw [e, ← plain_rough (m := m') (W := W)] at this
    linarith
  · rw [e, ← plain_rough (m := m') (W := W)]
    exact (tie (S'.cl L') hn (fun px py h => (v px py).2 h) (fun px py h => (v px py).1 h) s.walls).le

/-- without constraints -/
theorem Sheet.delaunay_iff (S : Sheet m) : Delaunay m ↔ Legal (m.plain fun _ _ => False) := by
  rw [S.but]
  constructor
  · intro D f j u hj he _
    have := (S.pair (u.isE hj) he).1
    have pl := (S.inv (W := fun _ _ => False)).pl _ this
    rw [plain_p this] at pl
    exact D f _ u pl
  · intro D f v u hv
    have i0 := u.isE (j := 0) (by omega)
    have L := S.but.2 D
    have F : Free (m.plain fun _ _ => False) := by
      intro i hi hc
      have hi' : IsE m.size i := hi
      rw [plain_e hi']
      exact ((plain_c hi').1 hc).resolve_right (by simp)
    have := delaunay (S.inv (W := fun _ _ => False)) S.rim S.cover (F.full L) (i := 4 * f + 0) i0 hv
    rw [plain_p i0, plain_p i0.nx, plain_p i0.pv] at this
    rw [circle_dt u (j := 0) (by omega)]
    exact this

/-! ### C130 -/

/-- C130.  The meshes of every history are triangulations of the square. -/
theorem C130_sheet (h : Reach limit m) : Sheet m :=
  ⟨(reach_inv h).1.sz, C71_linked h, C71_outline h, (C72_clockwise h).1, (C72_clockwise h).2, (C81_tiling h).used, (C81_tiling h).once⟩

/-- C130.  The slopes are those of the plane through the heights at the corners, and there is one. -/
theorem C130_plane (S : Sheet m) {f} (u : Used m f) (p q r : ℝ) :
    m.Plane F f p q r ↔ p = m.slopeX F f ∧ q = m.slopeY F f ∧ r = m.height F (m.corner f 0) - p * m.x (m.corner f 0) - q * m.y (m.corner f 0) := by
  have c := S.clockwise f u
  have d : m.size2 f ≠ 0 := by unfold Mesh.size2; rw [neg_ne_zero]; exact_mod_cast c.ne
  have three : m.Plane F f p q r ↔ (m.height F (m.corner f 0) = p * m.x (m.corner f 0) + q * m.y (m.corner f 0) + r ∧
      m.height F (m.corner f 1) = p * m.x (m.corner f 1) + q * m.y (m.corner f 1) + r ∧
      m.height F (m.corner f 2) = p * m.x (m.corner f 2) + q * m.y (m.corner f 2) + r) := by
    unfold Mesh.Plane
    constructor
    · intro h; exact ⟨h 0 (by omega), h 1 (by omega), h 2 (by omega)⟩
    · rintro ⟨h0, h1, h2⟩ j hj
      have : j = 0 ∨ j = 1 ∨ j = 2 := by omega
      rcases this with rfl | rfl | rfl <;> assumption
  rw [three]
  unfold Mesh.slopeX Mesh.slopeY
  rw [eq_div_iff d, eq_div_iff d]
  unfold Mesh.size2 Mesh.area at d ⊢
  push_cast at d ⊢
  constructor
  · rintro ⟨h0, h1, h2⟩
    rw [h0, h1, h2]
    exact ⟨by ring, by ring, by ring⟩
  · rintro ⟨h0, h1, h2⟩
    refine ⟨by rw [h2]; ring, ?_, ?_⟩
    · apply mul_left_cancel₀ d
      rw [h2]
      linear_combination (-(m.x (m.corner f 1) : ℝ) + m.x (m.corner f 0)) * h0 + (-(m.y (m.corner f 1) : ℝ) + m.y (m.corner f 0)) * h1
    · apply mul_left_cancel₀ d
      rw [h2]
      linear_combination (-(m.x (m.corner f 2) : ℝ) + m.x (m.corner f 0)) * h0 + (-(m.y (m.corner f 2) : ℝ) + m.y (m.corner f 0)) * h1

/-- C130.  Of all triangulations with vertices at the same places the one of points has the least rough surface. -/
theorem C130_least (h : Points limit m) (S : Sheet m') (same : ∀ px py, m.Vertex px py ↔ m'.Vertex px py) (F : Int → Int → ℝ) :
    m.rough F ≤ m'.rough F := by
  have M := C130_sheet h.marked.reach
  exact (M.least S (M.delaunay_iff.1 (C79_delaunay h)) same (by simp)).1 F

/-- C130.  Those that are as good, whatever the heights, are those without a vertex in the circle of a face. -/
theorem C130_best_iff (h : Points limit m) (S : Sheet m') (same : ∀ px py, m.Vertex px py ↔ m'.Vertex px py) :
    (∀ F, m'.rough F ≤ m.rough F) ↔ Delaunay m' := by
  have M := C130_sheet h.marked.reach
  rw [(M.least S (M.delaunay_iff.1 (C79_delaunay h)) same (by simp)).2, S.delaunay_iff]

theorem walls_kept (h : Reach limit m) (L : LocallyDelaunay m) (edges : ∀ a b, m.Wall a b → m'.EdgeAt (m.pos a) (m.pos b)) :
    Legal (m.plain m.WallAt) ∧ ∀ p q, (m.WallAt p q ∨ m.WallAt q p) → (m.EdgeAt p q ↔ m'.EdgeAt p q) := by
  have sw : ∀ {p q}, m.WallAt p q → m.WallAt q p := fun ⟨a, b, w, e1, e2⟩ => ⟨b, a, w.symm, e2, e1⟩
  refine ⟨(C130_sheet h).but.2 fun f j u hj _ hw => L f j u hj ?_, fun p q w => ?_⟩
  · by_contra hc
    exact hw (Or.inl ⟨_, _, ⟨f, j, u, hj, hc, Or.inl ⟨rfl, rfl⟩⟩, rfl, rfl⟩)
  · have w : m.WallAt p q := w.elim id sw
    obtain ⟨a, b, hw, rfl, rfl⟩ := w
    refine ⟨fun _ => edges a b hw, fun _ => ?_⟩
    obtain ⟨f, j, u, hj, -, e⟩ := hw
    refine ⟨f, j, u, hj, ?_⟩
    rcases e with ⟨e1, e2⟩ | ⟨e1, e2⟩ <;> rw [e1, e2]
    · exact Or.inl ⟨rfl, rfl⟩
    · exact Or.inr ⟨rfl, rfl⟩

/-- C130.  With constraints, of all triangulations with vertices at the same places and with edges where the constrained edges are, one
without a corner in the circle across an unconstrained edge has the least rough surface. -/
theorem C130_constrained (h : Reach limit m) (L : LocallyDelaunay m) (S : Sheet m') (same : ∀ px py, m.Vertex px py ↔ m'.Vertex px py)
    (edges : ∀ a b, m.Wall a b → m'.EdgeAt (m.pos a) (m.pos b)) (F : Int → Int → ℝ) : m.rough F ≤ m'.rough F :=
  have ⟨K, E⟩ := walls_kept h L edges
  ((C130_sheet h).least S K same E).1 F

/-- C130.  And those that are as good, whatever the heights, have no corner in the circle across an edge that need not be there. -/
theorem C130_constrained_iff (h : Reach limit m) (L : LocallyDelaunay m) (S : Sheet m') (same : ∀ px py, m.Vertex px py ↔ m'.Vertex px py)
    (edges : ∀ a b, m.Wall a b → m'.EdgeAt (m.pos a) (m.pos b)) : (∀ F, m'.rough F ≤ m.rough F) ↔ m'.DelaunayBut m.WallAt := by
  have ⟨K, E⟩ := walls_kept h L edges
  rw [((C130_sheet h).least S K same E).2, S.but]
  have : (fun p q => m.WallAt p q ∨ m.WallAt q p) = m.WallAt := by
    funext p q
    refine propext ⟨fun w => w.elim id ?_, Or.inl⟩
    rintro ⟨a, b, w, e1, e2⟩
    exact ⟨b, a, w.symm, e2, e1⟩
  rw [this]

/-- C130.  So it is after `insert_point`, `constrain_edge`, `flip` and `fill` in any order. -/
theorem C130_marked (h : Marked limit m) (S : Sheet m') (same : ∀ px py, m.Vertex px py ↔ m'.Vertex px py)
    (edges : ∀ a b, m.Wall a b → m'.EdgeAt (m.pos a) (m.pos b)) (F : Int → Int → ℝ) : m.rough F ≤ m'.rough F :=
  C130_constrained h.reach (C79_locally_delaunay_partial h) S same edges F

/-- an in-circle flip by `try_flip` keeps the constrained edges and makes the surface over a bowl less rough -/
theorem improve (h : Reach limit m) (n : ¬ LocallyDelaunay m) : ∃ m', Reach limit m' ∧ (∀ px py, m.Vertex px py ↔ m'.Vertex px py) ∧
    (∀ a b, m.Wall a b → m'.EdgeAt (m.pos a) (m.pos b)) ∧ m'.rough bowl < m.rough bowl := by
  obtain ⟨I, R⟩ := reach_inv h
  unfold LocallyDelaunay at n
  push Not at n
  obtain ⟨f, j, u, hj, hc, hd⟩ := n
  rw [circle_dt u hj] at hd
  have hi := u.isE hj
  obtain ⟨m', e, P, S⟩ := flip_one I hi hc
  obtain ⟨c1, c2⟩ := P.convex I hd
  have can : m.canFlip (4 * f + j) = true := by
    unfold Mesh.canFlip
    rw [if_neg (by omega)]
    simp only [Bool.and_eq_true, decide_eq_true_eq]
    rw [P.n2] at c2
    rw [P.n1]
    unfold Mesh.cr at c1 c2
    constructor <;> linarith
  have run : m.tryFlip (4 * f + j) = some (m', true) := by
    unfold Mesh.tryFlip
    rw [if_pos can, e]
    rfl
  refine ⟨m', h.tryFlip u hj run, fun px py => ?_, fun a b w => ?_, (S.rough P I hd).2 rfl⟩
  · unfold Mesh.Vertex
    rw [S.size, S.x, S.y]
  · have w' : m'.Wall a b := wall_iff.2 ((wall_iff.1 w).imp (S.bar P hc) (S.bar P hc))
    obtain ⟨g, l, ug, hl, -, e⟩ := w'
    refine ⟨g, l, ug, hl, ?_⟩
    unfold Mesh.pos
    rw [S.x, S.y]
    rcases e with ⟨e1, e2⟩ | ⟨e1, e2⟩ <;> rw [e1, e2]
    · exact Or.inl ⟨rfl, rfl⟩
    · exact Or.inr ⟨rfl, rfl⟩

/-- C130.  A mesh of any history has the least rough surface of all that have its constrained edges exactly when there is no corner in the
circle across an unconstrained edge. -/
theorem C130_local_iff (h : Reach limit m) : LocallyDelaunay m ↔ ∀ m', Sheet m' → (∀ px py, m.Vertex px py ↔ m'.Vertex px py) →
    (∀ a b, m.Wall a b → m'.EdgeAt (m.pos a) (m.pos b)) → ∀ F, m.rough F ≤ m'.rough F := by
  constructor
  · exact fun L m' S same edges F => C130_constrained h L S same edges F
  · intro b
    by_contra n
    obtain ⟨m', h', same, edges, lt⟩ := improve h n
    have := b m' (C130_sheet h') same edges bowl
    linarith

/-- C130.  After `insert_edge` it need not be the least. -/
theorem C130_insert_edge_false : ∃ m m', Reach 100 m ∧ Sheet m' ∧ (∀ px py, m.Vertex px py ↔ m'.Vertex px py) ∧
    (∀ a b, m.Wall a b → m'.EdgeAt (m.pos a) (m.pos b)) ∧ ∃ F, m'.rough F < m.rough F := by
  obtain ⟨m, h, n⟩ := C79_insert_edge_false
  obtain ⟨m', h', same, edges, lt⟩ := improve h n
  exact ⟨m, m', h, C130_sheet h', same, edges, bowl, lt⟩

/-- C130.  No call of `flip` makes the surface rougher, whatever the mesh was. -/
theorem C130_flip {k f j} (h : Reach limit m) (u : Used m f) (hj : j < 3) (run : flip k m (4 * f + j) = some m') (F : Int → Int → ℝ) :
    m'.rough F ≤ m.rough F :=
  (flip_flips (reach_inv h).1 (Or.inl (u.isE hj)) run).rough (reach_inv h).1

-- a triangulation of the same places with another diagonal: it is rougher for some heights
example : Points 100 pts3 ∧ Sheet pts3t ∧ (∀ F, pts3.rough F ≤ pts3t.rough F) ∧ ∃ F, pts3.rough F < pts3t.rough F := by
  have S := C130_sheet pts3t_reach
  refine ⟨pts3_points, S, C130_least pts3_points S pts3t_same, ?_⟩
  by_contra hc
  push Not at hc
  have D := (C130_best_iff pts3_points S pts3t_same).1 hc
  have : ¬ ∀ f, f < 14 → 6 ≤ f → ∀ v, v < 7 → 0 ≤ pts3t.circle f v := by decide +kernel
  exact this fun f h1 h2 v hv => D f v (by unfold Used; exact ⟨h2, by rw [show pts3t.size = 7 by decide +kernel]; omega⟩) (by rw [show pts3t.size = 7 by decide +kernel]; exact hv)

/-- the square with its diagonal constrained, a point below and two above -/
def tied3 : Mesh := ((insertPoint 100 60 tied2 3000 24000 0).get (by decide +kernel)).1
/-- the same with one edge turned -/
def tied3t : Mesh := ((tied3.tryFlip (4 * 13 + 2)).get (by decide +kernel)).1

theorem tied3_marked : Marked 100 tied3 := by
  unfold tied3
  exact .point tied2_marked (get_pair _ _)

theorem tied3t_reach : Reach 100 tied3t := by
  refine .tryFlip (f := 13) (j := 2) (d := ((tied3.tryFlip (4 * 13 + 2)).get (by decide +kernel)).2) tied3_marked.reach (by unfold Used; decide +kernel)
    (by omega) ?_
  unfold tied3t
  simp

-- with a constraint that is not Delaunay: another triangulation that has it, and is rougher for some heights
example : Marked 100 tied3 ∧ Sheet tied3t ∧ tied3.WallAt (-32768, 32767) (32767, -32768) ∧ ¬ Delaunay tied3 ∧
    (∀ F, tied3.rough F ≤ tied3t.rough F) ∧ ∃ F, tied3.rough F < tied3t.rough F := by
  have S := C130_sheet tied3t_reach
  have L := C79_locally_delaunay_partial tied3_marked
  have h7 : tied3.size = 7 := by decide +kernel
  have h7' : tied3t.size = 7 := by decide +kernel
  have same : ∀ px py, tied3.Vertex px py ↔ tied3t.Vertex px py := by
    have e : ∀ v, v < 7 → tied3t.x v = tied3.x v ∧ tied3t.y v = tied3.y v := by decide +kernel
    intro px py
    unfold Mesh.Vertex
    rw [h7, h7']
    constructor <;> rintro ⟨v, hv, h1, h2⟩ <;> have := e v hv <;> exact ⟨v, hv, by omega, by omega⟩
  have edges : ∀ a b, tied3.Wall a b → tied3t.EdgeAt (tied3.pos a) (tied3.pos b) := by
    intro a b w
    have : (tied3.pos a, tied3.pos b) ∈ wallList tied3t := (by decide +kernel : ∀ x ∈ wallList tied3, x ∈ wallList tied3t) _ (wallAt_iff.1 ⟨a, b, w, rfl, rfl⟩)
    obtain ⟨a', b', ⟨f, j, u, hj, -, e⟩, ea, eb⟩ := wallAt_iff.2 this
    refine ⟨f, j, u, hj, ?_⟩
    rcases e with ⟨e1, e2⟩ | ⟨e1, e2⟩ <;> rw [e1, e2]
    · exact Or.inl ⟨ea, eb⟩
    · exact Or.inr ⟨eb, ea⟩
  refine ⟨tied3_marked, S, wallAt_iff.2 (by decide +kernel), fun D => ?_, C130_marked tied3_marked S same edges, ?_⟩
  · have : ¬ ∀ f, f < 14 → 6 ≤ f → ∀ v, v < 7 → 0 ≤ tied3.circle f v := by decide +kernel
    exact this fun f h1 h2 v hv => D f v (by unfold Used; exact ⟨h2, by rw [h7]; omega⟩) (by rw [h7]; exact hv)
  · by_contra hc
    push Not at hc
    have D := (C130_constrained_iff tied3_marked.reach L S same edges).1 hc
    have : tied3t.circle 13 (tied3t.p (tied3t.e (4 * 13 + 1))) < 0 := by decide +kernel
    have := D 13 1 (by unfold Used; decide +kernel) (by omega) (by decide +kernel) (fun w => absurd (wallAt_iff.1 w) (by decide +kernel))
    omega

-- the surface is a plane over each face
example : pts3.Plane bowl 7 (pts3.slopeX bowl 7) (pts3.slopeY bowl 7)
    (pts3.height bowl (pts3.corner 7 0) - pts3.slopeX bowl 7 * pts3.x (pts3.corner 7 0) - pts3.slopeY bowl 7 * pts3.y (pts3.corner 7 0)) :=
  (C130_plane (C130_sheet pts3_points.marked.reach) (by unfold Used; decide +kernel) _ _ _).2 ⟨rfl, rfl, rfl⟩

-- a call of `flip` that turns an edge
example : ∃ m', flip 60 pts3t (4 * 7 + 0) = some m' ∧ (m'.corner 7 0, m'.corner 7 1, m'.corner 7 2) ≠ (pts3t.corner 7 0, pts3t.corner 7 1, pts3t.corner 7 2) ∧
    ∀ F, m'.rough F ≤ pts3t.rough F := by
  have run : (flip 60 pts3t (4 * 7 + 0)).isSome = true := by decide +kernel
  obtain ⟨m', e⟩ := Option.isSome_iff_exists.1 run
  refine ⟨m', e, ?_, C130_flip pts3t_reach (by unfold Used; decide +kernel) (by omega) e⟩
  have : (flip 60 pts3t (4 * 7 + 0)).map (fun m' => decide ((m'.corner 7 0, m'.corner 7 1, m'.corner 7 2) ≠ (pts3t.corner 7 0, pts3t.corner 7 1, pts3t.corner 7 2))) = some true := by
    decide +kernel
  rw [e] at this
  exact of_decide_eq_true (Option.some.inj this)

end CE.Cdt
