import Verif.Proof.CdtOutline
import Verif.Props.Flood
import Verif.Props.EdgeEnd
/-!
# C115: filling a simple polygon paints exactly its inside
-/
namespace CE.Cdt

open CE.Vec

variable {m m' : Mesh} {limit n : Nat} {v : Nat → Nat}

/-- the polygon passes once along its first side -/
theorem Mesh.Outline.once (O : m.Outline n v) (h : Reach limit m) {i : Nat} (hi : IsE m.size i) (he : m.e i ≠ 0)
    (ei : m.ends i = (v 0, v 1)) : m.Once (m.polygon n v) (v 0) (v 1) := by
  obtain ⟨I, R, -, D⟩ := reach_sound h
  have h3 := O.three
  have h0 : ((m.place (v 0), m.place (v 1)) : V2 × V2) ∈ polyEdges (m.polygon n v) := O.mem.2 ⟨0, by omega, rfl⟩
  have nd := O.nodup I D
  obtain ⟨pre, post, hp⟩ := List.append_of_mem h0
  refine ⟨pre, _, post, hp, ⟨0, le_rfl, zero_le_one, by simp [Mesh.place], by simp [Mesh.place]⟩,
    ⟨1, zero_le_one, le_rfl, by simp [Mesh.place], by simp [Mesh.place]⟩, ?_⟩
  intro e' he' on
  have hm : e' ∈ polyEdges (m.polygon n v) := by
    rw [hp]
    rw [List.mem_append] at he'
    rw [List.mem_append, List.mem_cons]
    tauto
  have hne : e' ≠ (m.place (v 0), m.place (v 1)) := by
    rintro rfl
    rw [hp, List.nodup_middle, List.nodup_cons] at nd
    exact nd.1 he'
  obtain ⟨k, hk, rfl⟩ := O.mem.1 hm
  obtain ⟨s, hs, hse, es⟩ := O.slot I R hk
  have P := I.pair hi he
  have e1 : m.p (nx i) = v 0 := congrArg Prod.fst ei
  have e2 : m.p (pv i) = v 1 := congrArg Prod.snd ei
  have s1 : m.p (nx s) = v k := congrArg Prod.fst es
  have s2 : m.p (pv s) = v (k + 1) := congrArg Prod.snd es
  have o := mid_on I hi
  have o' := mid_on I P.ib
  rw [P.n1, P.n2] at o'
  rw [e1, e2] at o o'
  rw [add_comm (m.x (v 1) : ℚ), add_comm (m.y (v 1) : ℚ)] at o'
  have on' : Vec.OnEdge (((m.x (v 0) + m.x (v 1)) / 2 : ℚ) : ℝ) (((m.y (v 0) + m.y (v 1)) / 2 : ℚ) : ℝ) (m.place (v k), m.place (v (k + 1))) := by
    push_cast; exact on
  obtain ⟨q, q0, q1, hx, hy⟩ := rational_on on'
  rcases edge_only I R hi he o o' hs q0 q1 (by rw [s1, s2]; exact hx) (by rw [s1, s2]; exact hy) with rfl | rfl
  · rw [e1] at s1
    have := O.inj _ _ (by omega) hk s1
    subst this
    exact hne rfl
  · rw [P.n1, e2] at s1
    have := O.inj _ _ (by omega) hk s1
    subst this
    rw [P.n2, e1] at s2
    have := O.inj _ _ (by omega) (by omega) s2
    omega

/-- links of the region in both directions -/
theorem region_used (h : Inv m) {info f g : Nat} (u : Used m f) (r : Region m info f g) : Used m g := by
  induction r with
  | here => exact u
  | next r hj free clear ih => exact (h.pair (ih.isE hj) (h.free (ih.isE hj) free)).ib.isF

theorem region_trans {info a b c : Nat} (r : Region m info a b) (s : Region m info b c) : Region m info a c := by
  induction s with
  | here => exact r
  | next _ hj free clear ih => exact .next ih hj free clear

theorem region_cross (h : Inv m) {info f i : Nat} (clear : ∀ g, Used m g → m.fi g ≠ info) (hi : IsE m.size i) (free : m.c i = 0)
    (r : Region m info f (i / 4)) : Region m info f (m.e i / 4) := by
  have h4 : i = 4 * (i / 4) + i % 4 := by omega
  have h5 : i % 4 < 3 := by unfold IsE at hi; omega
  have := Region.next (m := m) (info := info) r h5 (by rw [← h4]; exact free)
    (by rw [← h4]; exact clear _ (h.pair hi (h.free hi free)).ib.isF)
  rwa [← h4] at this

theorem region_symm (h : Inv m) {info f g : Nat} (clear : ∀ g, Used m g → m.fi g ≠ info) (u : Used m f) (r : Region m info f g) :
    Region m info g f := by
  induction r with
  | here => exact .here
  | @next g j r hj free _ ih =>
    have ug := region_used h u r
    have hi := ug.isE hj
    have he := h.free hi free
    obtain ⟨t1, t2, t3, -⟩ := h.tw _ hi he
    refine region_trans ?_ ih
    have := region_cross h (f := m.e (4 * g + j) / 4) clear t1 (by rw [t3]; exact free) .here
    rwa [t2, show (4 * g + j) / 4 = g by omega] at this

theorem core_off (h : Reach limit m) {f : Nat} (u : Used m f) {ps : List V2} (W : m.Walled ps) {x y : ℝ} (c : m.Core f x y) : Off ps x y := by
  intro e he hon
  obtain ⟨a, b, w, on⟩ := W e he _ _ hon
  exact wall_core h u w c on

/-- the faces on the two sides of the first side of the outline: their winding numbers differ, and every region has one of them -/
theorem Mesh.Outline.two (O : m.Outline n v) (h : Reach limit m) {info : Nat} (clear : ∀ g, Used m g → m.fi g ≠ info) :
    ∃ a b, Used m a ∧ Used m b ∧ (∀ f, Used m f → Region m info f a ∨ Region m info f b) ∧
      ∃ x y x' y', m.Core a x y ∧ m.Core b x' y' ∧
        (swept x y (polyEdges (m.polygon n v)) = swept x' y' (polyEdges (m.polygon n v)) + 2 * Real.pi ∨
          swept x' y' (polyEdges (m.polygon n v)) = swept x y (polyEdges (m.polygon n v)) + 2 * Real.pi) := by
  obtain ⟨I, R, -, D⟩ := reach_sound h
  have h3 := O.three
  obtain ⟨i, hi, he, ei⟩ := O.slot I R (k := 0) (by omega)
  have P := I.pair hi he
  have once := O.once h hi he ei
  refine ⟨i / 4, m.e i / 4, hi.isF, P.ib.isF, ?_, ?_⟩
  · intro f uf
    exact O.sides I R (S := Region m info f) (fun j hj hc hr => region_cross I clear hj hc hr) uf .here hi ei
  · have cut : ∀ {i : Nat}, IsE m.size i → ∃ j, j < 3 ∧ m.corner (i / 4) j = m.p (nx i) ∧ m.corner (i / 4) (j + 1) = m.p (pv i) := by
      intro i hi
      have h4 : 4 * (i / 4) + i % 4 = i := by omega
      have h5 : i % 4 < 3 := by unfold IsE at hi; omega
      refine ⟨(i % 4 + 1) % 3, Nat.mod_lt _ (by omega), ?_, ?_⟩
      · rw [← h4, ← corner_nx m _ h5, h4]; unfold Mesh.corner; congr 2; omega
      · rw [← h4, ← corner_pv m _ h5, h4]; unfold Mesh.corner; congr 2; omega
    obtain ⟨j, hj, a1, a2⟩ := cut hi
    obtain ⟨k, hk, b1, b2⟩ := cut P.ib
    have e1 : m.p (nx i) = v 0 := congrArg Prod.fst ei
    have e2 : m.p (pv i) = v 1 := congrArg Prod.snd ei
    obtain ⟨x, y, x', y', c1, -, c2, -, c3⟩ := sides_differ h hi.isF P.ib.isF hj hk (ps := m.polygon n v) (by rw [a1, b2, P.n2]) (by rw [a2, b1, P.n1])
      (by rw [a1, a2, e1, e2]; exact once)
    exact ⟨x, y, x', y', c1, c2, c3⟩

theorem Mesh.Core.has {f : Nat} {x y : ℝ} (c : m.Core f x y) : m.Has f x y := fun j hj => (c j hj).le

/-- C115.  Two faces can be reached from each other without crossing a constrained edge exactly when the polygon winds equally often
around them. -/
theorem C115_region (h : Reach limit m) (O : m.Outline n v) {info : Nat} (clear : ∀ g, Used m g → m.fi g ≠ info) {f g : Nat} (uf : Used m f)
    (ug : Used m g) {x y x' y' : ℝ} (hf : m.Has f x y) (o : Off (m.polygon n v) x y) (hg : m.Has g x' y') (o' : Off (m.polygon n v) x' y') :
    Region m info f g ↔ swept x y (polyEdges (m.polygon n v)) = swept x' y' (polyEdges (m.polygon n v)) := by
  obtain ⟨I, R⟩ := reach_inv h
  have W := O.walled
  refine ⟨fun r => C114_same h uf W r hf o hg o', fun e => ?_⟩
  obtain ⟨a, b, ua, ub, sp, p, q, p', q', ca, cb, df⟩ := O.two h clear
  have oa := core_off h ua W ca
  have ob := core_off h ub W cb
  have := Real.pi_pos
  rcases sp f uf with r | r <;> rcases sp g ug with s | s
  · exact region_trans r (region_symm I clear ug s)
  · exfalso
    have e1 := C114_same h uf W r hf o ca.has oa
    have e2 := C114_same h ug W s hg o' cb.has ob
    rcases df with d | d <;> linarith
  · exfalso
    have e1 := C114_same h uf W r hf o cb.has ob
    have e2 := C114_same h ug W s hg o' ca.has oa
    rcases df with d | d <;> linarith
  · exact region_trans r (region_symm I clear ug s)

/-- the corner of the square is not on the polygon -/
theorem Mesh.Outline.far (O : m.Outline n v) (h : Reach limit m) : Off (m.polygon n v) (-32768) (-32768) := by
  obtain ⟨I, R, -, D⟩ := reach_sound h
  intro e he on
  obtain ⟨k, hk, rfl⟩ := O.mem.1 he
  obtain ⟨t, t0, t1, hx, hy⟩ := on
  have ends : ∀ j, j ≤ n → ¬ ((m.x (v j) : ℝ) = -32768 ∧ (m.y (v j) : ℝ) = -32768) := by
    rintro j hj ⟨ex, ey⟩
    have ex : m.x (v j) = -32768 := by exact_mod_cast ex
    have ey : m.y (v j) = -32768 := by exact_mod_cast ey
    have h4 := O.inner' hj
    have hlt := O.lt I hj
    have := D (v j) 0 hlt (by omega) (by rw [ex, R.xy0.1]) (by rw [ey, R.xy0.2])
    omega
  have low : ∀ j, j ≤ n → (-32768 : ℝ) ≤ m.x (v j) ∧ (-32768 : ℝ) ≤ m.y (v j) := by
    intro j hj
    have c := (C72_clockwise h).2 _ (O.lt I hj)
    exact ⟨by exact_mod_cast c.1.1, by exact_mod_cast c.2.1⟩
  obtain ⟨a1, a2⟩ := low k hk.le
  obtain ⟨b1, b2⟩ := low (k + 1) hk
  simp only [Mesh.place] at hx hy
  rcases lt_or_ge t 1 with h1 | h1
  · apply ends k hk.le
    have q1 := mul_nonneg t0 (by linarith : (0 : ℝ) ≤ m.x (v (k + 1)) + 32768)
    have q2 := mul_nonneg t0 (by linarith : (0 : ℝ) ≤ m.y (v (k + 1)) + 32768)
    constructor <;> nlinarith
  · have : t = 1 := le_antisymm t1 h1
    subst this
    apply ends (k + 1) hk
    constructor <;> linarith

/-- C115.  The polygon has an inside and an outside: it winds around every point that is not on it either not at all, or once, always
in the same direction; both happen. -/
theorem C115_two_sides (h : Reach limit m) (O : m.Outline n v) : ∃ d : ℤ, (d = 1 ∨ d = -1) ∧
    (∀ f x y, Used m f → m.Has f x y → Off (m.polygon n v) x y →
      swept x y (polyEdges (m.polygon n v)) = 0 ∨ swept x y (polyEdges (m.polygon n v)) = 2 * Real.pi * d) ∧
    (∃ f, Used m f ∧ ∀ x y, m.Has f x y → Off (m.polygon n v) x y → swept x y (polyEdges (m.polygon n v)) = 0) ∧
    (∃ f, Used m f ∧ ∀ x y, m.Has f x y → Off (m.polygon n v) x y → swept x y (polyEdges (m.polygon n v)) = 2 * Real.pi * d) := by
  obtain ⟨I, R⟩ := reach_inv h
  have W := O.walled
  -- some colour that is not in use
  obtain ⟨info, clear⟩ : ∃ info, ∀ g, Used m g → m.fi g ≠ info := by
    refine ⟨(Finset.range (2 * m.size)).sup m.fi + 1, fun g ug e => ?_⟩
    have := Finset.le_sup (f := m.fi) (Finset.mem_range.2 ug.2)
    omega
  obtain ⟨a, b, ua, ub, sp, p, q, p', q', ca, cb, df⟩ := O.two h clear
  have oa := core_off h ua W ca
  have ob := core_off h ub W cb
  have same : ∀ f g x y x' y', Used m f → Region m info f g → m.Has f x y → Off (m.polygon n v) x y → m.Has g x' y' → Off (m.polygon n v) x' y' →
      swept x y (polyEdges (m.polygon n v)) = swept x' y' (polyEdges (m.polygon n v)) :=
    fun f g x y x' y' uf r hf o hg o' => C114_same h uf W r hf o hg o'
  -- a face at the corner
  obtain ⟨z, uz, hz⟩ : ∃ z, Used m z ∧ ∃ j, j < 3 ∧ m.corner z j = 0 := by
    obtain ⟨i, hb, e, -⟩ := R.one (1, 0) (by simp [sides])
    have h4 : 4 * (i / 4) + i % 4 = i := by omega
    have h5 : i % 4 < 3 := by have := hb.1; unfold IsE at this; omega
    refine ⟨i / 4, hb.1.isF, (i % 4 + 2) % 3, Nat.mod_lt _ (by omega), ?_⟩
    have e2 : m.p (pv i) = 0 := congrArg Prod.snd e
    rw [← e2, ← h4, ← corner_pv m _ h5, h4]
    unfold Mesh.corner; congr 2; omega
  have out : ∀ g x y, Region m info z g → m.Has g x y → Off (m.polygon n v) x y → swept x y (polyEdges (m.polygon n v)) = 0 :=
    fun g x y r hg o => (C114_outside h uz hz W (O.far h) r hg o).1
  have hzz : ∃ f, Used m f ∧ ∀ x y, m.Has f x y → Off (m.polygon n v) x y → swept x y (polyEdges (m.polygon n v)) = 0 :=
    ⟨z, uz, fun x y => out z x y .here⟩
  have main : ∀ d : ℤ, (d = 1 ∨ d = -1) → ∀ a b p q p' q', Used m a → Used m b → (∀ f, Used m f → Region m info f a ∨ Region m info f b) →
      m.Core a p q → m.Core b p' q' → swept p q (polyEdges (m.polygon n v)) = 0 → swept p' q' (polyEdges (m.polygon n v)) = 2 * Real.pi * d →
      ∃ d : ℤ, (d = 1 ∨ d = -1) ∧
    (∀ f x y, Used m f → m.Has f x y → Off (m.polygon n v) x y →
      swept x y (polyEdges (m.polygon n v)) = 0 ∨ swept x y (polyEdges (m.polygon n v)) = 2 * Real.pi * d) ∧
    (∃ f, Used m f ∧ ∀ x y, m.Has f x y → Off (m.polygon n v) x y → swept x y (polyEdges (m.polygon n v)) = 0) ∧
    (∃ f, Used m f ∧ ∀ x y, m.Has f x y → Off (m.polygon n v) x y → swept x y (polyEdges (m.polygon n v)) = 2 * Real.pi * d) := by
    intro d hd a b p q p' q' ua ub sp ca cb ea eb
    have oa := core_off h ua W ca
    have ob := core_off h ub W cb
    refine ⟨d, hd, ?_, hzz, b, ub, fun x y hb o => ?_⟩
    · intro f x y uf hf o
      rcases sp f uf with r | r
      · left; rw [same f a x y p q uf r hf o ca.has oa, ea]
      · right; rw [same f b x y p' q' uf r hf o cb.has ob, eb]
    · rw [← same b b p' q' x y ub .here cb.has ob hb o, eb]
  rcases sp z uz with r | r
  · have e0 := out a p q r ca.has oa
    rcases df with d | d
    · exact main (-1) (.inr rfl) a b p q p' q' ua ub sp ca cb e0 (by rw [e0] at d; push_cast; linarith)
    · exact main 1 (.inl rfl) a b p q p' q' ua ub sp ca cb e0 (by rw [e0] at d; push_cast; linarith)
  · have e0 := out b p' q' r cb.has ob
    rcases df with d | d
    · exact main 1 (.inl rfl) b a p' q' p q ub ua (fun f uf => (sp f uf).symm) cb ca e0 (by rw [e0] at d; push_cast; linarith)
    · exact main (-1) (.inr rfl) b a p' q' p q ub ua (fun f uf => (sp f uf).symm) cb ca e0 (by rw [e0] at d; push_cast; linarith)

/-- C115.  `fill` paints exactly the faces on the side of the polygon where it starts, and changes no other. -/
theorem C115_fill (h : Reach limit m) (O : m.Outline n v) {info : Nat} (clear : ∀ g, Used m g → m.fi g ≠ info) {f : Nat} (u : Used m f) :
    ∃ K, ∀ k, K ≤ k → ∃ m', fill k m (4 * f) info = some m' ∧ m' = { m with fi := m'.fi } ∧
      ∀ g, Used m g → (m'.fi g = info ∨ m'.fi g = m.fi g) ∧
        ∀ x y x' y', m.Has f x y → Off (m.polygon n v) x y → m.Has g x' y' → Off (m.polygon n v) x' y' →
          (m'.fi g = info ↔ swept x y (polyEdges (m.polygon n v)) = swept x' y' (polyEdges (m.polygon n v))) := by
  obtain ⟨K, hK⟩ := C76_fill h u (clear f u)
  refine ⟨K, fun k hk => ?_⟩
  obtain ⟨m', run, h1, h2, h3⟩ := hK k hk
  refine ⟨m', run, h3, fun g ug => ⟨?_, ?_⟩⟩
  · by_cases r : Region m info f g
    · exact .inl (h1 g r)
    · exact .inr (h2 g r)
  · intro x y x' y' hf o hg o'
    rw [← C115_region h O clear u ug hf o hg o']
    refine ⟨fun e => ?_, h1 g⟩
    by_contra r
    rw [h2 g r] at e
    exact clear g ug e

/-- a point of a face is in the box around its corners -/
theorem has_box {f : Nat} (cw : m.area (m.corner f 0) (m.corner f 1) (m.corner f 2) < 0) {x y l u : ℝ} (hf : m.Has f x y)
    (hx : ∀ j, j < 3 → l ≤ m.x (m.corner f j) ∧ (m.x (m.corner f j) : ℝ) ≤ u ∧ l ≤ m.y (m.corner f j) ∧ (m.y (m.corner f j) : ℝ) ≤ u) :
    l ≤ x ∧ x ≤ u ∧ l ≤ y ∧ y ≤ u := by
  have cw : ((m.area (m.corner f 0) (m.corner f 1) (m.corner f 2) : ℤ) : ℝ) < 0 := by exact_mod_cast cw
  have e3 : m.corner f 3 = m.corner f 0 := rfl
  unfold Mesh.area at cw
  push_cast at cw
  have s0 := hf 0 (by omega)
  have s1 := hf 1 (by omega)
  have s2 := hf 2 (by omega)
  unfold Mesh.sideR at s0 s1 s2
  simp only [Nat.zero_add, Nat.reduceAdd, e3] at s0 s1 s2
  obtain ⟨a1, a2, a3, a4⟩ := hx 0 (by omega)
  obtain ⟨b1, b2, b3, b4⟩ := hx 1 (by omega)
  obtain ⟨c1, c2, c3, c4⟩ := hx 2 (by omega)
  generalize (m.x (m.corner f 0) : ℝ) = ax at *
  generalize (m.x (m.corner f 1) : ℝ) = bx at *
  generalize (m.x (m.corner f 2) : ℝ) = cx at *
  generalize (m.y (m.corner f 0) : ℝ) = ay at *
  generalize (m.y (m.corner f 1) : ℝ) = by' at *
  generalize (m.y (m.corner f 2) : ℝ) = cy at *
  generalize h0 : (ax - x) * (by' - y) - (ay - y) * (bx - x) = d0 at *
  generalize h1 : (bx - x) * (cy - y) - (by' - y) * (cx - x) = d1 at *
  generalize h2 : (cx - x) * (ay - y) - (cy - y) * (ax - x) = d2 at *
  have sum : d0 + d1 + d2 < 0 := by rw [← h0, ← h1, ← h2]; linarith
  have ex : (d0 + d1 + d2) * x = d0 * cx + d1 * ax + d2 * bx := by rw [← h0, ← h1, ← h2]; ring
  have ey : (d0 + d1 + d2) * y = d0 * cy + d1 * ay + d2 * by' := by rw [← h0, ← h1, ← h2]; ring
  clear h0 h1 h2 cw
  refine ⟨?_, ?_, ?_, ?_⟩ <;> by_contra hc <;> push Not at hc
  · have := mul_pos_of_neg_of_neg sum (sub_neg.2 hc)
    nlinarith [mul_nonneg_of_nonpos_of_nonpos s0 (sub_nonpos.2 c1), mul_nonneg_of_nonpos_of_nonpos s1 (sub_nonpos.2 a1), mul_nonneg_of_nonpos_of_nonpos s2 (sub_nonpos.2 b1)]
  · have := mul_pos_of_neg_of_neg sum (sub_neg.2 hc)
    nlinarith [mul_nonneg_of_nonpos_of_nonpos s0 (sub_nonpos.2 c2), mul_nonneg_of_nonpos_of_nonpos s1 (sub_nonpos.2 a2), mul_nonneg_of_nonpos_of_nonpos s2 (sub_nonpos.2 b2)]
  · have := mul_pos_of_neg_of_neg sum (sub_neg.2 hc)
    nlinarith [mul_nonneg_of_nonpos_of_nonpos s0 (sub_nonpos.2 c3), mul_nonneg_of_nonpos_of_nonpos s1 (sub_nonpos.2 a3), mul_nonneg_of_nonpos_of_nonpos s2 (sub_nonpos.2 b3)]
  · have := mul_pos_of_neg_of_neg sum (sub_neg.2 hc)
    nlinarith [mul_nonneg_of_nonpos_of_nonpos s0 (sub_nonpos.2 c4), mul_nonneg_of_nonpos_of_nonpos s1 (sub_nonpos.2 a4), mul_nonneg_of_nonpos_of_nonpos s2 (sub_nonpos.2 b4)]

/-- C115.  Started inside the polygon, it paints exactly the faces inside; started outside, exactly those outside; `in_polygon` says which. -/
theorem C115_in_polygon (h : Reach limit m) (O : m.Outline n v) {info : Nat} (clear : ∀ g, Used m g → m.fi g ≠ info) {f : Nat} (u : Used m f)
    {p : V2} (hp : m.Has f p.x p.y) (op : Off (m.polygon n v) p.x p.y) :
    ∃ w, inPolygon p (m.polygon n v) = some w ∧ ∃ K, ∀ k, K ≤ k → ∃ m', fill k m (4 * f) info = some m' ∧
      ∀ g (q : V2), Used m g → m.Has g q.x q.y → Off (m.polygon n v) q.x q.y →
        ∃ w', inPolygon q (m.polygon n v) = some w' ∧ (m'.fi g = info ↔ (w' = 0 ↔ w = 0)) := by
  obtain ⟨I, R⟩ := reach_inv h
  -- in_polygon is defined
  have small : ∀ g (q : V2), Used m g → m.Has g q.x q.y → ∃ w, inPolygon q (m.polygon n v) = some w := by
    intro g q ug hg
    apply C50_defined
    · have box := has_box ((C72_clockwise h).1 g ug) (l := -32768) (u := 32767) hg (by
        intro j hj
        have : m.corner g j < m.size := by
          unfold Mesh.corner
          exact I.pl _ (ug.isE (Nat.mod_lt _ (by omega)))
        have c := (C72_clockwise h).2 _ this
        exact ⟨by exact_mod_cast c.1.1, by exact_mod_cast c.1.2, by exact_mod_cast c.2.1, by exact_mod_cast c.2.2⟩)
      obtain ⟨b1, b2, b3, b4⟩ := box
      have b1 : -32768 ≤ q.x := by exact_mod_cast b1
      have b2 : q.x ≤ 32767 := by exact_mod_cast b2
      have b3 : -32768 ≤ q.y := by exact_mod_cast b3
      have b4 : q.y ≤ 32767 := by exact_mod_cast b4
      omega
    · intro w hw
      unfold Mesh.polygon at hw
      rw [List.mem_map] at hw
      obtain ⟨k, hk, rfl⟩ := hw
      rw [List.mem_range] at hk
      have c := (C72_clockwise h).2 _ (O.lt I hk.le)
      simp only [Mesh.place]
      omega
  obtain ⟨d, hd, all, -⟩ := C115_two_sides h O
  -- what in_polygon says
  have tell : ∀ g (q : V2) w, Used m g → m.Has g q.x q.y → Off (m.polygon n v) q.x q.y → inPolygon q (m.polygon n v) = some w →
      (w = 0 ∧ swept q.x q.y (polyEdges (m.polygon n v)) = 0) ∨
        (w ≠ 0 ∧ swept q.x q.y (polyEdges (m.polygon n v)) = 2 * Real.pi * d) := by
    intro g q w ug hg oq hw
    obtain ⟨k, ek, hk⟩ := C50_winding_number q _ w hw oq
    have h2 : (2 * Real.pi) ≠ 0 := by have := Real.pi_pos; positivity
    rcases all g _ _ ug hg oq with e | e
    · left
      refine ⟨?_, e⟩
      rw [e] at ek
      have : (k : ℝ) = 0 := by
        rcases mul_eq_zero.1 ek.symm with h | h
        · exact absurd h h2
        · exact h
      have : k = 0 := by exact_mod_cast this
      rw [this] at hk
      simpa using hk
    · right
      refine ⟨?_, e⟩
      rw [e] at ek
      have : (d : ℝ) = k := mul_left_cancel₀ h2 ek
      have : d = k := by exact_mod_cast this
      rw [← this] at hk
      rcases hd with rfl | rfl <;> omega
  obtain ⟨w, hw⟩ := small f p u hp
  refine ⟨w, hw, ?_⟩
  obtain ⟨K, hK⟩ := C115_fill h O clear u
  refine ⟨K, fun k hk => ?_⟩
  obtain ⟨m', run, -, hm⟩ := hK k hk
  refine ⟨m', run, fun g q ug hg oq => ?_⟩
  obtain ⟨w', hw'⟩ := small g q ug hg
  refine ⟨w', hw', ?_⟩
  rw [(hm g ug).2 _ _ _ _ hp op hg oq]
  have h2 : (2 * Real.pi * d) ≠ 0 := by
    have := Real.pi_pos
    have : (d : ℝ) ≠ 0 := by rcases hd with rfl | rfl <;> norm_num
    positivity
  rcases tell f p w u hp op hw with ⟨z, e⟩ | ⟨z, e⟩ <;> rcases tell g q w' ug hg oq hw' with ⟨z', e'⟩ | ⟨z', e'⟩ <;> rw [e, e'] <;> simp [z, z', h2, h2.symm]

/-- the square of C114 -/
theorem ring4_outline : ring4.Outline 4 (fun k => 4 + k % 4) where
  three := by decide
  round := by decide
  inj := by intro j k hj hk h; omega
  inner := by intro k hk; omega
  wall := by
    intro k hk
    have h : k = 0 ∨ k = 1 ∨ k = 2 ∨ k = 3 := by omega
    rcases h with rfl | rfl | rfl | rfl
    · exact ⟨11, 0, by unfold Used; decide +kernel, by decide, by decide +kernel, by decide +kernel⟩
    · exact ⟨11, 1, by unfold Used; decide +kernel, by decide, by decide +kernel, by decide +kernel⟩
    · exact ⟨15, 0, by unfold Used; decide +kernel, by decide, by decide +kernel, by decide +kernel⟩
    · exact ⟨15, 1, by unfold Used; decide +kernel, by decide, by decide +kernel, by decide +kernel⟩
  only := by
    have all : ∀ i, i < 64 → i % 4 < 3 → ring4.c i ≠ 0 → ring4.e i ≠ 0 → ((List.range 4).any fun k =>
        (ring4.corner (i / 4) (i % 4 + 1) == 4 + k % 4 && ring4.corner (i / 4) (i % 4 + 2) == 4 + (k + 1) % 4) ||
          (ring4.corner (i / 4) (i % 4 + 1) == 4 + (k + 1) % 4 && ring4.corner (i / 4) (i % 4 + 2) == 4 + k % 4)) = true := by decide +kernel
    intro f j u hj hc he
    have h8 : ring4.size = 8 := by decide +kernel
    unfold Used at u
    have := all (4 * f + j) (by omega) (by omega) hc he
    rw [show (4 * f + j) / 4 = f by omega, show (4 * f + j) % 4 = j by omega, List.any_eq_true] at this
    obtain ⟨k, hk, h⟩ := this
    exact ⟨k, List.mem_range.1 hk, by simpa using h⟩

example : ring4.polygon 4 (fun k => 4 + k % 4) = [⟨-100, -100⟩, ⟨-100, 100⟩, ⟨100, 100⟩, ⟨100, -100⟩] := by decide +kernel

theorem ring4_clear : ∀ g, Used ring4 g → ring4.fi g ≠ 7 := by
  have all : ∀ g, g < 16 → ring4.fi g ≠ 7 := by decide +kernel
  intro g u
  have h8 : ring4.size = 8 := by decide +kernel
  unfold Used at u
  exact all g (by omega)

example : ∃ K, ∀ k, K ≤ k → ∃ m', fill k ring4 (4 * 11) 7 = some m' ∧ m' = { ring4 with fi := m'.fi } ∧
      ∀ g, Used ring4 g → (m'.fi g = 7 ∨ m'.fi g = ring4.fi g) ∧
        ∀ x y x' y', ring4.Has 11 x y → Off (ring4.polygon 4 fun k => 4 + k % 4) x y → ring4.Has g x' y' →
          Off (ring4.polygon 4 fun k => 4 + k % 4) x' y' →
          (m'.fi g = 7 ↔ swept x y (polyEdges (ring4.polygon 4 fun k => 4 + k % 4)) = swept x' y' (polyEdges (ring4.polygon 4 fun k => 4 + k % 4))) :=
  C115_fill ring4_reach ring4_outline ring4_clear (by unfold Used; decide +kernel)

example : ((fill 60 ring4 44 7).map fun m => (List.range 16).map m.fi) = some [0, 0, 0, 0, 0, 0, 0, 0, 0, 0, 0, 7, 0, 0, 0, 7] := by decide +kernel

example : Used ring4 11 ∧ ring4.Has 11 ((⟨-50, 50⟩ : V2).x) ((⟨-50, 50⟩ : V2).y) ∧
    Off (ring4.polygon 4 fun k => 4 + k % 4) ((⟨-50, 50⟩ : V2).x) ((⟨-50, 50⟩ : V2).y) ∧
    inPolygon ⟨-50, 50⟩ (ring4.polygon 4 fun k => 4 + k % 4) = some (2 ^ 64 - 1) := by
  refine ⟨by unfold Used; decide +kernel, ?_, ?_, by decide +kernel⟩
  · have e := (has_cast (m := ring4) (f := 11) (x := -50) (y := 50)).2 (by unfold Mesh.Within Mesh.sideQ; decide +kernel)
    push_cast at e ⊢
    exact e
  · rw [show (ring4.polygon 4 fun k => 4 + k % 4) = [⟨-100, -100⟩, ⟨-100, 100⟩, ⟨100, 100⟩, ⟨100, -100⟩] by decide +kernel]
    intro e he
    have he : e ∈ [((⟨100, -100⟩ : V2), (⟨-100, -100⟩ : V2)), (⟨-100, -100⟩, ⟨-100, 100⟩), (⟨-100, 100⟩, ⟨100, 100⟩),
      (⟨100, 100⟩, ⟨100, -100⟩)] := he
    simp only [List.mem_cons, List.not_mem_nil, or_false] at he
    rcases he with rfl | rfl | rfl | rfl <;> rintro ⟨t, t0, t1, hx, hy⟩ <;> push_cast at hx hy <;> linarith

end CE.Cdt
