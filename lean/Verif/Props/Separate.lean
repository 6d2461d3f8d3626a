import Verif.Proof.Cycles
import Verif.Props.Outline
/-!
# C117: filling stops exactly where a closed line of constrained edges separates
-/
namespace CE.Vec

open Complex Real

/-- from outside one side, a clockwise triangle is seen under no angle -/
theorem triangle_out {a b c : ℂ} (ha : a ≠ 0) (hb : b ≠ 0) (hc : c ≠ 0) (h1 : 0 < a.re * b.im - a.im * b.re)
    (h2 : arg (c / b) ≠ π) (h3 : arg (a / c) ≠ π) (h4 : arg (b / a) ≠ π)
    (hcw : (a.re * b.im - a.im * b.re) + (b.re * c.im - b.im * c.re) + (c.re * a.im - c.im * a.re) < 0) :
    arg (b / a) + arg (c / b) + arg (a / c) = 0 := by
  obtain ⟨k1, e1⟩ := arg_ratio ha hb
  obtain ⟨k2, e2⟩ := arg_ratio hb hc
  obtain ⟨k3, e3⟩ := arg_ratio hc ha
  have hsum : arg (b / a) + arg (c / b) + arg (a / c) = 2 * π * ((k1 + k2 + k3 : ℤ) : ℝ) := by
    push_cast; linarith
  have l1 := lt_of_le_of_ne (arg_le_pi _) h4
  have l2 := lt_of_le_of_ne (arg_le_pi _) h2
  have l3 := lt_of_le_of_ne (arg_le_pi _) h3
  have m1 := arg_pos_cross ha h1
  have m2 := neg_pi_lt_arg (c / b)
  have m3 := neg_pi_lt_arg (a / c)
  have p0 := Real.pi_pos
  generalize k1 + k2 + k3 = k at hsum
  rw [hsum]
  have := int_of_bounds (k := k) (lo := -1) (hi := 2) (by push_cast; linarith) (by push_cast; linarith)
  have hk : k = 0 ∨ k = 1 := by omega
  rcases hk with rfl | rfl
  · simp
  · exfalso
    push_cast at hsum
    have q2 : 0 < arg (c / b) := by linarith
    have q3 : 0 < arg (a / c) := by linarith
    have n2 : ¬ b.re * c.im - b.im * c.re < 0 := fun h => by have := (arg_neg_cross hb).2 h; linarith
    have n3 : ¬ c.re * a.im - c.im * a.re < 0 := fun h => by have := (arg_neg_cross hc).2 h; linarith
    linarith

theorem tri_in {x y : ℝ} {a b c : V2} (n0 : ¬OnEdge x y (a, b)) (n1 : ¬OnEdge x y (b, c)) 
    (s0 : ((a.x : ℝ) - x) * (b.y - y) - (a.y - y) * (b.x - x) < 0) (s1 : ((b.x : ℝ) - x) * (c.y - y) - (b.y - y) * (c.x - x) < 0)
    (s2 : ((c.x : ℝ) - x) * (a.y - y) - (c.y - y) * (a.x - x) < 0) :
    seenAngle x y (a, b) + seenAngle x y (b, c) + seenAngle x y (c, a) = -2 * π := by
  have t0 := toward_nz n0
  have t1 := toward_nz n1
  have := triangle_sum (a := toward x y a) (b := toward x y b) (c := toward x y c) t0.1 t0.2 t1.2 (by simp only [toward]; exact s0.ne)
    (by simp only [toward]; exact s1.ne) (by simp only [toward]; exact s2.ne)
    (by simp only [toward]; linarith)
  have q : ((toward x y a).re * (toward x y b).im - (toward x y a).im * (toward x y b).re < 0 ∧ (toward x y b).re * (toward x y c).im -
      (toward x y b).im * (toward x y c).re < 0 ∧ (toward x y c).re * (toward x y a).im - (toward x y c).im * (toward x y a).re < 0) := by
    simp only [toward]; exact ⟨s0, s1, s2⟩
  rw [if_pos q, mul_one] at this
  unfold seenAngle
  dsimp only
  exact this

theorem tri_out {x y : ℝ} {a b c : V2} (n0 : ¬OnEdge x y (a, b)) (n1 : ¬OnEdge x y (b, c)) (n2 : ¬OnEdge x y (c, a))
    (s0 : 0 < ((a.x : ℝ) - x) * (b.y - y) - (a.y - y) * (b.x - x))
    (cw : ((a.x : ℝ) - x) * (b.y - y) - (a.y - y) * (b.x - x) + (((b.x : ℝ) - x) * (c.y - y) - (b.y - y) * (c.x - x)) +
      (((c.x : ℝ) - x) * (a.y - y) - (c.y - y) * (a.x - x)) < 0) :
    seenAngle x y (a, b) + seenAngle x y (b, c) + seenAngle x y (c, a) = 0 := by
  have t0 := toward_nz n0
  have t1 := toward_nz n1
  have p0 := seen_ne_pi n0
  have p1 := seen_ne_pi n1
  have p2 := seen_ne_pi n2
  dsimp only at p0 p1 p2
  unfold seenAngle
  dsimp only
  exact triangle_out (a := toward x y a) (b := toward x y b) (c := toward x y c) t0.1 t0.2 t1.2 (by simp only [toward]; exact s0)
    p1 p2 p0 (by simp only [toward]; exact cw)

end CE.Vec

namespace CE.Cdt

open CE.Vec

variable {m m' : Mesh} {limit n : Nat} {v : Nat → Nat}

/-- a point inside a face is in no other face -/
theorem inside_only (h : Reach limit m) {f g : Nat} (uf : Used m f) (ug : Used m g) {x y : ℚ} (hf : m.Inside f x y) (hg : m.Within g x y) : f = g := by
  obtain ⟨I, R⟩ := reach_inv h
  obtain ⟨x', y', o1, o2⟩ := both_open (m := m) I (ug.isE (j := 0) (by omega)) ((inside_open uf).1 hf) ((within_shut ug).1 hg)
  have := planar I R (uf.isE (j := 0) (by omega)) (ug.isE (j := 0) (by omega)) o1 o2
  omega

/-- a point inside a face is on no edge -/
theorem inside_off (h : Reach limit m) {f i : Nat} (uf : Used m f) {x y : ℚ} (hf : m.Inside f x y) (hi : IsE m.size i) :
    ¬Vec.OnEdge x y (m.place (m.p (nx i)), m.place (m.p (pv i))) := by
  intro on
  obtain ⟨I, R⟩ := reach_inv h
  obtain ⟨q, q0, q1, hx, hy⟩ := rational_on on
  obtain ⟨s, z⟩ := edge_shut I hi q0 q1
  rw [← hx, ← hy] at s z
  have o := (inside_open uf).1 hf
  obtain ⟨x', y', o1, o2⟩ := both_open (m := m) I hi o s
  have e := planar I R (uf.isE (j := 0) (by omega)) hi o1 o2
  have b : 4 * f = i / 4 * 4 := by omega
  have h3 : i % 4 < 3 := by unfold IsE at hi; omega
  have B := base (uf.isE (j := 0) (by omega)) (by omega)
  rw [Nat.add_zero] at B
  unfold Mesh.InOpen at o
  have hi3 : i = 4 * f ∨ i = 4 * f + 1 ∨ i = 4 * f + 2 := by omega
  rw [B.n0, B.p0] at o
  rcases hi3 with rfl | rfl | rfl
  · rw [B.n0, B.p0] at z; linarith [o.2.1]
  · rw [B.n1, B.p1] at z; linarith [o.2.2]
  · rw [B.n2, B.p2] at z; linarith [o.1]

/-- the angle under which an edge is seen, and zero if the point is on it -/
noncomputable def Mesh.view (m : Mesh) (x y : ℝ) (a b : Nat) : ℝ :=
  open Classical in if Vec.OnEdge x y (m.place a, m.place b) then 0 else seenAngle x y (m.place a, m.place b)

theorem onEdge_swap {x y : ℝ} {a b : V2} (h : Vec.OnEdge x y (a, b)) : Vec.OnEdge x y (b, a) := by
  obtain ⟨t, t0, t1, hx, hy⟩ := h
  exact ⟨1 - t, by linarith, by linarith, by simp only at hx ⊢; rw [hx]; ring, by simp only at hy ⊢; rw [hy]; ring⟩

theorem view_anti (m : Mesh) (x y : ℝ) (a b : Nat) : m.view x y a b = -m.view x y b a := by
  unfold Mesh.view
  by_cases h : Vec.OnEdge x y (m.place a, m.place b)
  · rw [if_pos h, if_pos (onEdge_swap h), neg_zero]
  · have h' : ¬Vec.OnEdge x y (m.place b, m.place a) := fun h' => h (onEdge_swap h')
    rw [if_neg h, if_neg h']
    have p := seen_ne_pi h'
    dsimp only at p
    unfold seenAngle
    dsimp only
    exact arg_flip p

theorem view_eq {x y : ℝ} {a b : Nat} (h : ¬Vec.OnEdge x y (m.place a, m.place b)) : m.view x y a b = seenAngle x y (m.place a, m.place b) := if_neg h

/-- a face is seen under a full turn from inside, and under no angle from another face -/
theorem face_view (h : Reach limit m) {f g : Nat} (uf : Used m f) (ug : Used m g) {x y : ℚ} (hf : m.Inside f x y) :
    m.view x y (m.p (4 * g + 1)) (m.p (4 * g + 2)) + m.view x y (m.p (4 * g + 2)) (m.p (4 * g)) + m.view x y (m.p (4 * g)) (m.p (4 * g + 1)) =
      if f = g then -2 * Real.pi else 0 := by
  obtain ⟨I, R⟩ := reach_inv h
  have i0 : IsE m.size (4 * g) := ug.isE (j := 0) (by omega)
  have B := base i0 (by omega)
  have n0 := inside_off h uf hf i0
  have n1 := inside_off h uf hf (ug.isE (j := 1) (by omega))
  have n2 := inside_off h uf hf (ug.isE (j := 2) (by omega))
  have cw := I.cw _ i0
  rw [B.n0, B.p0] at n0 cw
  rw [B.n1, B.p1] at n1
  rw [B.n2, B.p2] at n2
  rw [view_eq n0, view_eq n1, view_eq n2]
  have cw : ((m.cr (m.p (4 * g)) (m.p (4 * g + 1)) (m.p (4 * g + 2)) : ℤ) : ℝ) < 0 := by exact_mod_cast cw
  unfold Mesh.cr at cw
  push_cast at cw
  have c0 : m.corner g 0 = m.p (4 * g) := rfl
  have c1 : m.corner g 1 = m.p (4 * g + 1) := rfl
  have c2 : m.corner g 2 = m.p (4 * g + 2) := rfl
  have c3 : m.corner g 3 = m.p (4 * g) := rfl
  split
  · next e =>
    subst e
    have hc := core_cast.2 hf
    have s0 := hc 0 (by omega)
    have s1 := hc 1 (by omega)
    have s2 := hc 2 (by omega)
    unfold Mesh.sideR at s0 s1 s2
    simp only [zero_add, Nat.reduceAdd, c0, c1, c2, c3] at s0 s1 s2
    have := tri_in (a := m.place (m.p (4 * f))) (b := m.place (m.p (4 * f + 1))) (c := m.place (m.p (4 * f + 2))) n2 n0 s0 s1 s2
    linarith
  · next e =>
    have : ¬ m.Has g x y := by
      rw [has_cast]
      exact fun hw => e (inside_only h uf ug hf hw)
    unfold Mesh.Has at this
    push Not at this
    obtain ⟨j, hj, s⟩ := this
    unfold Mesh.sideR at s
    have hj : j = 0 ∨ j = 1 ∨ j = 2 := by omega
    rcases hj with rfl | rfl | rfl <;> simp only [zero_add, Nat.reduceAdd, c0, c1, c2, c3] at s
    · have := tri_out (a := m.place (m.p (4 * g))) (b := m.place (m.p (4 * g + 1))) (c := m.place (m.p (4 * g + 2))) n2 n0 n1 s
        (by simp only [Mesh.place]; linarith)
      linarith
    · have := tri_out (a := m.place (m.p (4 * g + 1))) (b := m.place (m.p (4 * g + 2))) (c := m.place (m.p (4 * g))) n0 n1 n2 s
        (by simp only [Mesh.place]; linarith)
      linarith
    · have := tri_out (a := m.place (m.p (4 * g + 2))) (b := m.place (m.p (4 * g))) (c := m.place (m.p (4 * g + 1))) n1 n2 n0 s
        (by simp only [Mesh.place]; linarith)
      linarith

/-- the boundary of a set of faces winds once around the faces of the set and not around the others -/
theorem boundary_view (h : Reach limit m) {S : Nat → Prop} {f : Nat} (uf : Used m f) {x y : ℚ} (hf : m.Inside f x y) :
    open Classical in ∑ i ∈ m.edgeOf S, seenAngle x y (m.place (m.p (nx i)), m.place (m.p (pv i))) = if S f then -2 * Real.pi else 0 := by
  classical
  obtain ⟨I, R⟩ := reach_inv h
  have e : ∑ i ∈ m.edgeOf S, seenAngle x y (m.place (m.p (nx i)), m.place (m.p (pv i))) = ∑ i ∈ m.edgeOf S, m.view x y (m.p (nx i)) (m.p (pv i)) :=
    Finset.sum_congr rfl fun i hi => (view_eq (inside_off h uf hf (mem_edgeOf.1 hi).1)).symm
  rw [e, ← cancel I S (m.view x y) (view_anti m x y)]
  have e2 : ∀ g ∈ (Finset.Ico 6 (2 * m.size)).filter S, m.view x y (m.p (4 * g + 1)) (m.p (4 * g + 2)) + m.view x y (m.p (4 * g + 2)) (m.p (4 * g)) +
      m.view x y (m.p (4 * g)) (m.p (4 * g + 1)) = if f = g then -2 * Real.pi else 0 := by
    intro g hg
    rw [Finset.mem_filter, Finset.mem_Ico] at hg
    exact face_view h uf hg.1 hf
  rw [Finset.sum_congr rfl e2, Finset.sum_ite_eq]
  have : f ∈ (Finset.Ico 6 (2 * m.size)).filter S ↔ S f := by
    rw [Finset.mem_filter, Finset.mem_Ico]
    exact ⟨fun h => h.2, fun h => ⟨uf, h⟩⟩
  simp only [this]

/-- the boundary consists of closed polygons -/
theorem boundary_polygons (h : Inv m) (S : Nat → Prop) : ∃ Ps : List (List V2),
    (Ps.flatMap polyEdges).Perm ((m.edgeOf S).toList.map fun i => (m.place (m.p (nx i)), m.place (m.p (pv i)))) := by
  classical
  obtain ⟨Ps, hp⟩ := closed_paths _ ((m.edgeOf S).toList.map fun i => (m.place (m.p (nx i)), [m.place (m.p (pv i))])) rfl (by
    intro P hP
    obtain ⟨i, -, rfl⟩ := List.mem_map.1 hP
    simp) (by
    rw [List.map_map, List.map_map]
    have : ((m.edgeOf S).toList.map fun i => m.p (nx i)).Perm ((m.edgeOf S).toList.map fun i => m.p (pv i)) := by
      rw [List.perm_iff_count]
      intro a
      have key : ∀ φ : Nat → Nat, ((m.edgeOf S).toList.map φ).count a = ((m.edgeOf S).filter fun i => φ i = a).card := by
        intro φ
        rw [List.count, List.countP_map, List.countP_eq_length_filter, ← Finset.length_toList]
        apply List.Perm.length_eq
        rw [List.perm_ext_iff_of_nodup ((Finset.nodup_toList _).filter _) (Finset.nodup_toList _)]
        intro i
        simp
      rw [key, key]
      exact balance h S a
    have := this.map m.place
    rwa [List.map_map, List.map_map] at this)
  refine ⟨Ps, hp.trans (List.Perm.of_eq ?_)⟩
  rw [List.flatMap_map]
  induction (m.edgeOf S).toList with
  | nil => rfl
  | cons i l ih => rw [List.flatMap_cons, List.map_cons, ih]; rfl

theorem Mesh.Line.walled {ps : List V2} (L : m.Line ps) : m.Walled ps := by
  intro e he x y on
  obtain ⟨a, b, w, rfl⟩ := L e he
  exact ⟨a, b, w, on⟩

/-- around a set of faces that is closed under crossing unconstrained edges there are closed lines of constrained edges, which together
wind once around each face of the set and not around the others -/
theorem around (h : Reach limit m) {S : Nat → Prop} (cl : ∀ i, IsE m.size i → m.c i = 0 → S (i / 4) → S (m.e i / 4)) :
    ∃ Ps : List (List V2), (∀ ps ∈ Ps, m.Line ps) ∧ ∀ f x y, Used m f → m.Core f x y →
      open Classical in (Ps.map fun ps => swept x y (polyEdges ps)).sum = if S f then -2 * Real.pi else 0 := by
  classical
  obtain ⟨I, R⟩ := reach_inv h
  obtain ⟨Ps, hp⟩ := boundary_polygons I S
  have line : ∀ ps ∈ Ps, m.Line ps := by
    intro ps hps e he
    have : e ∈ Ps.flatMap polyEdges := List.mem_flatMap.2 ⟨ps, hps, he⟩
    rw [hp.mem_iff, List.mem_map] at this
    obtain ⟨i, hi, rfl⟩ := this
    rw [Finset.mem_toList, mem_edgeOf] at hi
    obtain ⟨h1, h2, h3⟩ := hi
    have hc : m.c i ≠ 0 := by
      intro hc
      rcases h3 with h3 | h3
      · have := I.bd i h1 h3; omega
      · exact h3 (cl i h1 hc h2)
    exact ⟨_, _, wall_iff.2 (.inl ⟨i, h1, hc, rfl⟩), rfl⟩
  refine ⟨Ps, line, fun f x y uf hc => ?_⟩
  -- a rational point of the face
  obtain ⟨q, r, hq⟩ : ∃ q r : ℚ, m.Inside f q r := ⟨_, _, (inside_open uf).2 (centre_open I (uf.isE (j := 0) (by omega)))⟩
  have same : ∀ ps ∈ Ps, swept x y (polyEdges ps) = swept q r (polyEdges ps) := by
    intro ps hps
    have hc' := core_cast.2 hq
    exact face_same h uf (line ps hps).walled hc hc'.has (core_off h uf (line ps hps).walled hc')
  rw [List.map_congr_left same, ← boundary_view (S := S) h uf hq]
  have e1 : (Ps.map fun ps => swept q r (polyEdges ps)).sum = ((Ps.flatMap polyEdges).map (seenAngle q r)).sum := by
    clear hp line same
    induction Ps with
    | nil => rfl
    | cons ps Ps ih => rw [List.map_cons, List.sum_cons, List.flatMap_cons, List.map_append, List.sum_append, ih]; rfl
  rw [e1, (hp.map _).sum_eq, List.map_map, Finset.sum_eq_multiset_sum, ← Finset.coe_toList, Multiset.map_coe, Multiset.sum_coe]
  simp

/-- C117.  One face can be reached from another without crossing a constrained edge exactly when every closed line of constrained edges
winds as often around the one as around the other. -/
theorem C117_region (h : Reach limit m) {info : Nat} (clear : ∀ g, Used m g → m.fi g ≠ info) {f g : Nat} (uf : Used m f)
    (ug : Used m g) {x y x' y' : ℝ} (hf : m.Core f x y) (hg : m.Core g x' y') :
    Region m info f g ↔ ∀ ps, m.Line ps → swept x y (polyEdges ps) = swept x' y' (polyEdges ps) := by
  obtain ⟨I, R⟩ := reach_inv h
  constructor
  · intro r ps L
    exact C114_same h uf L.walled r hf.has (core_off h uf L.walled hf) hg.has (core_off h ug L.walled hg)
  · intro all
    by_contra hn
    obtain ⟨Ps, line, sum⟩ := around h (S := Region m info f) (fun i hi hc r => region_cross I clear hi hc r)
    have s1 := sum f x y uf hf
    have s2 := sum g x' y' ug hg
    rw [if_pos .here] at s1
    rw [if_neg hn, ← List.map_congr_left (fun ps hps => all ps (line ps hps)), s1] at s2
    have := Real.pi_pos
    linarith

/-- C117.  `fill` paints a face unless a closed line of constrained edges separates it from the first: then, and only then, it does not. -/
theorem C117_fill (h : Reach limit m) {info : Nat} (clear : ∀ g, Used m g → m.fi g ≠ info) {f : Nat} (u : Used m f) :
    ∃ K, ∀ k, K ≤ k → ∃ m', fill k m (4 * f) info = some m' ∧ m' = { m with fi := m'.fi } ∧
      ∀ g, Used m g → (m'.fi g = info ∨ m'.fi g = m.fi g) ∧
        ∀ x y x' y', m.Core f x y → m.Core g x' y' →
          (m'.fi g ≠ info ↔ ∃ ps, m.Line ps ∧ swept x y (polyEdges ps) ≠ swept x' y' (polyEdges ps)) := by
  obtain ⟨K, hK⟩ := C76_fill h u (clear f u)
  refine ⟨K, fun k hk => ?_⟩
  obtain ⟨m', run, h1, h2, h3⟩ := hK k hk
  refine ⟨m', run, h3, fun g ug => ⟨?_, ?_⟩⟩
  · by_cases r : Region m info f g
    · exact .inl (h1 g r)
    · exact .inr (h2 g r)
  · intro x y x' y' hf hg
    have e : m'.fi g = info ↔ Region m info f g := by
      refine ⟨fun e => ?_, h1 g⟩
      by_contra r
      rw [h2 g r] at e
      exact clear g ug e
    rw [Ne, e, C117_region h clear u ug hf hg]
    push Not
    rfl

/-- C117.  The line can be asked for on one side only: when a face is not painted, closed lines of constrained edges wind around the
painted faces once altogether and not around the face. -/
theorem C117_surrounded (h : Reach limit m) {info : Nat} (clear : ∀ g, Used m g → m.fi g ≠ info) (f : Nat) :
    ∃ Ps : List (List V2), (∀ ps ∈ Ps, m.Line ps) ∧ ∀ g x y, Used m g → m.Core g x y →
      (Region m info f g → (Ps.map fun ps => swept x y (polyEdges ps)).sum = -2 * Real.pi) ∧
      (¬Region m info f g → (Ps.map fun ps => swept x y (polyEdges ps)).sum = 0) := by
  obtain ⟨I, R⟩ := reach_inv h
  obtain ⟨Ps, line, sum⟩ := around h (S := Region m info f) (fun i hi hc r => region_cross I clear hi hc r)
  refine ⟨Ps, line, fun g x y ug hg => ?_⟩
  have := sum g x y ug hg
  exact ⟨fun r => by rw [this, if_pos r], fun r => by rw [this, if_neg r]⟩

example : ring4.Line [⟨-100, -100⟩, ⟨-100, 100⟩, ⟨100, 100⟩, ⟨100, -100⟩] := by
  intro e he
  have he : e ∈ [((⟨100, -100⟩ : V2), (⟨-100, -100⟩ : V2)), (⟨-100, -100⟩, ⟨-100, 100⟩), (⟨-100, 100⟩, ⟨100, 100⟩),
    (⟨100, 100⟩, ⟨100, -100⟩)] := he
  simp only [List.mem_cons, List.not_mem_nil, or_false] at he
  have w := ring4_outline.wall
  rcases he with rfl | rfl | rfl | rfl
  · exact ⟨7, 4, w 3 (by decide), by decide +kernel⟩
  · exact ⟨4, 5, w 0 (by decide), by decide +kernel⟩
  · exact ⟨5, 6, w 1 (by decide), by decide +kernel⟩
  · exact ⟨6, 7, w 2 (by decide), by decide +kernel⟩

example : ∃ K, ∀ k, K ≤ k → ∃ m', fill k ring4 (4 * 11) 7 = some m' ∧ m' = { ring4 with fi := m'.fi } ∧
      ∀ g, Used ring4 g → (m'.fi g = 7 ∨ m'.fi g = ring4.fi g) ∧
        ∀ x y x' y', ring4.Core 11 x y → ring4.Core g x' y' →
          (m'.fi g ≠ 7 ↔ ∃ ps, ring4.Line ps ∧ swept x y (polyEdges ps) ≠ swept x' y' (polyEdges ps)) :=
  C117_fill ring4_reach ring4_clear (by unfold Used; decide +kernel)

end CE.Cdt
