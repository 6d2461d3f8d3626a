import Verif.Props.Delaunay
import Verif.Proof.Unique
/-! C109: the triangulation depends on the points only, not on the order in which they were inserted. -/
namespace CE.Cdt

variable {m m' : Mesh} {limit limit' : Nat}

/-- the middle of a face is inside -/
theorem centre_inside (h : Reach limit m) {f} (u : Used m f) :
    ∃ x y : ℚ, m.Inside f x y ∧ (-32768 ≤ x ∧ x ≤ 32767) ∧ (-32768 ≤ y ∧ y ≤ 32767) := by
  obtain ⟨cw, rng⟩ := C72_clockwise h
  have V := fun j => (C71_linked h).vertex f j u
  have h0 := rng _ (V 0)
  have h1 := rng _ (V 1)
  have h2 := rng _ (V 2)
  have a := cw f u
  unfold Mesh.area at a
  have aq : ((m.x (m.corner f 1) : ℚ) - m.x (m.corner f 0)) * (m.y (m.corner f 2) - m.y (m.corner f 0)) -
      (m.y (m.corner f 1) - m.y (m.corner f 0)) * (m.x (m.corner f 2) - m.x (m.corner f 0)) < 0 := by exact_mod_cast a
  refine ⟨(m.x (m.corner f 0) + m.x (m.corner f 1) + m.x (m.corner f 2)) / 3,
    (m.y (m.corner f 0) + m.y (m.corner f 1) + m.y (m.corner f 2)) / 3, ?_, ?_, ?_⟩
  · intro j hj
    have : j = 0 ∨ j = 1 ∨ j = 2 := by omega
    unfold Mesh.sideQ
    have c3 : m.corner f 3 = m.corner f 0 := rfl
    rcases this with rfl | rfl | rfl <;> norm_num [c3] <;> nlinarith [aq]
  · have h0 : (-32768 : ℚ) ≤ m.x (m.corner f 0) ∧ (m.x (m.corner f 0) : ℚ) ≤ 32767 := by exact_mod_cast h0.1
    have h1 : (-32768 : ℚ) ≤ m.x (m.corner f 1) ∧ (m.x (m.corner f 1) : ℚ) ≤ 32767 := by exact_mod_cast h1.1
    have h2 : (-32768 : ℚ) ≤ m.x (m.corner f 2) ∧ (m.x (m.corner f 2) : ℚ) ≤ 32767 := by exact_mod_cast h2.1
    constructor <;> linarith [h0.1, h0.2, h1.1, h1.2, h2.1, h2.2]
  · have h0 : (-32768 : ℚ) ≤ m.y (m.corner f 0) ∧ (m.y (m.corner f 0) : ℚ) ≤ 32767 := by exact_mod_cast h0.2
    have h1 : (-32768 : ℚ) ≤ m.y (m.corner f 1) ∧ (m.y (m.corner f 1) : ℚ) ≤ 32767 := by exact_mod_cast h1.2
    have h2 : (-32768 : ℚ) ≤ m.y (m.corner f 2) ∧ (m.y (m.corner f 2) : ℚ) ≤ 32767 := by exact_mod_cast h2.2
    constructor <;> linarith [h0.1, h0.2, h1.1, h1.2, h2.1, h2.2]

/-- the circle of a face at a point -/
def Mesh.circleAt (m : Mesh) (f : Nat) (d : Int × Int) : Int :=
  inCircle (m.pos (m.corner f 0)) (m.pos (m.corner f 1)) (m.pos (m.corner f 2)) d

theorem Vertex.at' {v} (hv : v < m.size) : m.Vertex (m.x v) (m.y v) := ⟨v, hv, rfl, rfl⟩

/-- Where faces of two meshes overlap and no corner of either is inside the circle of the other, the corners are on one circle. -/
theorem overlap_circle (h : Reach limit m) (h' : Reach limit' m') {f g : Nat} (u : Used m f) (u' : Used m' g) {x y : ℚ}
    (hin : m.Inside f x y) (hin' : m'.Within g x y) (out : ∀ j, 0 ≤ m'.circleAt g (m.pos (m.corner f j)))
    (out' : ∀ j, 0 ≤ m.circleAt f (m'.pos (m'.corner g j))) {j : Nat} : m'.circleAt g (m.pos (m.corner f j)) = 0 := by
  have cast : ∀ (m : Mesh) (f : Nat) (d : Int × Int), (m.circleAt f d : ℚ) =
      circQ (m.x (m.corner f 0)) (m.y (m.corner f 0)) (m.x (m.corner f 1)) (m.y (m.corner f 1)) (m.x (m.corner f 2)) (m.y (m.corner f 2)) d.1 d.2 :=
    fun m f d => circQ_cast _ _ _ _ _ _ _ _
  have outQ : ∀ j, (0 : ℚ) ≤ m'.circleAt g (m.pos (m.corner f j)) := fun j => by exact_mod_cast out j
  have outQ' : ∀ j, (0 : ℚ) ≤ m.circleAt f (m'.pos (m'.corner g j)) := fun j => by exact_mod_cast out' j
  have ar : ∀ {m : Mesh} {limit f}, Reach limit m → Used m f →
      0 < arQ (m.x (m.corner f 0)) (m.y (m.corner f 0)) (m.x (m.corner f 1)) (m.y (m.corner f 1)) (m.x (m.corner f 2)) (m.y (m.corner f 2)) := by
    intro m limit f h u
    have a := (C72_clockwise h).1 f u
    unfold Mesh.area at a
    have aq : ((m.x (m.corner f 1) : ℚ) - m.x (m.corner f 0)) * (m.y (m.corner f 2) - m.y (m.corner f 0)) -
      (m.y (m.corner f 1) - m.y (m.corner f 0)) * (m.x (m.corner f 2) - m.x (m.corner f 0)) < 0 := by exact_mod_cast a
    unfold arQ; linarith
  have c3 : ∀ (m : Mesh) f, m.corner f 3 = m.corner f 0 := fun _ _ => rfl
  have s0 := hin 0 (by omega)
  have s1 := hin 1 (by omega)
  have s2 := hin 2 (by omega)
  have t0 := hin' 0 (by omega)
  have t1 := hin' 1 (by omega)
  have t2 := hin' 2 (by omega)
  unfold Mesh.sideQ at s0 s1 s2 t0 t1 t2
  norm_num [c3] at s0 s1 s2 t0 t1 t2
  have key := same_circle (x := x) (y := y) (ar h u) (ar h' u')
    (by unfold arQ; linarith) (by unfold arQ; linarith) (by unfold arQ; linarith)
    (by unfold arQ; linarith) (by unfold arQ; linarith) (by unfold arQ; linarith)
    (by have := outQ' 0; rwa [cast] at this) (by have := outQ' 1; rwa [cast] at this) (by have := outQ' 2; rwa [cast] at this)
    (by have := outQ 0; rwa [cast] at this) (by have := outQ 1; rwa [cast] at this) (by have := outQ 2; rwa [cast] at this)
  have zero : ∀ j, j < 3 → m'.circleAt g (m.pos (m.corner f j)) = 0 := by
    intro j hj
    have : j = 0 ∨ j = 1 ∨ j = 2 := by omega
    have : (m'.circleAt g (m.pos (m.corner f j)) : ℚ) = 0 := by
      rw [cast]
      rcases this with rfl | rfl | rfl
      · exact key.1
      · exact key.2.1
      · exact key.2.2
    exact_mod_cast this
  have e : m.corner f j = m.corner f (j % 3) := by unfold Mesh.corner; rw [Nat.mod_mod]
  rw [e]
  exact zero _ (Nat.mod_lt _ (by omega))

/-- Meshes made from points only, with vertices at the same places: where faces of the two overlap, their corners are on one
circle. -/
theorem C109_same_circle (h : Points limit m) (h' : Points limit' m') (same : ∀ px py, m.Vertex px py ↔ m'.Vertex px py)
    {f g : Nat} (u : Used m f) (u' : Used m' g) {x y : ℚ} (hin : m.Inside f x y) (hin' : m'.Within g x y) {j : Nat} :
    m'.circleAt g (m.pos (m.corner f j)) = 0 := by
  have D := C79_delaunay h
  have D' := C79_delaunay h'
  have V := fun j => (C71_linked h.marked.reach).vertex f j u
  have V' := fun j => (C71_linked h'.marked.reach).vertex g j u'
  have out : ∀ j, 0 ≤ m'.circleAt g (m.pos (m.corner f j)) := by
    intro j
    obtain ⟨v, hv, ex, ey⟩ := (same _ _).1 (Vertex.at' (V j))
    have := D' g v u' hv
    unfold Mesh.circle at this
    rw [ex, ey] at this
    exact this
  have out' : ∀ j, 0 ≤ m.circleAt f (m'.pos (m'.corner g j)) := by
    intro j
    obtain ⟨v, hv, ex, ey⟩ := (same _ _).2 (Vertex.at' (V' j))
    have := D f v u hv
    unfold Mesh.circle at this
    rw [ex, ey] at this
    exact this
  exact overlap_circle h.marked.reach h'.marked.reach u u' hin hin' out out'

/-- a clockwise triangle whose corners are those of another one is that one, turned -/
theorem turned {a b c d e f : Int × Int} (h : Turns a b c) (h' : Turns d e f) (ha : a = d ∨ a = e ∨ a = f) (hb : b = d ∨ b = e ∨ b = f)
    (hc : c = d ∨ c = e ∨ c = f) : (a = d ∧ b = e ∧ c = f) ∨ (a = e ∧ b = f ∧ c = d) ∨ (a = f ∧ b = d ∧ c = e) := by
  unfold Turns at h h'
  rcases ha with rfl | rfl | rfl <;> rcases hb with rfl | rfl | rfl <;> rcases hc with rfl | rfl | rfl <;>
    first
      | (left; exact ⟨rfl, rfl, rfl⟩)
      | (right; left; exact ⟨rfl, rfl, rfl⟩)
      | (right; right; exact ⟨rfl, rfl, rfl⟩)
      | (exfalso; nlinarith)

/-- Meshes made from points only, with vertices at the same places, no four of them on an empty circle: they have the same
faces. -/
theorem C109_unique (h : Points limit m) (h' : Points limit' m') (same : ∀ px py, m.Vertex px py ↔ m'.Vertex px py)
    (nf : NoFour fun d => m.Vertex d.1 d.2) : FacesOf m m' := by
  intro f u
  obtain ⟨x, y, hin, hx, hy⟩ := centre_inside h.marked.reach u
  obtain ⟨g, u', hin'⟩ := (C81_tiling h'.marked.reach).cover x y hx.1 hx.2 hy.1 hy.2
  have V := fun j => (C71_linked h.marked.reach).vertex f j u
  have V' := fun j => (C71_linked h'.marked.reach).vertex g j u'
  have cw : Turns (m.pos (m.corner f 0)) (m.pos (m.corner f 1)) (m.pos (m.corner f 2)) := (C72_clockwise h.marked.reach).1 f u
  have cw' : Turns (m'.pos (m'.corner g 0)) (m'.pos (m'.corner g 1)) (m'.pos (m'.corner g 2)) := (C72_clockwise h'.marked.reach).1 g u'
  have D' := C79_delaunay h'
  have at' : ∀ j, m.pos (m.corner f j) = m'.pos (m'.corner g 0) ∨ m.pos (m.corner f j) = m'.pos (m'.corner g 1) ∨
      m.pos (m.corner f j) = m'.pos (m'.corner g 2) := by
    intro j
    rcases nf _ _ _ _ ((same _ _).2 (Vertex.at' (V' 0))) ((same _ _).2 (Vertex.at' (V' 1))) ((same _ _).2 (Vertex.at' (V' 2)))
      (Vertex.at' (V j)) cw' (C109_same_circle h h' same u u' hin hin') with e | e | e | ⟨e, he, hlt⟩
    · exact Or.inl e
    · exact Or.inr (Or.inl e)
    · exact Or.inr (Or.inr e)
    · obtain ⟨v, hv, ex, ey⟩ := (same _ _).1 he
      have := D' g v u' hv
      unfold Mesh.circle at this
      rw [ex, ey] at this
      exact absurd hlt (not_lt.2 this)
  have c : ∀ (m : Mesh) (f j), m.corner f (j + 3) = m.corner f j := by
    intro m f j; unfold Mesh.corner; rw [Nat.add_mod_right]
  have three : ∀ {P : Nat → Prop}, P 0 → P 1 → P 2 → ∀ j, j < 3 → P j := by
    intro P p0 p1 p2 j hj
    have : j = 0 ∨ j = 1 ∨ j = 2 := by omega
    rcases this with rfl | rfl | rfl <;> assumption
  rcases turned cw cw' (at' 0) (at' 1) (at' 2) with ⟨e0, e1, e2⟩ | ⟨e0, e1, e2⟩ | ⟨e0, e1, e2⟩
  · exact ⟨g, 0, u', by omega, three e0.symm e1.symm e2.symm⟩
  · exact ⟨g, 1, u', by omega, three e0.symm e1.symm (by rw [show 2 + 1 = 0 + 3 from rfl, c]; exact e2.symm)⟩
  · exact ⟨g, 2, u', by omega, three e0.symm (by rw [show 1 + 2 = 0 + 3 from rfl, c]; exact e1.symm)
      (by rw [show 2 + 2 = 1 + 3 from rfl, c]; exact e2.symm)⟩

theorem Filled.points {l} (h : Filled limit l m) : Points limit m := by
  induction h with
  | reset m => exact .reset m
  | point _ run _ ih => exact .point ih run

/-- the vertices are the corners of the square and the points inserted -/
theorem Filled.vertex {l} (h : Filled limit l m) (px py : Int) : m.Vertex px py ↔ (px, py) ∈ squareCorners ++ l := by
  induction h with
  | reset m =>
    have e : ∀ v, v < 4 → ((CE.Cdt.reset m).x v, (CE.Cdt.reset m).y v) = squareCorners.getD v (0, 0) := by
      intro v hv
      have : v = 0 ∨ v = 1 ∨ v = 2 ∨ v = 3 := by omega
      rcases this with rfl | rfl | rfl | rfl <;> rfl
    have hs : (CE.Cdt.reset m).size = 4 := rfl
    constructor
    · rintro ⟨v, hv, rfl, rfl⟩
      rw [hs] at hv
      rw [e v hv]
      have : v = 0 ∨ v = 1 ∨ v = 2 ∨ v = 3 := by omega
      rcases this with rfl | rfl | rfl | rfl <;> decide
    · intro hm
      rw [List.append_nil] at hm
      obtain ⟨v, hv, ev⟩ := List.getElem_of_mem hm
      have hv4 : v < 4 := hv
      have := e v hv4
      rw [List.getD_eq_getElem?_getD, List.getElem?_eq_getElem hv, Option.getD_some, ev, Prod.mk.injEq] at this
      exact ⟨v, hv4, this.1, this.2⟩
  | @point l m m' k qx qy hint r h run ok ih =>
    obtain ⟨-, c2, c3⟩ := C78_insert h.points.marked.reach run
    by_cases hv : m.Vertex qx qy
    · rw [c2 (Or.inr hv), ih]
      constructor
      · intro hm
        rw [List.mem_append] at hm ⊢
        exact hm.imp_right (List.mem_cons_of_mem _)
      · intro hm
        rw [List.mem_append, List.mem_cons] at hm
        rcases hm with hm | hm | hm
        · exact List.mem_append_left _ hm
        · rw [← ih]
          rw [Prod.mk.injEq] at hm
          rw [hm.1, hm.2]; exact hv
        · exact List.mem_append_right _ hm
    · obtain ⟨hz, old, nx, ny⟩ := c3 ok hv
      have : m'.Vertex px py ↔ m.Vertex px py ∨ (px = qx ∧ py = qy) := by
        constructor
        · rintro ⟨v, hv, rfl, rfl⟩
          by_cases hl : v < m.size
          · left; exact ⟨v, hl, (old v hl).1.symm, (old v hl).2.symm⟩
          · have : v = m.size := by omega
            right; rw [this]; exact ⟨nx, ny⟩
        · rintro (⟨v, hv, rfl, rfl⟩ | ⟨rfl, rfl⟩)
          · exact ⟨v, by omega, (old v hv).1, (old v hv).2⟩
          · exact ⟨m.size, by omega, nx, ny⟩
      rw [this, ih]
      simp only [List.mem_append, List.mem_cons, Prod.mk.injEq]
      tauto

/-- The same points, inserted in any order, as often as one likes, with any hints and limits, give the same faces, provided no
four of the points and corners of the square are on an empty circle. -/
theorem C109_order {l l' : List (Int × Int)} (h : Filled limit l m) (h' : Filled limit' l' m') (same : ∀ d, d ∈ l ↔ d ∈ l')
    (nf : NoFour (· ∈ squareCorners ++ l)) : FacesOf m m' ∧ FacesOf m' m := by
  have hs : ∀ px py, m.Vertex px py ↔ m'.Vertex px py := by
    intro px py
    rw [h.vertex, h'.vertex, List.mem_append, List.mem_append, same]
  have n1 : NoFour fun d => m.Vertex d.1 d.2 := by
    have : (fun d : Int × Int => m.Vertex d.1 d.2) = (· ∈ squareCorners ++ l) := by
      funext d; exact propext (h.vertex d.1 d.2)
    rw [this]; exact nf
  have n2 : NoFour fun d => m'.Vertex d.1 d.2 := by
    have : (fun d : Int × Int => m'.Vertex d.1 d.2) = (fun d => m.Vertex d.1 d.2) := by
      funext d; exact propext (hs d.1 d.2).symm
    rw [this]; exact n1
  exact ⟨C109_unique h.points h'.points hs n1, C109_unique h'.points h.points (fun x y => (hs x y).symm) n2⟩

/-- for a list it is a finite check -/
theorem noFour_list {l : List (Int × Int)} (h : ∀ a ∈ l, ∀ b ∈ l, ∀ c ∈ l, ∀ d ∈ l,
    (b.1 - a.1) * (c.2 - a.2) - (b.2 - a.2) * (c.1 - a.1) < 0 → inCircle a b c d = 0 →
      d = a ∨ d = b ∨ d = c ∨ ∃ e ∈ l, inCircle a b c e < 0) : NoFour (· ∈ l) :=
  fun a b c d ha hb hc hd => h a ha b hb c hc d hd

/-- the points of `pts3`, in another order and with one of them twice -/
def again1 : Mesh := ((insertPoint 100 60 (CE.Cdt.reset sample0) (-3000) 20000 0).get (by decide +kernel)).1
/-- the second -/
def again2 : Mesh := ((insertPoint 100 60 again1 (-20000) (-10000) 8).get (by decide +kernel)).1
/-- the first once more -/
def again3 : Mesh := ((insertPoint 100 60 again2 (-3000) 20000 0).get (by decide +kernel)).1
/-- the last -/
def again4 : Mesh := ((insertPoint 100 60 again3 5000 6000 0).get (by decide +kernel)).1

example : Filled 100 [(-3000, 20000), (5000, 6000), (-20000, -10000)] pts3 ∧
    Filled 100 [(5000, 6000), (-3000, 20000), (-20000, -10000), (-3000, 20000)] again4 ∧ Used pts3 7 ∧ Used again4 7 ∧
    (pts3.pos (pts3.corner 7 0), pts3.pos (pts3.corner 7 1), pts3.pos (pts3.corner 7 2)) ≠
      (again4.pos (again4.corner 7 0), again4.pos (again4.corner 7 1), again4.pos (again4.corner 7 2)) ∧
    NoFour (· ∈ squareCorners ++ [(-3000, 20000), (5000, 6000), (-20000, -10000)]) ∧ FacesOf pts3 again4 := by
  have h1 : Filled 100 [(-20000, -10000)] pts1 := by
    unfold pts1
    exact .point (.reset _) (get_pair _ _) (by decide +kernel)
  have h2 : Filled 100 [(5000, 6000), (-20000, -10000)] pts2 := by
    unfold pts2
    exact .point h1 (get_pair _ _) (by decide +kernel)
  have h3 : Filled 100 [(-3000, 20000), (5000, 6000), (-20000, -10000)] pts3 := by
    unfold pts3
    exact .point h2 (get_pair _ _) (by decide +kernel)
  have a1 : Filled 100 [(-3000, 20000)] again1 := by
    unfold again1
    exact .point (.reset _) (get_pair _ _) (by decide +kernel)
  have a2 : Filled 100 [(-20000, -10000), (-3000, 20000)] again2 := by
    unfold again2
    exact .point a1 (get_pair _ _) (by decide +kernel)
  have a3 : Filled 100 [(-3000, 20000), (-20000, -10000), (-3000, 20000)] again3 := by
    unfold again3
    exact .point a2 (get_pair _ _) (by decide +kernel)
  have a4 : Filled 100 [(5000, 6000), (-3000, 20000), (-20000, -10000), (-3000, 20000)] again4 := by
    unfold again4
    exact .point a3 (get_pair _ _) (by decide +kernel)
  have nf : NoFour (· ∈ squareCorners ++ [(-3000, 20000), (5000, 6000), (-20000, -10000)]) := noFour_list (by decide +kernel)
  exact ⟨h3, a4, by unfold Used; decide +kernel, by unfold Used; decide +kernel, by decide +kernel, nf,
    (C109_order h3 a4 (by intro d; simp only [List.mem_cons, List.not_mem_nil, or_false]; tauto) nf).1⟩

/-- four points on a circle -/
def flat1 : Mesh := ((insertPoint 100 60 sample0 (-1000) 0 0).get (by decide +kernel)).1
/-- the second -/
def flat2 : Mesh := ((insertPoint 100 60 flat1 1000 0 0).get (by decide +kernel)).1
/-- the third -/
def flat3 : Mesh := ((insertPoint 100 60 flat2 0 1000 0).get (by decide +kernel)).1
/-- the fourth -/
def flat4 : Mesh := ((insertPoint 100 60 flat3 0 (-1000) 0).get (by decide +kernel)).1

/-- the same points in another order -/
def tall1 : Mesh := ((insertPoint 100 60 sample0 0 1000 0).get (by decide +kernel)).1
/-- the second -/
def tall2 : Mesh := ((insertPoint 100 60 tall1 0 (-1000) 0).get (by decide +kernel)).1
/-- the third -/
def tall3 : Mesh := ((insertPoint 100 60 tall2 (-1000) 0 0).get (by decide +kernel)).1
/-- the fourth -/
def tall4 : Mesh := ((insertPoint 100 60 tall3 1000 0 0).get (by decide +kernel)).1

/-- C109.  With four points on an empty circle the order does matter. -/
theorem C109_condition_needed : ∃ l l' m m', Filled 100 l m ∧ Filled 100 l' m' ∧ l.Perm l' ∧ ¬ FacesOf m m' := by
  have flat1f : Filled 100 [(-1000, 0)] flat1 := by
    unfold flat1
    exact .point (.reset _) (get_pair _ _) (by decide +kernel)
  have flat2f : Filled 100 [(1000, 0), (-1000, 0)] flat2 := by
    unfold flat2
    exact .point flat1f (get_pair _ _) (by decide +kernel)
  have flat3f : Filled 100 [(0, 1000), (1000, 0), (-1000, 0)] flat3 := by
    unfold flat3
    exact .point flat2f (get_pair _ _) (by decide +kernel)
  have flat4f : Filled 100 [(0, -1000), (0, 1000), (1000, 0), (-1000, 0)] flat4 := by
    unfold flat4
    exact .point flat3f (get_pair _ _) (by decide +kernel)
  have tall1f : Filled 100 [(0, 1000)] tall1 := by
    unfold tall1
    exact .point (.reset _) (get_pair _ _) (by decide +kernel)
  have tall2f : Filled 100 [(0, -1000), (0, 1000)] tall2 := by
    unfold tall2
    exact .point tall1f (get_pair _ _) (by decide +kernel)
  have tall3f : Filled 100 [(-1000, 0), (0, -1000), (0, 1000)] tall3 := by
    unfold tall3
    exact .point tall2f (get_pair _ _) (by decide +kernel)
  have tall4f : Filled 100 [(1000, 0), (-1000, 0), (0, -1000), (0, 1000)] tall4 := by
    unfold tall4
    exact .point tall3f (get_pair _ _) (by decide +kernel)
  refine ⟨_, _, _, _, flat4f, tall4f, by decide +kernel, ?_⟩
  intro h
  obtain ⟨g, s, ⟨g0, g1⟩, hs, e⟩ := h 10 (by unfold Used; decide +kernel)
  have e0 := e 0 (by omega)
  have e1 := e 1 (by omega)
  have hz : tall4.size = 8 := by decide +kernel
  rw [hz] at g1
  have no : ∀ g < 16, 6 ≤ g → ∀ s < 3, ¬ (tall4.pos (tall4.corner g (0 + s)) = flat4.pos (flat4.corner 10 0) ∧
      tall4.pos (tall4.corner g (1 + s)) = flat4.pos (flat4.corner 10 1)) := by decide +kernel
  exact no g g1 g0 s hs ⟨e0, e1⟩

end CE.Cdt
