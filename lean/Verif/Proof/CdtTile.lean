import Verif.Proof.CdtOps
import Verif.Proof.CdtFill
import Verif.Props.Mesh
/-! The faces of a mesh cover the square once. -/
namespace CE.Cdt

open CE.Vec

variable {m m' : Mesh}

/-- a vertex in the user's coordinates -/
def Mesh.pt (m : Mesh) (w : Int) (v : Nat) : V2 := ⟨m.x v * w, m.y v * w⟩

/-- the triangle of a face -/
def Mesh.tri (m : Mesh) (w : Int) (f : Nat) : Tri := ⟨m.pt w (m.p (4 * f)), m.pt w (m.p (4 * f + 1)), m.pt w (m.p (4 * f + 2))⟩

/-- the triangles of all the faces -/
def Mesh.tris (m : Mesh) (w : Int) : List Tri := (List.range' 6 (2 * m.size - 6)).map (m.tri w)

/-- the edges in use -/
def Mesh.es (m : Mesh) : Finset Nat := (Finset.Ico 6 (2 * m.size)).biUnion fun f => {4 * f, 4 * f + 1, 4 * f + 2}

theorem mem_es {i} : i ∈ m.es ↔ IsE m.size i := by
  unfold Mesh.es IsE
  simp only [Finset.mem_biUnion, Finset.mem_Ico, Finset.mem_insert, Finset.mem_singleton]
  constructor
  · rintro ⟨f, h1, h2⟩; omega
  · intro h; exact ⟨i / 4, by omega, by omega⟩

/-- the ends of an edge as points -/
def Mesh.seg (m : Mesh) (w : Int) (i : Nat) : V2 × V2 := (m.pt w (m.p (nx i)), m.pt w (m.p (pv i)))

theorem es_sum {β : Type} [AddCommMonoid β] (g : Nat → β) :
    ∑ i ∈ m.es, g i = ∑ f ∈ Finset.Ico 6 (2 * m.size), (g (4 * f) + g (4 * f + 1) + g (4 * f + 2)) := by
  unfold Mesh.es
  rw [Finset.sum_biUnion]
  · apply Finset.sum_congr rfl
    intro f _
    rw [Finset.sum_insert, Finset.sum_insert, Finset.sum_singleton, add_assoc]
    · simp
    · simp
  · intro f _ g _ hfg
    rw [Function.onFun, Finset.disjoint_left]
    intro i h1 h2
    simp only [Finset.mem_insert, Finset.mem_singleton] at h1 h2
    omega

theorem sum_singletons {α : Type} (s : Finset Nat) (g : Nat → α) : ∑ i ∈ s, ({g i} : Multiset α) = s.val.map g := by
  rw [Finset.sum, show (s.val.map fun i => ({g i} : Multiset α)) = (s.val.map g).map (fun a => {a}) by rw [Multiset.map_map]; rfl,
    Multiset.sum_map_singleton]

theorem flat_eq (l : List Nat) (g : Nat → List (V2 × V2)) :
    ((l.flatMap g : List _) : Multiset (V2 × V2)) = (l.map fun f => ((g f : List _) : Multiset (V2 × V2))).sum := by
  induction l with
  | nil => rfl
  | cons a l ih => rw [List.flatMap_cons, List.map_cons, List.sum_cons, ← ih, Multiset.coe_add]

theorem edges_all (h : Inv m) (w : Int) : (((m.tris w).flatMap Tri.edges : List _) : Multiset (V2 × V2)) = m.es.val.map (m.seg w) := by
  rw [← sum_singletons, es_sum]
  unfold Mesh.tris
  rw [List.flatMap_map, flat_eq]
  have : ∀ f ∈ Finset.Ico 6 (2 * m.size), ({m.seg w (4 * f)} + {m.seg w (4 * f + 1)} + {m.seg w (4 * f + 2)} : Multiset (V2 × V2)) =
      (((m.tri w f).edges : List _) : Multiset (V2 × V2)) := by
    intro f hf
    have B := base (isE_face hf) (by omega)
    unfold Mesh.seg Tri.edges Mesh.tri
    rw [B.n0, B.n1, B.n2, B.p0, B.p1, B.p2]
    simp only [← Multiset.coe_singleton, Multiset.coe_add]
    rw [Multiset.coe_eq_coe]
    exact (List.perm_append_comm (l₁ := [_, _]) (l₂ := [_]))
  rw [Finset.sum_congr rfl this]
  have e : (Finset.Ico 6 (2 * m.size)) = ⟨((List.range' 6 (2 * m.size - 6) : List Nat) : Multiset Nat), List.nodup_range'⟩ := rfl
  rw [e, Finset.sum]
  simp

/-- the edges with a twin occur in both directions -/
theorem inner_swap (h : Inv m) (w : Int) :
    ((m.es.filter fun i => m.e i ≠ 0).val.map (m.seg w)).map Prod.swap = (m.es.filter fun i => m.e i ≠ 0).val.map (m.seg w) := by
  set E := m.es.filter fun i => m.e i ≠ 0 with hE
  have hm : ∀ i ∈ E, IsE m.size i ∧ m.e i ≠ 0 := fun i hi => by rw [hE, Finset.mem_filter, mem_es] at hi; exact hi
  have hm' : ∀ i ∈ E, m.e i ∈ E := fun i hi => by
    obtain ⟨h1, h2⟩ := hm i hi
    obtain ⟨t1, t2, -⟩ := h.tw i h1 h2
    rw [hE, Finset.mem_filter, mem_es, t2]
    exact ⟨t1, h1.pos⟩
  have inj : Set.InjOn m.e E := fun i hi j hj e => h.tw_inj (hm i hi).1 (hm j hj).1 (hm i hi).2 e
  have im : E.image m.e = E := by
    ext i
    rw [Finset.mem_image]
    constructor
    · rintro ⟨j, hj, rfl⟩; exact hm' j hj
    · intro hi
      exact ⟨m.e i, hm' i hi, (h.tw i (hm i hi).1 (hm i hi).2).2.1⟩
  have e1 : E.val.map m.e = E.val := by rw [← Finset.image_val_of_injOn inj, im]
  rw [Multiset.map_map]
  have : E.val.map (Prod.swap ∘ m.seg w) = E.val.map (m.seg w ∘ m.e) := by
    apply Multiset.map_congr rfl
    intro i hi
    obtain ⟨h1, h2⟩ := hm i hi
    obtain ⟨t1, t2, t3, t4, t5⟩ := h.tw i h1 h2
    unfold Mesh.seg
    simp only [Function.comp, Prod.swap, t4, t5]
  rw [this, ← Multiset.map_map, e1]

/-- the sides of the square -/
def square (w : Int) : Multiset (V2 × V2) :=
  {(⟨32767 * w, -32768 * w⟩, ⟨-32768 * w, -32768 * w⟩), (⟨-32768 * w, -32768 * w⟩, ⟨-32768 * w, 32767 * w⟩),
   (⟨-32768 * w, 32767 * w⟩, ⟨32767 * w, 32767 * w⟩), (⟨32767 * w, 32767 * w⟩, ⟨32767 * w, -32768 * w⟩)}

theorem seg_ends (m : Mesh) (w : Int) (i : Nat) : m.seg w i = (m.pt w (m.ends i).1, m.pt w (m.ends i).2) := rfl

theorem outer (R : Rim m) (w : Int) : (m.es.filter fun i => m.e i = 0).val.map (m.seg w) = square w := by
  obtain ⟨i1, b1, e1, u1⟩ := R.one (1, 0) (by decide)
  obtain ⟨i2, b2, e2, u2⟩ := R.one (0, 2) (by decide)
  obtain ⟨i3, b3, e3, u3⟩ := R.one (2, 3) (by decide)
  obtain ⟨i4, b4, e4, u4⟩ := R.one (3, 1) (by decide)
  have n12 : i1 ≠ i2 := fun e => by rw [e, e2] at e1; exact absurd e1 (by decide)
  have n13 : i1 ≠ i3 := fun e => by rw [e, e3] at e1; exact absurd e1 (by decide)
  have n14 : i1 ≠ i4 := fun e => by rw [e, e4] at e1; exact absurd e1 (by decide)
  have n23 : i2 ≠ i3 := fun e => by rw [e, e3] at e2; exact absurd e2 (by decide)
  have n24 : i2 ≠ i4 := fun e => by rw [e, e4] at e2; exact absurd e2 (by decide)
  have n34 : i3 ≠ i4 := fun e => by rw [e, e4] at e3; exact absurd e3 (by decide)
  have hE : (m.es.filter fun i => m.e i = 0) = {i1, i2, i3, i4} := by
    ext i
    rw [Finset.mem_filter, mem_es]
    simp only [Finset.mem_insert, Finset.mem_singleton]
    constructor
    · intro b
      have := R.mem i b
      unfold sides at this
      simp only [List.mem_cons, List.not_mem_nil, or_false] at this
      rcases this with s | s | s | s
      · exact Or.inl (u1 i b s)
      · exact Or.inr (Or.inl (u2 i b s))
      · exact Or.inr (Or.inr (Or.inl (u3 i b s)))
      · exact Or.inr (Or.inr (Or.inr (u4 i b s)))
    · rintro (rfl | rfl | rfl | rfl)
      exacts [b1, b2, b3, b4]
  have hv : ({i1, i2, i3, i4} : Finset Nat).val = {i1, i2, i3, i4} := by
    rw [Finset.insert_val_of_notMem, Finset.insert_val_of_notMem, Finset.insert_val_of_notMem]
    · rfl
    · simpa using n34
    · simp [n23, n24]
    · simp [n12, n13, n14]
  rw [hE, hv]
  simp only [Multiset.insert_eq_cons, Multiset.map_cons, Multiset.map_singleton, seg_ends, e1, e2, e3, e4]
  unfold square Mesh.pt
  rw [R.xy0.1, R.xy0.2, R.xy1.1, R.xy1.2, R.xy2.1, R.xy2.2, R.xy3.1, R.xy3.2]
  rfl

/-- the boundary of the faces is the square -/
theorem tris_boundary (h : Inv m) (R : Rim m) (w : Int) : IsBoundary (m.tris w) (square w) := by
  refine ⟨_, inner_swap h w, ?_⟩
  rw [edges_all h w, ← outer R w, ← Multiset.map_add]
  congr 1
  rw [Finset.filter_val, Finset.filter_val]
  exact (Multiset.filter_add_not _ _).symm

theorem mem_tris {w T} : T ∈ m.tris w ↔ ∃ f, IsF m.size f ∧ T = m.tri w f := by
  unfold Mesh.tris IsF
  simp only [List.mem_map, List.mem_range'_1]
  constructor
  · rintro ⟨f, h1, h2⟩; exact ⟨f, by omega, h2.symm⟩
  · rintro ⟨f, h1, h2⟩; exact ⟨f, by omega, h2.symm⟩

theorem tris_clockwise (h : Inv m) {w : Int} (hw : 0 < w) : ∀ T ∈ m.tris w, T.Clockwise := by
  intro T hT
  obtain ⟨f, hf, rfl⟩ := mem_tris.1 hT
  have B := base hf.edges.1 (by omega)
  have c := h.cw _ hf.edges.1
  rw [B.n0, B.p0] at c
  unfold Mesh.cr at c
  unfold Tri.Clockwise Mesh.tri Mesh.pt
  simp only
  nlinarith [mul_pos hw hw]

/-! ### how many faces claim a point -/

/-- whether a triangle claims the point -/
def claims (p : V2) (T : Tri) : Bool := inTriangle p T.a T.b T.c == some true

/-- the differences to the point fit -/
def Fits (p q : V2) : Prop := Is32 (q.x - p.x) ∧ Is32 (q.y - p.y)

theorem inTriangle_fits {p a b c : V2} (ha : Fits p a) (hb : Fits p b) (hc : Fits p c) : ∃ r, inTriangle p a b c = some r := by
  unfold inTriangle
  rw [i32_iff.2 ⟨rfl, ha.1⟩, i32_iff.2 ⟨rfl, ha.2⟩, i32_iff.2 ⟨rfl, hb.1⟩, i32_iff.2 ⟨rfl, hb.2⟩, i32_iff.2 ⟨rfl, hc.1⟩,
    i32_iff.2 ⟨rfl, hc.2⟩]
  obtain ⟨r1, e1⟩ := C43_defined ⟨a.x - p.x, a.y - p.y⟩ ⟨b.x - p.x, b.y - p.y⟩ ha.1 ha.2 hb.1 hb.2
  obtain ⟨r2, e2⟩ := C43_defined ⟨b.x - p.x, b.y - p.y⟩ ⟨c.x - p.x, c.y - p.y⟩ hb.1 hb.2 hc.1 hc.2
  obtain ⟨r3, e3⟩ := C43_defined ⟨c.x - p.x, c.y - p.y⟩ ⟨a.x - p.x, a.y - p.y⟩ hc.1 hc.2 ha.1 ha.2
  simp only [Option.bind_eq_bind, Option.bind_some, e1, e2, e3]
  exact ⟨_, rfl⟩

theorem claims_eq {p : V2} {T : Tri} (h : ∃ r, inTriangle p T.a T.b T.c = some r) : inTriangle p T.a T.b T.c = some (claims p T) := by
  obtain ⟨r, h⟩ := h
  unfold claims; rw [h]; cases r <;> rfl

/-- the two faces of the empty mesh -/
def pairOf (w : Int) : List Tri :=
  [⟨⟨-32768 * w, -32768 * w⟩, ⟨-32768 * w, 32767 * w⟩, ⟨32767 * w, -32768 * w⟩⟩,
   ⟨⟨32767 * w, 32767 * w⟩, ⟨32767 * w, -32768 * w⟩, ⟨-32768 * w, 32767 * w⟩⟩]

theorem two_boundary (w : Int) : IsBoundary (pairOf w) (square w) := by
  refine ⟨{(⟨-32768 * w, 32767 * w⟩, ⟨32767 * w, -32768 * w⟩), (⟨32767 * w, -32768 * w⟩, ⟨-32768 * w, 32767 * w⟩)}, ?_, ?_⟩
  · simp only [Multiset.insert_eq_cons, Multiset.map_cons, Multiset.map_singleton, Prod.swap]
    exact Multiset.cons_swap _ _ _
  · unfold pairOf square Tri.edges
    simp only [List.flatMap_cons, List.flatMap_nil, List.append_nil, Multiset.insert_eq_cons, ← Multiset.coe_singleton,
      Multiset.cons_coe, Multiset.coe_add, Multiset.coe_eq_coe, List.cons_append, List.nil_append]
    generalize (⟨-32768 * w, -32768 * w⟩ : V2) = v0
    generalize (⟨32767 * w, -32768 * w⟩ : V2) = v1
    generalize (⟨-32768 * w, 32767 * w⟩ : V2) = v2
    generalize (⟨32767 * w, 32767 * w⟩ : V2) = v3
    -- [02, 21, 10, 31, 12, 23] ~ [10, 02, 23, 31, 21, 12]
    have : ∀ a b c d e f : V2 × V2, [a, b, c, d, e, f].Perm [c, a, f, d, b, e] := by
      intro a b c d e f
      rw [← Multiset.coe_eq_coe]
      have g : ∀ x : V2 × V2, ∀ l : List (V2 × V2), ((x :: l : List _) : Multiset _) = {x} + (l : Multiset _) := fun x l => rfl
      simp only [g]
      abel
    exact this _ _ _ _ _ _

theorem two_clockwise {w : Int} (hw : 0 < w) : ∀ T ∈ pairOf w, T.Clockwise := by
  intro T hT
  unfold pairOf at hT
  simp only [List.mem_cons, List.not_mem_nil, or_false] at hT
  rcases hT with rfl | rfl <;> (unfold Tri.Clockwise; simp only; nlinarith [mul_pos hw hw])

/-- the half-open square -/
def InSquare (w : Int) (p : V2) : Prop := (-32768 * w < p.x ∧ p.x ≤ 32767 * w) ∧ (-32768 * w < p.y ∧ p.y ≤ 32767 * w)

instance (w : Int) (p : V2) : Decidable (InSquare w p) := by unfold InSquare; infer_instance

/-- sides of a displaced point with respect to the sides of the square -/
theorem square_sides {w : Int} (hw : 0 < w) (x y : ℚ) :
    (side x y (⟨-32768 * w, -32768 * w⟩, ⟨-32768 * w, 32767 * w⟩) < 0 ↔ ((-32768 * w : ℤ) : ℚ) < x) ∧
    (side x y (⟨32767 * w, -32768 * w⟩, ⟨-32768 * w, -32768 * w⟩) < 0 ↔ ((-32768 * w : ℤ) : ℚ) < y) ∧
    (side x y (⟨32767 * w, 32767 * w⟩, ⟨32767 * w, -32768 * w⟩) < 0 ↔ x < ((32767 * w : ℤ) : ℚ)) ∧
    (side x y (⟨-32768 * w, 32767 * w⟩, ⟨32767 * w, 32767 * w⟩) < 0 ↔ y < ((32767 * w : ℤ) : ℚ)) ∧
    (side x y (⟨-32768 * w, 32767 * w⟩, ⟨32767 * w, -32768 * w⟩) < 0 ↔ x + y < ((-w : ℤ) : ℚ)) := by
  have hq : (0 : ℚ) < w := by exact_mod_cast hw
  unfold side crossQ
  push_cast
  refine ⟨?_, ?_, ?_, ?_, ?_⟩ <;> constructor <;> intro h <;> nlinarith

theorem two_interior {w : Int} (hw : 0 < w) (x y : ℚ) (hd : side x y (⟨-32768 * w, 32767 * w⟩, ⟨32767 * w, -32768 * w⟩) ≠ 0) :
    (∃ T ∈ pairOf w, T.Interior x y) ↔ (((-32768 * w : ℤ) : ℚ) < x ∧ x < ((32767 * w : ℤ) : ℚ)) ∧
      (((-32768 * w : ℤ) : ℚ) < y ∧ y < ((32767 * w : ℤ) : ℚ)) := by
  obtain ⟨s1, s2, s3, s4, s5⟩ := square_sides hw x y
  have s6 := side_swap x y ⟨-32768 * w, 32767 * w⟩ ⟨32767 * w, -32768 * w⟩
  unfold pairOf Tri.Interior Tri.edges
  simp only [List.mem_cons, List.not_mem_nil, or_false, exists_eq_or_imp, exists_eq_left, forall_eq_or_imp, forall_eq]
  rw [s1, s2, s3, s4, s5, s6]
  have hq : (0 : ℚ) < w := by exact_mod_cast hw
  have s7 : -side x y (⟨-32768 * w, 32767 * w⟩, ⟨32767 * w, -32768 * w⟩) < 0 ↔ ((-w : ℤ) : ℚ) < x + y := by
    rcases lt_or_gt_of_ne hd with h | h
    · have := s5.1 h; constructor
      · intro h'; linarith
      · intro h'; linarith
    · constructor
      · intro _
        have : ¬ x + y < ((-w : ℤ) : ℚ) := fun h' => by have := s5.2 h'; linarith
        refine lt_of_le_of_ne (not_lt.1 this) fun e => ?_
        have : side x y (⟨-32768 * w, 32767 * w⟩, ⟨32767 * w, -32768 * w⟩) = 0 := by
          unfold side crossQ; push_cast at e ⊢
          linear_combination (-65535 * (w : ℚ)) * e
        exact hd this
      · intro _; linarith
  rw [s7]
  push_cast
  constructor
  · rintro (⟨h1, h2, h3⟩ | ⟨h1, h2, h3⟩)
    · refine ⟨⟨h1, ?_⟩, h3, ?_⟩ <;> linarith
    · refine ⟨⟨?_, h1⟩, ?_, h3⟩ <;> linarith
  · rintro ⟨⟨h1, h2⟩, h3, h4⟩
    rcases lt_or_gt_of_ne hd with h | h
    · left; exact ⟨h1, by have := s5.1 h; push_cast at this; exact this, h3⟩
    · right; exact ⟨h2, by have := s7.1 (by linarith); push_cast at this; exact this, h4⟩

theorem two_planar {w : Int} : Planar (pairOf w) := by
  unfold pairOf Planar
  rw [List.pairwise_cons]
  refine ⟨?_, List.pairwise_singleton _ _⟩
  intro T hT x y
  rw [List.mem_singleton] at hT
  rw [hT]
  rintro ⟨h1, h2⟩
  have a := h1 (⟨-32768 * w, 32767 * w⟩, ⟨32767 * w, -32768 * w⟩) (by simp [Tri.edges])
  have b := h2 (⟨32767 * w, -32768 * w⟩, ⟨-32768 * w, 32767 * w⟩) (by simp [Tri.edges])
  rw [side_swap] at b
  linarith

/-- how many of the two faces of the empty mesh claim the point -/
theorem two_count {w : Int} (hw : 0 < w) {p : V2} (h : ∀ T ∈ pairOf w, ∃ r, inTriangle p T.a T.b T.c = some r) :
    (pairOf w).countP (claims p) = if InSquare w p then 1 else 0 := by
  have hT := fun T hT => claims_eq (h T hT)
  have le := C44_at_most_one p (pairOf w) (claims p) two_planar hT
  have e1 := Eventually.all (pairOf w) fun T hT' => (C44_displaced_interior p T _ (hT T hT')).and
    (edges_ne p T _ (two_clockwise hw T hT') (hT T hT'))
  obtain ⟨ε, δ, hE, he, he1, hd, hd1⟩ := (e1.and (Eventually.small 1 one_pos)).exists
  have hne := (hE _ (List.mem_cons_self ..)).2 (⟨-32768 * w, 32767 * w⟩, ⟨32767 * w, -32768 * w⟩) (by simp [Tri.edges])
  have iff := two_interior hw _ _ hne
  have c1 : ∀ n v : ℤ, ∀ ε : ℚ, 0 < ε → ε < 1 → ((n : ℚ) < v - ε ↔ n < v) := by
    intro n v ε h0 h1
    constructor
    · intro h; have : (n : ℚ) < v := by linarith
      exact_mod_cast this
    · intro h; have : (n : ℚ) + 1 ≤ v := by exact_mod_cast h
      linarith
  have c2 : ∀ n v : ℤ, ∀ ε : ℚ, 0 < ε → ε < 1 → ((v : ℚ) - ε < n ↔ v ≤ n) := by
    intro n v ε h0 h1
    constructor
    · intro h; have : (v : ℚ) < n + 1 := by linarith
      have : v < n + 1 := by exact_mod_cast this
      omega
    · intro h; have : (v : ℚ) ≤ n := by exact_mod_cast h
      linarith
  rw [c1 _ _ _ he he1, c2 _ _ _ he he1, c1 _ _ _ hd hd1, c2 _ _ _ hd hd1] at iff
  have ex : (∃ T ∈ pairOf w, claims p T = true) ↔ InSquare w p := by
    unfold InSquare
    rw [← iff]
    constructor
    · rintro ⟨T, h1, h2⟩; exact ⟨T, h1, (hE T h1).1.1 h2⟩
    · rintro ⟨T, h1, h2⟩; exact ⟨T, h1, (hE T h1).1.2 h2⟩
  rw [← List.countP_pos_iff] at ex
  split
  · rename_i hs; have := ex.2 hs; omega
  · rename_i hs; have := mt ex.1 hs; omega

/-- exactly one face claims a point of the square, and none any other point -/
theorem tris_count (h : Inv m) (R : Rim m) {w : Int} (hw : 0 < w) {p : V2} (hf : ∀ v, v < m.size → Fits p (m.pt w v)) :
    (m.tris w).countP (claims p) = if InSquare w p then 1 else 0 := by
  have hs := h.sz
  have f0 := hf 0 (by omega)
  have f1 := hf 1 (by omega)
  have f2 := hf 2 (by omega)
  have f3 := hf 3 (by omega)
  unfold Mesh.pt at f0 f1 f2 f3
  rw [R.xy0.1, R.xy0.2] at f0
  rw [R.xy1.1, R.xy1.2] at f1
  rw [R.xy2.1, R.xy2.2] at f2
  rw [R.xy3.1, R.xy3.2] at f3
  have ht : ∀ T ∈ pairOf w, ∃ r, inTriangle p T.a T.b T.c = some r := by
    intro T hT
    unfold pairOf at hT
    simp only [List.mem_cons, List.not_mem_nil, or_false] at hT
    rcases hT with rfl | rfl
    · exact inTriangle_fits f0 f2 f1
    · exact inTriangle_fits f3 f1 f2
  have hm : ∀ T ∈ m.tris w, ∃ r, inTriangle p T.a T.b T.c = some r := by
    intro T hT
    obtain ⟨f, i, rfl⟩ := mem_tris.1 hT
    exact inTriangle_fits (hf _ (h.pl _ i.edges.1)) (hf _ (h.pl _ i.edges.2.1)) (hf _ (h.pl _ i.edges.2.2))
  rw [← two_count hw ht]
  obtain ⟨ε, δ, e1, e2⟩ := ((C44_count_is_winding p (m.tris w) (claims p) (tris_clockwise h hw) (square w) (tris_boundary h R w)
    fun T hT => claims_eq (hm T hT)).and (C44_count_is_winding p (pairOf w) (claims p) (two_clockwise hw) (square w) (two_boundary w)
    fun T hT => claims_eq (ht T hT))).exists
  rw [e1] at e2
  have hp : (-2 * Real.pi : ℝ) ≠ 0 := by have := Real.pi_pos; intro hc; linarith
  have := mul_left_cancel₀ hp e2
  exact_mod_cast this

theorem countP_le_one {l : List Nat} (hl : l.Nodup) {q : Nat → Bool} (h : l.countP q ≤ 1) {a b : Nat} (ha : a ∈ l) (hb : b ∈ l)
    (qa : q a = true) (qb : q b = true) : a = b := by
  rw [List.countP_eq_length_filter] at h
  have ma : a ∈ l.filter q := List.mem_filter.2 ⟨ha, qa⟩
  have mb : b ∈ l.filter q := List.mem_filter.2 ⟨hb, qb⟩
  match hq : l.filter q with
  | [] => rw [hq] at ma; simp at ma
  | [x] => rw [hq, List.mem_singleton] at ma mb; rw [ma, mb]
  | x :: y :: t => rw [hq] at h; simp at h

theorem face_unique (h : Inv m) (R : Rim m) {w : Int} (hw : 0 < w) {p : V2} (hf : ∀ v, v < m.size → Fits p (m.pt w v)) {f g : Nat}
    (hF : IsF m.size f) (hG : IsF m.size g) (cf : claims p (m.tri w f) = true) (cg : claims p (m.tri w g) = true) : f = g := by
  have c := tris_count h R hw hf
  unfold Mesh.tris at c
  rw [List.countP_map] at c
  refine countP_le_one List.nodup_range' (q := claims p ∘ m.tri w) (by rw [c]; split <;> omega) ?_ ?_ cf cg
  · rw [List.mem_range'_1]; unfold IsF at hF; omega
  · rw [List.mem_range'_1]; unfold IsF at hG; omega

end CE.Cdt
