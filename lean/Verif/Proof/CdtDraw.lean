import Verif.Proof.CdtEndWalk
import Verif.Proof.CdtLegal
/-! `insert_edge` along an edge of the triangulation. -/
namespace CE.Cdt

open CE.Vec

variable {m m' : Mesh} {px py qx qy : Int} {find : Finder} {limit : Nat}

/-- the mesh with edge `i` and its twin constrained -/
def Mesh.mark (m : Mesh) (i : Nat) : Mesh := (m.setC (m.e i) 1).setC i 1

theorem mark_c (m : Mesh) (i j : Nat) : (m.mark i).c j = if j = i ∨ j = m.e i then 1 else m.c j := con_c m i j

theorem Legal.mark (L : Legal m) (i : Nat) : Legal (m.mark i) := by
  intro j hj hc
  rw [mark_c] at hc
  split at hc
  · simp at hc
  · exact L j hj hc

/-- in a mesh with nothing to flip, nothing is flipped -/
theorem flip_still (h : Inv m) (L : Legal m) {a} (ha : a < 24 ∧ a % 4 ≠ 3 ∨ IsE m.size a) (k : Nat) : flip (k + 1) m a = some m := by
  rw [flip]
  rcases ha with ⟨a1, a2⟩ | ha
  · rw [if_neg a2, if_pos (by rw [(h.low a a1 a2).1]; decide)]
  rw [if_neg (by unfold IsE at ha; omega)]
  by_cases hc : m.c a = 0
  · obtain ⟨t1, t2, -⟩ := h.tw a ha (h.free ha hc)
    rw [if_neg (by omega)]
    simp only [(edge_iff _ _).2 ha, (edge_iff _ _).2 t1, t2, beq_self_eq_true, Bool.and_self, if_true]
    rw [if_neg]
    rw [incircle_iff h ha (h.pl _ t1)]
    have := L a ha hc
    unfold Mesh.det at this
    omega
  · rw [if_pos hc]

theorem constrain_still (h : Inv m) (L : Legal m) {i} (hi : IsE m.size i) (k : Nat) : constrainEdge (k + 1) m i = some (m.mark i) := by
  have h0 : Inv (m.mark i) := con_inv h hi
  have L0 := L.mark i
  unfold constrainEdge
  rw [if_pos ((edge_iff _ _).2 hi)]
  have st : ∀ {a}, (a < 24 ∧ a % 4 ≠ 3 ∨ IsE m.size a) → flip (k + 1) ((m.setC (m.e i) 1).setC i 1) a = some (m.mark i) :=
    fun {a} ha => flip_still h0 L0 ha k
  have tw : m.e i = 0 ∨ IsE m.size (m.e i) := h.twin hi
  simp only [Option.bind_eq_bind]
  rw [st (.inr hi.nx.nx)]
  simp only [Option.bind_some]
  rw [flip_still h0 L0 (.inr hi.nx.nx.nx) k]
  simp only [Option.bind_some]
  rw [flip_still h0 L0 (a := nx (nx ((m.mark i).e i))) ?_ k]
  · simp only [Option.bind_some]
    rw [flip_still h0 L0 ?_ k]
    rcases tw with t | t
    · left; show nx (nx (nx (m.e i))) < 24 ∧ nx (nx (nx (m.e i))) % 4 ≠ 3; rw [t]; decide
    · right; exact t.nx.nx.nx
  · rcases tw with t | t
    · left; show nx (nx (m.e i)) < 24 ∧ nx (nx (m.e i)) % 4 ≠ 3; rw [t]; decide
    · right; exact t.nx.nx

/-- near the vertex of a corner, in a direction within it, one is inside the face -/
theorem Sound.into (g : Sound m) {i} (hi : IsE m.size i) {q w : V2} (F : m.Faces (m.x (m.p i)) (m.y (m.p i)) q i)
    (hw : (m.x (m.p (pv i)) - m.x (m.p i)) * q.y - (m.y (m.p (pv i)) - m.y (m.p i)) * q.x = 0 →
      0 < (m.x (m.p (pv i)) - m.x (m.p i)) * w.y - (m.y (m.p (pv i)) - m.y (m.p i)) * w.x) :
    Eventually fun ε δ => m.InOpen (m.x (m.p i) + ε * q.x + δ * w.x) (m.y (m.p i) + ε * q.y + δ * w.y) i := by
  have cw := g.inv.cw _ hi
  obtain ⟨a, b⟩ := F
  unfold Mesh.cr at cw
  unfold Mesh.InOpen Mesh.crQ
  generalize m.x (m.p i) = X at *
  generalize m.y (m.p i) = Y at *
  generalize m.x (m.p (nx i)) = x1 at *
  generalize m.y (m.p (nx i)) = y1 at *
  generalize m.x (m.p (pv i)) = x2 at *
  generalize m.y (m.p (pv i)) = y2 at *
  have a' : ((x1 : ℚ) - X) * q.y - (y1 - Y) * q.x < 0 := by exact_mod_cast a
  have cw' : ((x1 : ℚ) - X) * (y2 - Y) - (y1 - Y) * (x2 - X) < 0 := by exact_mod_cast cw
  have lex : ∀ {A B : ℚ}, (A < 0 ∨ A = 0 ∧ B < 0) → Eventually fun ε δ => ε * A + δ * B < 0 := by
    rintro A B (h | ⟨rfl, h⟩)
    · refine ⟨1, one_pos, fun ε h0 _ => near (mul_neg_of_pos_of_neg h0 h) B⟩
    · refine ⟨1, one_pos, fun ε _ _ => ⟨1, one_pos, fun δ h0 _ => ?_⟩⟩
      have := mul_neg_of_pos_of_neg h0 h
      linarith
  have e1 := lex (A := ((x1 : ℚ) - X) * q.y - (y1 - Y) * q.x) (B := ((x1 : ℚ) - X) * w.y - (y1 - Y) * w.x) (.inl a')
  have e2 := ev_neg cw' (-(((x1 : ℚ) - X) * q.y - (y1 - Y) * q.x) + (((x2 : ℚ) - X) * q.y - (y2 - Y) * q.x))
    (-(((x1 : ℚ) - X) * w.y - (y1 - Y) * w.x) + (((x2 : ℚ) - X) * w.y - (y2 - Y) * w.x))
  have e3 := lex (A := -(((x2 : ℚ) - X) * q.y - (y2 - Y) * q.x)) (B := -(((x2 : ℚ) - X) * w.y - (y2 - Y) * w.x)) (by
    rcases lt_or_eq_of_le b with b | b
    · left
      have : (0 : ℚ) < ((x2 : ℚ) - X) * q.y - (y2 - Y) * q.x := by exact_mod_cast b
      linarith
    · right
      have h1 : ((x2 : ℚ) - X) * q.y - (y2 - Y) * q.x = 0 := by exact_mod_cast b.symm
      have h2 : (0 : ℚ) < ((x2 : ℚ) - X) * w.y - (y2 - Y) * w.x := by exact_mod_cast hw b.symm
      exact ⟨by linarith, by linarith⟩)
  refine (e1.and (e2.and e3)).mono fun ε δ h => ⟨?_, ?_, ?_⟩
  · have := h.1; linarith
  · have := h.2.1; linarith
  · have := h.2.2; linarith

/-- the corner at a vertex that looks towards another one, to which it is joined, ends with the edge between them -/
theorem Sound.faces_one (g : Sound m) {i j} (hi : IsE m.size i) (hj : IsE m.size j) (e : m.p i = m.p j) {q : V2}
    (Fi : m.Faces (m.x (m.p i)) (m.y (m.p i)) q i) (Fj : m.Faces (m.x (m.p j)) (m.y (m.p j)) q j) : i = j := by
  have ci := g.inv.cw _ hi
  have cj := g.inv.cw _ hj
  unfold Mesh.cr at ci cj
  have aj := Fj.1
  have ai := Fi.1
  have oj := g.into hj (w := ⟨m.x (m.p (nx j)) - m.x (m.p j), m.y (m.p (nx j)) - m.y (m.p j)⟩) Fj (fun _ => by simp only; linarith)
  have oi := g.into hi (w := ⟨m.x (m.p (nx j)) - m.x (m.p j), m.y (m.p (nx j)) - m.y (m.p j)⟩) Fi (fun hz => by
    simp only
    rw [← e] at aj ⊢
    by_contra hn
    push Not at hn
    have id : ((m.x (m.p (nx i)) - m.x (m.p i)) * (m.y (m.p (pv i)) - m.y (m.p i)) - (m.y (m.p (nx i)) - m.y (m.p i)) * (m.x (m.p (pv i)) - m.x (m.p i))) *
        -((m.x (m.p (nx j)) - m.x (m.p i)) * q.y - (m.y (m.p (nx j)) - m.y (m.p i)) * q.x) =
        ((m.x (m.p (nx i)) - m.x (m.p i)) * q.y - (m.y (m.p (nx i)) - m.y (m.p i)) * q.x) *
        ((m.x (m.p (pv i)) - m.x (m.p i)) * (m.y (m.p (nx j)) - m.y (m.p i)) - (m.y (m.p (pv i)) - m.y (m.p i)) * (m.x (m.p (nx j)) - m.x (m.p i))) := by
      linear_combination -((m.x (m.p (nx i)) - m.x (m.p i)) * (m.y (m.p (nx j)) - m.y (m.p i)) - (m.y (m.p (nx i)) - m.y (m.p i)) * (m.x (m.p (nx j)) - m.x (m.p i))) * hz
    have h1 := mul_nonneg_of_nonpos_of_nonpos ai.le hn
    have h2 := mul_neg_of_neg_of_pos ci (neg_pos.2 aj)
    linarith)
  rw [← e] at oj oi
  obtain ⟨ε, δ, h1, h2⟩ := (oi.and oj).exists
  have f := planar g.inv g.rim hi hj h1 h2
  rcases hi.face hj f with c | c | c
  · exact c.symm
  · rw [c] at e; exact absurd e (g.inv.ne1 hi)
  · rw [c] at e; exact absurd e (g.inv.ne2 hi)

/-- joined vertices, one of them inside the square -/
theorem Sound.spoke (g : Sound m) {j u v} (hj : IsE m.size j) (h4 : 4 ≤ u)
    (h : m.p (nx j) = u ∧ m.p (pv j) = v ∨ m.p (nx j) = v ∧ m.p (pv j) = u) :
    ∃ i, IsE m.size i ∧ m.p i = u ∧ m.p (pv i) = v ∧ m.e (nx i) ≠ 0 ∧ (nx i = j ∨ nx i = m.e j) := by
  have key : ∀ {i}, IsE m.size i → m.p i = u → m.e (nx i) ≠ 0 := by
    intro i hi hp e
    have := g.rim.mem (nx i) ⟨hi.nx, e⟩
    unfold Mesh.ends at this
    rw [hi.nx_nx, hi.pv_nx] at this
    simp only [sides, List.mem_cons, Prod.mk.injEq, List.not_mem_nil, or_false] at this
    omega
  rcases h with ⟨h1, h2⟩ | ⟨h1, h2⟩
  · have ej : m.e j ≠ 0 := by
      have := g.closed hj.nx (by rw [h1]; exact h4)
      rwa [hj.pv_nx] at this
    obtain ⟨t1, t2, -, t4, t5⟩ := g.inv.tw j hj ej
    have e1 : m.p (pv (m.e j)) = u := by rw [t5, h1]
    refine ⟨pv (m.e j), t1.pv, e1, by rw [t1.pv_pv, t4, h2], key t1.pv e1, .inr ?_⟩
    rw [t1.nx_pv]
  · refine ⟨pv j, hj.pv, h2, by rw [hj.pv_pv, h1], key hj.pv h2, .inl hj.nx_pv⟩

/-- a search from a face that has the vertex ends at once -/
theorem walking_here (g : Sound m) {i u x y} (hu : Pos m u x y) (hi : IsE m.size i) (hp : m.p i = u) {hint} (hf : hint / 4 = i / 4) :
    walking m x y hint = some (i / 4 * 4) := by
  obtain ⟨h1, rfl, rfl⟩ := hu
  have B := Cdt.base hi.base (by omega)
  have own := (inFace_iff (m := m) B).2 (InClosed.base hi (hp ▸ g.own hi))
  unfold Mesh.inFace at own
  simp only [Bool.and_eq_true] at own
  obtain ⟨⟨o1, o2⟩, o3⟩ := own
  have hh : ¬ (hint < 24 ∨ hint ≥ m.size * 8) := by unfold IsE at hi; omega
  apply walking_of (k := 1)
  unfold locateIns
  simp only [if_neg hh]
  rw [hf]
  unfold walkFrom
  simp only [Option.bind_eq_bind, Option.bind_some]
  rw [if_pos o2, walk, if_neg B.i0.pos]
  simp only [Option.bind_eq_bind, Option.bind_some, o1, o3, Bool.and_self, if_true]

/-- inserting a vertex again -/
theorem insertAt_vertex (g : Sound m) {i u n} (hu : Pos m u px py) (hi : IsE m.size i) (hp : m.p i = u) (hf : n / 4 = i / 4) (limit k : Nat) :
    insertAt limit k m px py n = some (m, i / 4 * 4) := by
  obtain ⟨h1, rfl, rfl⟩ := hu
  have B := Cdt.base hi.base (by omega)
  have hin := InClosed.base hi (hp ▸ g.own hi)
  have ce := code_eq (m := m) (px := m.x u) (py := m.y u) B
  have cw := g.inv.cw _ B.i0
  have n0 : n ≠ 0 := by unfold IsE at hi; omega
  have hc : m.code (m.x u) (m.y u) (i / 4 * 4) = 1 ∨ m.code (m.x u) (m.y u) (i / 4 * 4) = 2 ∨ m.code (m.x u) (m.y u) (i / 4 * 4) = 4 := by
    rw [ce]
    have c : ∀ a b, m.crP (m.x u) (m.y u) a b = m.cr u a b := fun a b => rfl
    simp only [c]
    rcases B.i0.face hi (by omega) with e | e | e
    · left
      have : m.p (i / 4 * 4) = u := by rw [← e, hp]
      rw [this] at cw ⊢
      rw [cr_aab, cr_aba]
      simp [cw]
    · right; left
      have : m.p (nx (i / 4 * 4)) = u := by rw [← e, hp]
      rw [this] at cw ⊢
      rw [cr_aab, cr_aba]
      rw [cr_rot] at cw
      simp [cw]
    · right; right
      have : m.p (pv (i / 4 * 4)) = u := by rw [← e, hp]
      rw [this] at cw ⊢
      rw [cr_aab, cr_aba]
      rw [cr_rot'] at cw
      simp [cw]
  unfold insertAt
  rw [if_neg n0]
  simp only [hf, (edge_iff _ _).2 B.i0, (inFace_iff B).2 hin, Bool.and_self, not_true_eq_false, if_false]
  rw [if_neg (by omega), if_pos hc]

/-- the loop of `insert_edge` towards a vertex that is joined to the one it starts from -/
theorem loop_joined (g : Sound m) (L : Legal m) {i v pn0 n} (hi : IsE m.size i) (hu : Pos m (m.p i) px py) (h4 : 4 ≤ m.p i) (hv : m.p (pv i) = v)
    (hq : Pos m v qx qy) (hf : find (m.mark (nx i)) qx qy (m.e (nx i)) = some n) {j} (hj : IsE m.size j) (hjf : j / 4 = pn0 / 4) (hju : m.p j = m.p i) :
    Ends (fun k => edgeLoopBy find limit k m px py qx qy pn0) (.done (m.mark (nx i)) true) := by
  have hpq : ¬ (px = qx ∧ py = qy) := by
    rintro ⟨rfl, rfl⟩
    exact g.inv.ne2 hi ((g.same hu hq).trans hv.symm)
  obtain ⟨hu1, rfl, rfl⟩ := hu
  obtain ⟨hv1, rfl, rfl⟩ := hq
  have cw := g.inv.cw _ hi
  unfold Mesh.cr at cw
  have Fi : m.Faces (m.x (m.p i)) (m.y (m.p i)) ⟨m.x v - m.x (m.p i), m.y v - m.y (m.p i)⟩ i := by
    unfold Mesh.Faces; rw [hv] at *; simp only; constructor <;> linarith
  have bi : (m.x (m.p (pv i)) - m.x (m.p i)) * (m.y v - m.y (m.p i)) - (m.y (m.p (pv i)) - m.y (m.p i)) * (m.x v - m.x (m.p i)) = 0 := by
    rw [hv]; ring
  have ex : m.x (m.p i) + (m.x v - m.x (m.p i)) = m.x v := by ring
  have ey : m.y (m.p i) + (m.y v - m.y (m.p i)) = m.y v := by ring
  -- at the corner
  have last : ∀ pn, Ends (fun k => cornerBy find limit k m (m.x (m.p i)) (m.y (m.p i)) ⟨m.x v - m.x (m.p i), m.y v - m.y (m.p i)⟩ i pn)
      (.done (m.mark (nx i)) true) := by
    intro pn
    refine ((Ends.const (Run.done (m.mark (nx i)) true)).succ (f := fun k => edgeLoopBy find limit k (m.mark (nx i)) (m.x v) (m.y v) (m.x v) (m.y v) n)
      ⟨0, fun k _ => ?_⟩).succ ⟨1, fun k hk => ?_⟩
    · rw [edgeLoopBy]; simp only; rw [if_pos (by rw [V2.mk.injEq]; omega)]
    · obtain ⟨k, rfl⟩ : ∃ k', k = k' + 1 := ⟨k - 1, by omega⟩
      rw [cornerBy]
      simp only
      rw [if_pos ⟨Fi.1, bi.ge⟩, if_pos bi]
      have e2 : (m.mark (nx i)).e (nx i) = m.e (nx i) := rfl
      simp only [constrain_still g.inv L hi.nx, e2, hv, ex, ey, hf]
  -- turning
  have turn : ∀ n j pn, IsE m.size j → m.p j = m.p i → j / 4 = pn / 4 →
      m.Faces (m.x (m.p i)) (m.y (m.p i)) ⟨m.x v - m.x (m.p i), m.y v - m.y (m.p i)⟩ (m.turn^[n] j) →
      Ends (fun k => edgeLoopBy find limit k m (m.x (m.p i)) (m.y (m.p i)) (m.x v) (m.y v) pn) (.done (m.mark (nx i)) true) := by
    intro n
    induction n with
    | zero =>
      intro j pn hj hp hfj Fj
      obtain rfl : j = i := g.faces_one hj hi hp (by rw [hp]; exact Fj) Fi
      exact (last pn).succ ⟨0, fun k _ => loop_corner g ⟨hu1, rfl, rfl⟩ hj hfj rfl hpq k⟩
    | succ n ih =>
      intro j pn hj hp hfj Fj
      by_cases Fj0 : m.Faces (m.x (m.p i)) (m.y (m.p i)) ⟨m.x v - m.x (m.p i), m.y v - m.y (m.p i)⟩ j
      · obtain rfl : j = i := g.faces_one hj hi hp (by rw [hp]; exact Fj0) Fi
        exact (last pn).succ ⟨0, fun k _ => loop_corner g ⟨hu1, rfl, rfl⟩ hj hfj rfl hpq k⟩
      · have T := g.turn_spec hj (by rw [hp]; exact h4)
        have next := ih (m.turn j) (m.e (pv j)) T.1 (T.2.1.trans hp) T.2.2.2.2 (by rw [← Function.iterate_succ_apply]; exact Fj)
        refine (next.succ (f := fun k => cornerBy find limit k m (m.x (m.p i)) (m.y (m.p i)) ⟨m.x v - m.x (m.p i), m.y v - m.y (m.p i)⟩ j pn)
          ⟨0, fun k _ => ?_⟩).succ ⟨0, fun k _ => loop_corner g ⟨hu1, rfl, rfl⟩ hj hfj hp hpq k⟩
        rw [cornerBy]
        simp only
        rw [if_neg (fun h => Fj0 ⟨h.1, h.2⟩), ex, ey]
  obtain ⟨n, hn⟩ := g.faces hj (by rw [hju]; exact h4) ⟨m.x v - m.x (m.p i), m.y v - m.y (m.p i)⟩ (by
    rw [Ne, V2.mk.injEq]; intro h; exact hpq (by omega))
  rw [hju] at hn
  exact turn n j pn0 hj hju hjf hn

/-- `insert_edge` between joined vertices -/
theorem edge_joined (hr : Right find) (g : Sound m) (L : Legal m) {i hint n n1 n2 n3} (hi : IsE m.size i) (h4 : 4 ≤ m.p i)
    (hu : Pos m (m.p i) px py) (hq : Pos m (m.p (pv i)) qx qy) (f1 : find m px py hint = some n1) (f2 : find m qx qy (n1 / 4 * 4) = some n2)
    (f3 : find m px py (n1 / 4 * 4) = some n3) (hf : find (m.mark (nx i)) qx qy (m.e (nx i)) = some n) :
    Ends (fun k => insertEdgeBy find limit k m px py qx qy hint) (.done (m.mark (nx i)) true) := by
  have hpq : ¬ (px = qx ∧ py = qy) := by
    rintro ⟨rfl, rfl⟩
    exact g.inv.ne2 hi (g.same hu hq)
  obtain ⟨i1, j1, hj1, e1, p1⟩ := hr.vertex g hu f1
  obtain ⟨i2, j2, hj2, e2, p2⟩ := hr.vertex g hq f2
  obtain ⟨i3, j3, hj3, e3, p3⟩ := hr.vertex g hu f3
  refine (loop_joined (limit := limit) g L hi hu h4 rfl hq hf hj3 e3 p3).succ ⟨0, fun k _ => ?_⟩
  rw [insertEdgeBy]
  simp only [f1, insertAt_vertex g hu hj1 p1 e1.symm limit k]
  rw [if_neg hj1.base.pos, if_neg hpq, e1]
  simp only [f2, insertAt_vertex g hq hj2 p2 e2.symm limit k]
  rw [if_neg hj2.base.pos]
  simp only [f3]

end CE.Cdt
