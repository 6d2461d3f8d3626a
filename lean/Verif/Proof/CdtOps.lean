import Verif.Proof.CdtSteps
/-! The operations are made of steps. -/
namespace CE.Cdt

open CE.Vec (V2)

variable {m m' : Mesh} {px py : Int}

/-- the new vertex is in the mesh -/
def HasV (m : Mesh) (px py : Int) : Prop := ∃ v, v < m.size ∧ m.x v = px ∧ m.y v = py

theorem HasV.steps (h : HasV m px py) (s : Steps m m') : HasV m' px py := by
  obtain ⟨v, h1, h2, h3⟩ := h
  obtain ⟨k1, k2⟩ := s.keep
  exact ⟨v, by omega, by rw [(k2 v h1).1, h2], by rw [(k2 v h1).2, h3]⟩

theorem Flips.isE {a} (F : Flips m m') (h : IsE m.size a) : IsE m'.size a := by rw [F.size.1]; exact h

theorem flips3 {k a b c} (h : Inv m) (ha : IsE m.size a) (hb : IsE m.size b) (hc : IsE m.size c)
    (hr : (((flip k m a).bind fun m' => flip k m' b).bind fun m' => flip k m' c) = some m') : Flips m m' := by
  simp only [Option.bind_eq_some_iff] at hr
  obtain ⟨m2, ⟨m1, e1, e2⟩, e3⟩ := hr
  have F1 := flip_flips h (Or.inl ha) e1
  have i1 := F1.inv h
  have F2 := flip_flips i1 (Or.inl (F1.isE hb)) e2
  have i2 := F2.inv i1
  exact (F1.trans F2).trans (flip_flips i2 (Or.inl (F2.isE (F1.isE hc))) e3)

theorem flips4 {k a b c d} (h : Inv m) (ha : IsE m.size a) (hb : IsE m.size b) (hc : IsE m.size c) (hd : IsE m.size d)
    (hr : ((((flip k m a).bind fun m' => flip k m' b).bind fun m' => flip k m' c).bind fun m' => flip k m' d) = some m') : Flips m m' := by
  rw [Option.bind_eq_some_iff] at hr
  obtain ⟨m3, e3, e4⟩ := hr
  have F := flips3 h ha hb hc e3
  exact F.trans (flip_flips (F.inv h) (Or.inl (F.isE hd)) e4)

theorem flips3_some {k : Nat} {m a b c} (h : Inv m) (ha : IsE m.size a) (hb : IsE m.size b) (hc : IsE m.size c) (hk : m.phi < k) :
    ∃ m', (((flip k m a).bind fun m' => flip k m' b).bind fun m' => flip k m' c) = some m' := by
  obtain ⟨m1, e1, i1, s1, p1⟩ := flip_fuel h (Or.inl ha) hk
  obtain ⟨m2, e2, i2, s2, p2⟩ := flip_fuel i1 (a := b) (Or.inl (by rw [s1]; exact hb)) (lt_of_le_of_lt p1 hk)
  obtain ⟨m3, e3, i3, s3, p3⟩ := flip_fuel i2 (a := c) (Or.inl (by rw [s2, s1]; exact hc)) (lt_of_le_of_lt (p2.trans p1) hk)
  exact ⟨m3, by rw [e1]; simp only [Option.bind_some]; rw [e2]; simp only [Option.bind_some]; exact e3⟩

theorem flips4_some {k : Nat} {m a b c d} (h : Inv m) (ha : IsE m.size a) (hb : IsE m.size b) (hc : IsE m.size c) (hd : IsE m.size d)
    (hk : m.phi < k) :
    ∃ m', ((((flip k m a).bind fun m' => flip k m' b).bind fun m' => flip k m' c).bind fun m' => flip k m' d) = some m' := by
  obtain ⟨m3, e3⟩ := flips3_some h ha hb hc hk
  have F := flips3 h ha hb hc e3
  obtain ⟨m4, e4, -⟩ := flip_fuel (F.inv h) (a := d) (Or.inl (F.isE hd)) (lt_of_le_of_lt F.phi hk)
  exact ⟨m4, by rw [e3]; exact e4⟩

/-- what an insertion returns -/
structure Inserted (m m' : Mesh) (px py : Int) (r : Nat) : Prop where
  steps : Steps m m'
  has : r ≠ 0 → HasV m' px py
  node : r ≠ 0 → IsE m'.size (r / 4 * 4)

theorem insertAt_spec (h : Inv m) {limit k n r} (hr : insertAt limit k m px py n = some (m', r)) : Inserted m m' px py r := by
  by_cases hn : n = 0
  · unfold insertAt at hr
    rw [if_pos hn] at hr
    simp only [Option.some.injEq, Prod.mk.injEq] at hr
    obtain ⟨rfl, rfl⟩ := hr
    exact ⟨.refl _, by simp, by simp⟩
  have hin : (m.edge (n / 4 * 4) && m.inFace px py (n / 4 * 4)) = true := by
    unfold insertAt at hr
    rw [if_neg hn] at hr
    simp only at hr
    by_contra hc
    rw [if_pos hc] at hr
    simp at hr
  rw [Bool.and_eq_true] at hin
  have hu := (edge_iff _ _).1 hin.1
  rw [insertAt_base _ _ _ _ _ _ hu] at hr
  have hu4 : n / 4 * 4 % 4 = 0 := by omega
  have B := base hu hu4
  have hc := (inFace_iff B).1 hin.2
  have fin : ∀ {i}, (i = n / 4 * 4 ∨ i = n / 4 * 4 + 1 ∨ i = n / 4 * 4 + 2 ∨ i = n / 4 * 4 + 3) → i / 4 * 4 = n / 4 * 4 := by
    intro i hi; omega
  obtain ⟨rx, ry⟩ := h.range hu hc
  cases insertAt_run h hu hu4 hc with
  | vert i hf hx hy run =>
    rw [run] at hr
    simp only [Option.some.injEq, Prod.mk.injEq] at hr
    obtain ⟨rfl, rfl⟩ := hr
    have hi : IsE m.size i := by rcases hf with rfl | rfl | rfl; exacts [B.i0, B.i1, B.i2]
    exact ⟨.refl _, fun _ => ⟨m.p i, h.pl _ hi, hx, hy⟩, fun _ => by rw [fin (Or.inl rfl)]; exact hu⟩
  | face h0 h1 h2 run =>
    rw [run] at hr
    split at hr
    · simp only [Option.some.injEq, Prod.mk.injEq] at hr
      obtain ⟨rfl, rfl⟩ := hr
      exact ⟨.refl _, by simp, by simp⟩
    · have S := splitFace_spec h px py hu hu4
      have hi := S.inv h hu hu4 rx ry h0 h1 h2
      have hz := S.size
      have hs := h.sz
      obtain ⟨j0, j1, j2, j4, j5, j6⟩ := newIs (n := m.size) (by omega)
      rw [Option.bind_eq_some_iff] at hr
      obtain ⟨m3, e3, e4⟩ := hr
      simp only [Option.some.injEq, Prod.mk.injEq] at e4
      obtain ⟨rfl, rfl⟩ := e4
      have F := flips3 hi (by rw [hz]; exact hu.succ) (by rw [hz]; exact j1) (by rw [hz]; exact j6) e3
      have fs := F.steps hi
      refine ⟨.step (.face hu hu4 rx ry h0 h1 h2 S) fs, fun _ => ?_, fun _ => ?_⟩
      · exact HasV.steps ⟨m.size, by omega, by rw [S.xn, i16_eq rx], by rw [S.yn, i16_eq ry]⟩ fs
      · rw [fin (by omega), F.size.1, hz]; exact hu.succ
  | rim i hf he on run =>
    rw [run] at hr
    simp only [Option.some.injEq, Prod.mk.injEq] at hr
    obtain ⟨rfl, rfl⟩ := hr
    exact ⟨.refl _, by simp, by simp⟩
  | edge i a b hf he hab E run =>
    rw [run] at hr
    split at hr
    · simp only [Option.some.injEq, Prod.mk.injEq] at hr
      obtain ⟨rfl, rfl⟩ := hr
      exact ⟨.refl _, by simp, by simp⟩
    · have S := splitEdge_spec h px py E.pair
      have hi := S.inv h E.pair rx ry E.h1 E.h2 E.h3 E.h4
      have hz := S.size
      have hs := h.sz
      obtain ⟨j0, j1, j2, j4, j5, j6⟩ := newIs (n := m.size) (by omega)
      rw [Option.bind_eq_some_iff] at hr
      obtain ⟨m3, e3, e4⟩ := hr
      simp only [Option.some.injEq, Prod.mk.injEq] at e4
      obtain ⟨rfl, rfl⟩ := e4
      have F := flips4 hi (by rw [hz]; exact E.pair.ia.pv.succ) (by rw [hz]; exact j1) (by rw [hz]; exact E.pair.ib.nx.succ)
        (by rw [hz]; exact j6) e3
      have fs := F.steps hi
      refine ⟨.step (.edge E rx ry S) fs, fun _ => ?_, fun _ => ?_⟩
      · exact HasV.steps ⟨m.size, by omega, by rw [S.xn, i16_eq rx], by rw [S.yn, i16_eq ry]⟩ fs
      · rw [fin (by omega), F.size.1, hz]; exact hu.succ

/-- inserting into a face that contains the point succeeds with enough rounds -/
theorem insertAt_some (h : Inv m) {n} (hu : IsE m.size (n / 4 * 4)) (hc : m.InClosed px py (n / 4 * 4)) (limit : Nat) :
    ∃ K, ∀ k, K ≤ k → ∃ r, insertAt limit k m px py n = some r := by
  have hu4 : n / 4 * 4 % 4 = 0 := by omega
  have B := base hu hu4
  obtain ⟨rx, ry⟩ := h.range hu hc
  cases insertAt_run h hu hu4 hc with
  | vert i hf hx hy run => exact ⟨0, fun k _ => ⟨_, by rw [insertAt_base _ _ _ _ _ _ hu, run]⟩⟩
  | face h0 h1 h2 run =>
    have S := splitFace_spec h px py hu hu4
    have hi := S.inv h hu hu4 rx ry h0 h1 h2
    have hz := S.size
    have hs := h.sz
    obtain ⟨j0, j1, j2, j4, j5, j6⟩ := newIs (n := m.size) (by omega)
    refine ⟨((m.splitFace px py (n / 4 * 4)).phi + 1).toNat, fun k hk => ?_⟩
    rw [insertAt_base _ _ _ _ _ _ hu, run]
    split
    · exact ⟨_, rfl⟩
    · obtain ⟨m3, e3⟩ := flips3_some (k := k) hi (a := n / 4 * 4) (b := 8 * m.size + 1) (c := 8 * m.size + 6)
        (by rw [hz]; exact hu.succ) (by rw [hz]; exact j1) (by rw [hz]; exact j6) (by have := hi.phi_nonneg; omega)
      exact ⟨_, by rw [e3]; rfl⟩
  | rim i hf he on run => exact ⟨0, fun k _ => ⟨_, by rw [insertAt_base _ _ _ _ _ _ hu, run]⟩⟩
  | edge i a b hf he hab E run =>
    have S := splitEdge_spec h px py E.pair
    have hi := S.inv h E.pair rx ry E.h1 E.h2 E.h3 E.h4
    have hz := S.size
    have hs := h.sz
    obtain ⟨j0, j1, j2, j4, j5, j6⟩ := newIs (n := m.size) (by omega)
    refine ⟨((m.splitEdge px py a b).phi + 1).toNat, fun k hk => ?_⟩
    rw [insertAt_base _ _ _ _ _ _ hu, run]
    split
    · exact ⟨_, rfl⟩
    · obtain ⟨m4, e4⟩ := flips4_some (k := k) hi (a := pv a) (b := 8 * m.size + 1) (c := nx b) (d := 8 * m.size + 6)
        (by rw [hz]; exact E.pair.ia.pv.succ) (by rw [hz]; exact j1) (by rw [hz]; exact E.pair.ib.nx.succ)
        (by rw [hz]; exact j6) (by have := hi.phi_nonneg; omega)
      exact ⟨_, by rw [e4]; rfl⟩

/-- what can be given to `flip` -/
def Flippable (m : Mesh) (a : Nat) : Prop := IsE m.size a ∨ (a % 4 ≠ 3 ∧ m.c a ≠ 0)

theorem Inv.flippable (h : Inv m) {a} (ha : a < 24 ∧ a % 4 ≠ 3 ∨ IsE m.size a) : Flippable m a := by
  rcases ha with ⟨h1, h2⟩ | ha
  · exact Or.inr ⟨h2, by rw [(h.low a h1 h2).1]; omega⟩
  · exact Or.inl ha

/-- an edge or the unused node 0 -/
theorem Inv.twin (h : Inv m) {a} (ha : IsE m.size a) : m.e a = 0 ∨ IsE m.size (m.e a) := by
  by_cases h0 : m.e a = 0
  · exact Or.inl h0
  · exact Or.inr (h.tw a ha h0).1

theorem constrainEdge_flips (h : Inv m) {k en} (hr : constrainEdge k m en = some m') :
    IsE m.size en ∧ Inv ((m.setC (m.e en) 1).setC en 1) ∧ Flips ((m.setC (m.e en) 1).setC en 1) m' := by
  unfold constrainEdge at hr
  split at hr
  · rename_i hen
    have hen := (edge_iff _ _).1 hen
    simp only [Option.bind_eq_bind, Option.bind_eq_some_iff] at hr
    obtain ⟨m1, e1, m2, e2, m3, e3, e4⟩ := hr
    have h0 := con_inv h hen
    have F1 := flip_flips h0 (Or.inl hen.nx.nx) e1
    have h1 := F1.inv h0
    have F2 := flip_flips h1 (Or.inl (F1.isE hen.nx.nx.nx)) e2
    have h2 := F2.inv h1
    have hen2 : IsE m2.size en := F2.isE (F1.isE hen)
    have t3 : m2.e en = 0 ∨ IsE m2.size (m2.e en) := h2.twin hen2
    have F3 := flip_flips h2 (h2.flippable (by
      rcases t3 with t | t
      · rw [t]; left; decide
      · exact Or.inr t.nx.nx)) e3
    have h3 := F3.inv h2
    have F4 := flip_flips h3 (h3.flippable (by
      rcases t3 with t | t
      · rw [t]; left; decide
      · exact Or.inr (F3.isE t.nx.nx.nx))) e4
    exact ⟨hen, h0, ((F1.trans F2).trans F3).trans F4⟩
  · simp at hr

theorem constrainEdge_steps (h : Inv m) {k en} (hr : constrainEdge k m en = some m') : Steps m m' := by
  obtain ⟨h1, h2, h3⟩ := constrainEdge_flips h hr
  exact .step (.con h1) (h3.steps h2)

theorem constrainEdge_some (h : Inv m) {en} (hen : IsE m.size en) : ∃ K, ∀ k, K ≤ k → ∃ r, constrainEdge k m en = some r := by
  refine ⟨(((m.setC (m.e en) 1).setC en 1).phi + 1).toNat, fun k hk => ?_⟩
  have h0 := con_inv h hen
  have hk : ((m.setC (m.e en) 1).setC en 1).phi < k := by have := h0.phi_nonneg; omega
  unfold constrainEdge
  rw [if_pos ((edge_iff _ _).2 hen)]
  simp only [Option.bind_eq_bind]
  obtain ⟨m1, e1, F1⟩ := flip_ends k _ h0 (nx (nx en)) (Or.inl hen.nx.nx) hk
  have h1 := F1.inv h0
  obtain ⟨m2, e2, F2⟩ := flip_ends k _ h1 (nx (nx (nx en))) (Or.inl (F1.isE hen.nx.nx.nx)) (lt_of_le_of_lt F1.phi hk)
  have h2 := F2.inv h1
  have hen2 : IsE m2.size en := F2.isE (F1.isE hen)
  have t3 : m2.e en = 0 ∨ IsE m2.size (m2.e en) := h2.twin hen2
  obtain ⟨m3, e3, F3⟩ := flip_ends k _ h2 (nx (nx (m2.e en))) (h2.flippable (by
      rcases t3 with t | t
      · rw [t]; left; decide
      · exact Or.inr t.nx.nx)) (lt_of_le_of_lt (F2.phi.trans F1.phi) hk)
  have h3 := F3.inv h2
  obtain ⟨m4, e4, F4⟩ := flip_ends k _ h3 (nx (nx (nx (m2.e en)))) (h3.flippable (by
      rcases t3 with t | t
      · rw [t]; left; decide
      · exact Or.inr (F3.isE t.nx.nx.nx))) (lt_of_le_of_lt (F3.phi.trans (F2.phi.trans F1.phi)) hk)
  refine ⟨m4, ?_⟩
  rw [e1]; simp only [Option.bind_some]
  rw [e2]; simp only [Option.bind_some]
  rw [e3]; simp only [Option.bind_some]
  exact e4

/-! ### walking -/

/-- where the walk is: an edge, seen from the point, with the point on its inner side -/
structure At (m : Mesh) (at' : Nat → Option V2) (ins : V2 → V2 → Option Bool) (e : Nat) (p1 p2 : V2) : Prop where
  ie : IsE m.size e
  a1 : at' (m.p (nx e)) = some p1
  a2 : at' (m.p (pv e)) = some p2
  i : ins p1 p2 = some true

/-- what the walk needs of its test -/
def Flipping (m : Mesh) (at' : Nat → Option V2) (ins : V2 → V2 → Option Bool) : Prop :=
  ∀ i, IsE m.size i → ∀ u v, at' (m.p (nx i)) = some u → at' (m.p (pv i)) = some v →
    (ins u v = some false → ins v u = some true) ∧ (ins v u = some false → ins u v = some true)

/-- the point is outside an edge of the boundary -/
def Out (m : Mesh) (at' : Nat → Option V2) (ins : V2 → V2 → Option Bool) : Prop :=
  ∃ i u v, Bnd m i ∧ at' (m.p (nx i)) = some u ∧ at' (m.p (pv i)) = some v ∧ ins u v = some false

/-- crossing an edge -/
theorem At.cross (h : Inv m) {at' ins} (hf : Flipping m at' ins) {i u v} (hi : IsE m.size i) (hu : at' (m.p (nx i)) = some u)
    (hv : at' (m.p (pv i)) = some v) (hn : ins u v = some false) : (m.e i = 0 ∧ Out m at' ins) ∨ At m at' ins (m.e i) v u := by
  by_cases h0 : m.e i = 0
  · exact Or.inl ⟨h0, i, u, v, ⟨hi, h0⟩, hu, hv, hn⟩
  · obtain ⟨t1, t2, t3, t4, t5⟩ := h.tw i hi h0
    exact Or.inr ⟨t1, by rw [t4]; exact hv, by rw [t5]; exact hu, (hf i hi u v hu hv).1 hn⟩

/-- the answer of the walk -/
structure Found (m : Mesh) (at' : Nat → Option V2) (ins : V2 → V2 → Option Bool) (e : Nat) (p0 p1 p2 : V2) : Prop where
  ie : IsE m.size e
  a0 : at' (m.p e) = some p0
  a1 : at' (m.p (nx e)) = some p1
  a2 : at' (m.p (pv e)) = some p2
  i0 : ins p1 p2 = some true
  i1 : ins p2 p0 = some true
  i2 : ins p0 p1 = some true

theorem walk_spec (h : Inv m) {at' ins} (hf : Flipping m at' ins) (asrt : Bool) : ∀ k s e p1 p2 r, ((e = 0 ∧ Out m at' ins) ∨ At m at' ins e p1 p2) →
    walk m at' ins asrt k s e p1 p2 = some r → (r = 0 ∧ Out m at' ins) ∨ ∃ p0 p1 p2, Found m at' ins r p0 p1 p2 := by
  intro k
  induction k with
  | zero => intro s e p1 p2 r _ hr; simp [walk] at hr
  | succ k ih =>
    intro s e p1 p2 r ha hr
    cases s with
    | false =>
      rw [walk] at hr
      split at hr
      · rename_i he
        simp only [Option.some.injEq] at hr
        rcases ha with ha | ha
        · exact Or.inl ⟨hr.symm, ha.2⟩
        · exact absurd he ha.ie.pos
      · rename_i he
        have A : At m at' ins e p1 p2 := by rcases ha with ha | ha; exacts [absurd ha.1 he, ha]
        simp only [Option.bind_eq_bind, Option.bind_eq_some_iff] at hr
        obtain ⟨p0, a0, in1, i1, in2, i2, hr⟩ := hr
        have c1 : in1 = false → (m.e (nx e) = 0 ∧ Out m at' ins) ∨ At m at' ins (m.e (nx e)) p0 p2 := fun e1 =>
          At.cross h hf A.ie.nx (by rw [A.ie.nx_nx]; exact A.a2) (by rw [A.ie.pv_nx]; exact a0) (e1 ▸ i1)
        have c2 : in2 = false → (m.e (pv e) = 0 ∧ Out m at' ins) ∨ At m at' ins (m.e (pv e)) p1 p0 := fun e2 =>
          At.cross h hf A.ie.pv (by rw [A.ie.nx_pv]; exact a0) (by rw [A.ie.pv_pv]; exact A.a1) (e2 ▸ i2)
        cases in1 <;> cases in2 <;> simp only [Bool.and_true, Bool.and_false, Bool.and_self, if_true, if_false, Bool.false_eq_true] at hr
        · exact ih _ _ _ _ _ (c1 rfl) hr
        · exact ih _ _ _ _ _ (c1 rfl) hr
        · exact ih _ _ _ _ _ (c2 rfl) hr
        · simp only [Option.some.injEq] at hr
          rw [← hr]; exact Or.inr ⟨p0, p1, p2, A.ie, a0, A.a1, A.a2, A.i, i1, i2⟩
    | true =>
      rw [walk] at hr
      have hr : (if e = 0 then some 0 else do
          let p0 ← at' (m.p e)
          let in2 ← ins p0 p1
          if in2 then do
            let in1 ← ins p2 p0
            if in1 then some e
            else walk m at' ins asrt k false (m.e (nx e)) p0 p2
          else walk m at' ins asrt k true (m.e (pv e)) p1 p0) = some r := by
        cases asrt
        · simpa using hr
        · simp only [if_true, Option.bind_eq_bind, Option.bind_eq_some_iff] at hr
          obtain ⟨ok, hok, hr⟩ := hr
          split at hr
          · simp at hr
          · exact hr
      split at hr
      · rename_i he
        simp only [Option.some.injEq] at hr
        rcases ha with ha | ha
        · exact Or.inl ⟨hr.symm, ha.2⟩
        · exact absurd he ha.ie.pos
      · rename_i he
        have A : At m at' ins e p1 p2 := by rcases ha with ha | ha; exacts [absurd ha.1 he, ha]
        simp only [Option.bind_eq_bind, Option.bind_eq_some_iff] at hr
        obtain ⟨p0, a0, in2, i2, hr⟩ := hr
        cases in2
        · simp only [if_false, Bool.false_eq_true] at hr
          exact ih _ _ _ _ _ (At.cross h hf A.ie.pv (by rw [A.ie.nx_pv]; exact a0) (by rw [A.ie.pv_pv]; exact A.a1) i2) hr
        · simp only [if_true, Option.bind_eq_some_iff] at hr
          obtain ⟨in1, i1, hr⟩ := hr
          cases in1
          · simp only [if_false, Bool.false_eq_true] at hr
            exact ih _ _ _ _ _ (At.cross h hf A.ie.nx (by rw [A.ie.nx_nx]; exact A.a2) (by rw [A.ie.pv_nx]; exact a0) i1) hr
          · simp only [if_true, Option.some.injEq] at hr
            rw [← hr]; exact Or.inr ⟨p0, p1, p2, A.ie, a0, A.a1, A.a2, A.i, i1, i2⟩

theorem walkFrom_spec (h : Inv m) {at' ins} (hf : Flipping m at' ins) (asrt : Bool) {k e r} (he : IsE m.size e) (he4 : e % 4 = 0)
    (hr : walkFrom m at' ins asrt k e = some r) : (r = 0 ∧ Out m at' ins) ∨ ∃ p0 p1 p2, Found m at' ins r p0 p1 p2 := by
  have B := base he he4
  unfold walkFrom at hr
  simp only [Option.bind_eq_bind, Option.bind_eq_some_iff] at hr
  obtain ⟨p1, a1, p2, a2, i, hi, hr⟩ := hr
  cases i
  · simp only [if_false, Bool.false_eq_true] at hr
    exact walk_spec h hf asrt _ _ _ _ _ _ (At.cross h hf he (by rw [B.n0]; exact a1) (by rw [B.p0]; exact a2) hi) hr
  · simp only [if_true] at hr
    exact walk_spec h hf asrt _ _ _ _ _ _ (Or.inr ⟨he, by rw [B.n0]; exact a1, by rw [B.p0]; exact a2, hi⟩) hr

theorem inn_flipping (m : Mesh) (px py : Int) :
    Flipping m (fun v => some ⟨m.x v - px, m.y v - py⟩) (fun a b => some (inn a.x a.y b.x b.y)) := by
  intro i _ u v _ _
  unfold inn
  simp only [Option.some.injEq, decide_eq_false_iff_not, decide_eq_true_eq]
  constructor <;> intro h <;> push Not at h <;> linarith

/-- the walk before an insertion ends in a face that contains the point -/
theorem locateIns_spec (h : Inv m) {k hint r} (hr : locateIns k m px py hint = some r) :
    (r = 0 ∧ ∃ i, Bnd m i ∧ 0 < m.crP px py (m.p (nx i)) (m.p (pv i))) ∨ (IsE m.size r ∧ m.InClosed px py r) := by
  unfold locateIns at hr
  simp only at hr
  have hs := h.sz
  have he : IsE m.size ((if hint < 24 ∨ hint ≥ m.size * 8 then m.size * 8 - 4 else hint) / 4 * 4) := by
    unfold IsE; split <;> omega
  rcases walkFrom_spec h (inn_flipping m px py) true he (by omega) hr with ⟨e, i, u, v, b, hu, hv, ho⟩ | ⟨p0, p1, p2, F⟩
  · refine Or.inl ⟨e, i, b, ?_⟩
    unfold inn at ho
    simp only [Option.some.injEq] at hu hv ho
    rw [← hu, ← hv, decide_eq_false_iff_not] at ho
    unfold Mesh.crP
    push Not at ho
    linarith
  · refine Or.inr ⟨F.ie, ?_⟩
    have a0 := F.a0
    have a1 := F.a1
    have a2 := F.a2
    simp only [Option.some.injEq] at a0 a1 a2
    have i0 := F.i0
    have i1 := F.i1
    have i2 := F.i2
    unfold inn at i0 i1 i2
    simp only [Option.some.injEq, decide_eq_true_eq, ← a0, ← a1, ← a2] at i0 i1 i2
    unfold Mesh.InClosed Mesh.crP
    exact ⟨by linarith, by linarith, by linarith⟩

theorem IsE.base {s i} (h : IsE s i) : IsE s (i / 4 * 4) := by unfold IsE at *; omega

theorem InClosed.base {s i} (hi : IsE s i) (h : m.InClosed px py i) : m.InClosed px py (i / 4 * 4) := by
  rcases hi.thirds with ⟨e1, e2, e3⟩ | ⟨e1, e2, e3⟩ | ⟨e1, e2, e3⟩
  · rw [show i / 4 * 4 = i by omega]; exact h
  · rw [show i / 4 * 4 = Cdt.pv i by omega]; exact InClosed.pv hi h
  · rw [show i / 4 * 4 = Cdt.nx i by omega]; exact InClosed.nx hi h

theorem insertPoint_spec (h : Inv m) {limit k hint r} (hr : insertPoint limit k m px py hint = some (m', r)) :
    Inserted m m' px py r := by
  unfold insertPoint at hr
  simp only [Option.bind_eq_bind, Option.bind_eq_some_iff] at hr
  obtain ⟨n, -, hr⟩ := hr
  exact insertAt_spec h hr

/-! ### inserting edges -/

/-- the four functions that insert an edge only make steps -/
theorem edges_steps (limit : Nat) : ∀ k,
    (∀ m m' px py qx qy hint d, Inv m → insertEdge limit k m px py qx qy hint = some (m', d) → Steps m m') ∧
    (∀ m m' px py qx qy pn d, Inv m → (pn = 0 ∨ IsE m.size pn) → edgeLoop limit k m px py qx qy pn = some (m', d) → Steps m m') ∧
    (∀ m m' px py q i pn d, Inv m → IsE m.size i → corner limit k m px py q i pn = some (m', d) → Steps m m') ∧
    (∀ m m' px py q a b hint d, Inv m → splitConstraint limit k m px py q a b hint = some (m', d) → Steps m m') := by
  intro k
  induction k with
  | zero => refine ⟨?_, ?_, ?_, ?_⟩ <;> intros <;> simp_all [insertEdge, edgeLoop, corner, splitConstraint]
  | succ k ih =>
    obtain ⟨ih1, ih2, ih3, ih4⟩ := ih
    have loc : ∀ {m px py hint r}, Inv m → locateIns k m px py hint = some r → r = 0 ∨ IsE m.size r := by
      intro m px py hint r h hr
      rcases locateIns_spec h hr with e | e
      · exact Or.inl e.1
      · exact Or.inr e.1
    refine ⟨?_, ?_, ?_, ?_⟩
    · intro m m' px py qx qy hint d h hr
      rw [insertEdge] at hr
      simp only [Option.bind_eq_bind, Option.bind_eq_some_iff] at hr
      obtain ⟨n, -, ⟨m1, pn⟩, e1, hr⟩ := hr
      have S1 := (insertAt_spec h e1).steps
      simp only at hr
      split at hr
      · simp only [Option.some.injEq, Prod.mk.injEq] at hr; rw [← hr.1]; exact S1
      split at hr
      · simp only [Option.some.injEq, Prod.mk.injEq] at hr; rw [← hr.1]; exact S1
      simp only [Option.bind_eq_some_iff] at hr
      obtain ⟨n2, -, ⟨m2, qn⟩, e2, hr⟩ := hr
      have h1 := S1.inv h
      have S2 := S1.trans (insertAt_spec h1 e2).steps
      simp only at hr
      split at hr
      · simp only [Option.some.injEq, Prod.mk.injEq] at hr; rw [← hr.1]; exact S2
      simp only [Option.bind_eq_some_iff] at hr
      obtain ⟨pn', e3, hr⟩ := hr
      have h2 := S2.inv h
      exact S2.trans (ih2 _ _ _ _ _ _ _ _ h2 (loc h2 e3) hr)
    · intro m m' px py qx qy pn d h hpn hr
      rw [edgeLoop] at hr
      simp only at hr
      split at hr
      · simp only [Option.some.injEq, Prod.mk.injEq] at hr; rw [← hr.1]; exact .refl _
      split at hr
      · simp at hr
      rename_i hd
      have hp : IsE m.size pn := by
        rcases hpn with e | e
        · exfalso; apply hd; left
          rw [e]
          show V2.mk _ _ = V2.mk _ _
          rw [(h.low (0 / 4 * 4) (by decide) (by decide)).2.1, (h.low (0 / 4 * 4 + 1) (by decide) (by decide)).2.1]
        · exact e
      have B := Cdt.base hp.base (by omega)
      split at hr
      · exact ih3 _ _ _ _ _ _ _ _ h B.i0 hr
      split at hr
      · exact ih3 _ _ _ _ _ _ _ _ h B.i1 hr
      split at hr
      · exact ih3 _ _ _ _ _ _ _ _ h B.i2 hr
      simp at hr
    · intro m m' px py q i pn d h hi hr
      rw [corner] at hr
      simp only at hr
      split at hr
      · split at hr
        · simp only [Option.bind_eq_bind, Option.bind_eq_some_iff] at hr
          obtain ⟨m1, e1, pn', e2, hr⟩ := hr
          have S1 := constrainEdge_steps h e1
          have h1 := S1.inv h
          exact S1.trans (ih2 _ _ _ _ _ _ _ _ h1 (loc h1 e2) hr)
        · simp only [Option.bind_eq_bind, Option.bind_eq_some_iff] at hr
          obtain ⟨⟨m1, done⟩, e1, hr⟩ := hr
          have S1 := tryFlip_steps h hi e1
          have h1 := S1.inv h
          simp only at hr
          split at hr
          · simp only [Option.bind_eq_some_iff] at hr
            obtain ⟨pn', e2, hr⟩ := hr
            exact S1.trans (ih2 _ _ _ _ _ _ _ _ h1 (loc h1 e2) hr)
          · exact S1.trans (ih4 _ _ _ _ _ _ _ _ _ h1 hr)
      · exact ih2 _ _ _ _ _ _ _ _ h (h.twin hi.pv) hr
    · intro m m' px py q a b hint d h hr
      rw [splitConstraint] at hr
      simp only [Option.bind_eq_bind, Option.bind_eq_some_iff] at hr
      obtain ⟨r, -, hr⟩ := hr
      split at hr
      · simp only [Option.some.injEq, Prod.mk.injEq] at hr; rw [← hr.1]; exact .refl _
      simp only [Option.bind_eq_some_iff] at hr
      obtain ⟨⟨m1, pr⟩, e1, ⟨m2, rq⟩, e2, hr⟩ := hr
      simp only [Option.some.injEq, Prod.mk.injEq] at hr
      have S1 := ih1 _ _ _ _ _ _ _ _ h e1
      have S2 := ih1 _ _ _ _ _ _ _ _ (S1.inv h) e2
      rw [← hr.1]; exact S1.trans S2

end CE.Cdt
