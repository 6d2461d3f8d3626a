import Verif.Proof.CdtFence
/-! What `insert_edge` leaves behind: a way along constrained edges. -/
namespace CE.Cdt

open Relation CE.Vec

variable {m m' m'' : Mesh} {px py : Int}

/-- everything known of a mesh -/
structure Sound (m : Mesh) : Prop where
  inv : Inv m
  rim : Rim m
  cover : Cover m
  distinct : Distinct m

theorem Steps.sound (s : Steps m m') (g : Sound m) : Sound m' :=
  ⟨s.inv g.inv, s.rim g.inv g.rim, s.cover g.inv g.cover, s.distinct g.inv g.rim g.cover g.distinct⟩

theorem Mesh.Along.symm {d : ℚ} {u v w : Nat} (h : m.Along d u v w) : m.Along d v u w := by
  obtain ⟨t, t0, t1, hx, hy⟩ := h
  refine ⟨1 - t, by linarith, by linarith, ?_, ?_⟩
  · rw [show (m.x v : ℚ) + (1 - t) * (m.x u - m.x v) = m.x u + t * (m.x v - m.x u) by ring]; exact hx
  · rw [show (m.y v : ℚ) + (1 - t) * (m.y u - m.y v) = m.y u + t * (m.y v - m.y u) by ring]; exact hy

theorem Mesh.Fence.symm {u v : Nat} (h : m.Fence u v) : m.Fence v u := by
  unfold Mesh.Fence at *
  rw [← reflTransGen_swap]
  exact ReflTransGen.mono (fun a b h => And.intro h.1.symm (And.intro h.2.2.symm h.2.1.symm)) _ _ h

/-- vertex `v` is at the point -/
def Pos (m : Mesh) (v : Nat) (px py : Int) : Prop := v < m.size ∧ m.x v = px ∧ m.y v = py

theorem Steps.pos (s : Steps m m') {v} (h : Pos m v px py) : Pos m' v px py :=
  ⟨lt_of_lt_of_le h.1 s.keep.1, by rw [(s.keep.2 v h.1).1, h.2.1], by rw [(s.keep.2 v h.1).2, h.2.2]⟩

theorem Sound.same (g : Sound m) {u v} (hu : Pos m u px py) (hv : Pos m v px py) : u = v :=
  g.distinct u v hu.1 hv.1 (by rw [hu.2.1, hv.2.1]) (by rw [hu.2.2, hv.2.2])

/-- a vertex in a face is a corner of it -/
theorem Sound.corner_of (g : Sound m) {i v} (hi : IsE m.size i) (hv : v < m.size) (hin : m.InClosed (m.x v) (m.y v) i) :
    v = m.p i ∨ v = m.p (nx i) ∨ v = m.p (pv i) := by
  obtain ⟨j, hj, rfl⟩ := g.cover v hv
  obtain ⟨k, hk, f, ex, ey⟩ := clean g.inv g.rim hi hj hin
  have e := g.distinct _ _ (g.inv.pl _ hk) (g.inv.pl _ hj) ex ey
  rw [← e]
  rcases hi.face hk f.symm with c | c | c <;> rw [c]
  · exact Or.inl rfl
  · exact Or.inr (Or.inl rfl)
  · exact Or.inr (Or.inr rfl)

theorem trunc_near (n d : Int) (hd : 0 < d) : |((n.tdiv d : Int) : ℚ) - n / d| < 1 := by
  have h1 := Int.mul_tdiv_add_tmod n d
  have h2 := Int.tmod_lt_of_pos n hd
  have h3 : -d < n.tmod d := by
    have := Int.tmod_lt_of_pos (-n) hd
    rw [Int.neg_tmod] at this; omega
  have hq : (0 : ℚ) < d := by exact_mod_cast hd
  have e : (n : ℚ) = d * (n.tdiv d : Int) + (n.tmod d : Int) := by exact_mod_cast h1.symm
  have e' : ((n.tdiv d : Int) : ℚ) - n / d = -((n.tmod d : Int) : ℚ) / d := by
    rw [e]; field_simp; ring
  have h2' : ((n.tmod d : Int) : ℚ) < d := by exact_mod_cast h2
  have h3' : (-d : ℚ) < ((n.tmod d : Int) : ℚ) := by exact_mod_cast h3
  rw [e', abs_lt]
  constructor
  · rw [lt_div_iff₀ hq]; linarith
  · rw [div_lt_iff₀ hq]; linarith

/-- where the point of `intersect_edges` is when the first vertex, the second one and the face are as in `insert_edge` -/
theorem intersect_near {q a b r : V2} (h1 : a.x * q.y - a.y * q.x - (b.x * q.y - b.y * q.x) ≤ a.x * b.y - a.y * b.x)
    (h2 : a.x * b.y - a.y * b.x < 0) (h : intersectEdges q a b = some r) :
    ∃ t : ℚ, 0 ≤ t ∧ t ≤ 1 ∧ |(r.x : ℚ) - t * q.x| < 1 ∧ |(r.y : ℚ) - t * q.y| < 1 := by
  unfold intersectEdges at h
  simp only at h
  split at h
  · rename_i hd
    split at h
    · simp only [Option.some.injEq] at h
      subst h
      simp only
      have hq : (0 : ℚ) < (((b.x - a.x) * q.y - (b.y - a.y) * q.x : Int) : ℚ) := by exact_mod_cast hd
      have n1 := trunc_near ((b.x - a.x) * (q.x * a.y - q.y * a.x)) _ hd
      have n2 := trunc_near ((b.y - a.y) * (q.x * a.y - q.y * a.x)) _ hd
      refine ⟨((-(a.x * b.y - a.y * b.x) : Int) : ℚ) / (((b.x - a.x) * q.y - (b.y - a.y) * q.x : Int) : ℚ), ?_, ?_, ?_, ?_⟩
      · apply div_nonneg _ hq.le
        exact_mod_cast (by linarith : (0 : Int) ≤ -(a.x * b.y - a.y * b.x))
      · rw [div_le_one hq]
        exact_mod_cast (by linarith : -(a.x * b.y - a.y * b.x) ≤ (b.x - a.x) * q.y - (b.y - a.y) * q.x)
      · convert n1 using 2
        push_cast at hq ⊢
        field_simp
        ring
      · convert n2 using 2
        push_cast at hq ⊢
        field_simp
        ring
    · simp at h
  · simp at h

/-- the four functions that insert an edge leave a way from the one end to the other when they return true -/
theorem edges_route (limit : Nat) : ∀ k,
    (∀ m m' px py qx qy hint, Sound m → insertEdge limit k m px py qx qy hint = some (m', true) →
      ∃ u v n, Pos m' u px py ∧ Pos m' v qx qy ∧ m'.Route n u v) ∧
    (∀ m m' px py qx qy pn u v, Sound m → (pn = 0 ∨ IsE m.size pn) → Pos m u px py → Pos m v qx qy →
      edgeLoop limit k m px py qx qy pn = some (m', true) → ∃ n, m'.Route n u v) ∧
    (∀ m m' px py q i pn v, Sound m → IsE m.size i → m.x (m.p i) = px → m.y (m.p i) = py → Pos m v (px + q.x) (py + q.y) →
      corner limit k m px py q i pn = some (m', true) → ∃ n, m'.Route n (m.p i) v) ∧
    (∀ m m' px py q a b hint u v, Sound m → Pos m u px py → Pos m v (px + q.x) (py + q.y) →
      (∀ r, intersectEdges q a b = some r → ∃ t : ℚ, 0 ≤ t ∧ t ≤ 1 ∧ |(r.x : ℚ) - t * q.x| < 1 ∧ |(r.y : ℚ) - t * q.y| < 1) →
      splitConstraint limit k m px py q a b hint = some (m', true) → ∃ n, m'.Route n u v) := by
  intro k
  induction k with
  | zero => refine ⟨?_, ?_, ?_, ?_⟩ <;> intros <;> simp_all [insertEdge, edgeLoop, corner, splitConstraint]
  | succ k ih =>
    obtain ⟨ih1, ih2, ih3, ih4⟩ := ih
    obtain ⟨st1, st2, st3, st4⟩ := edges_steps limit k
    have loc : ∀ {m px py hint r}, Inv m → locateIns k m px py hint = some r → r = 0 ∨ IsE m.size r := by
      intro m px py hint r h hr
      rcases locateIns_spec h hr with e | e
      · exact Or.inl e.1
      · exact Or.inr e.1
    refine ⟨?_, ?_, ?_, ?_⟩
    · intro m m' px py qx qy hint g hr
      rw [insertEdge] at hr
      simp only [Option.bind_eq_bind, Option.bind_eq_some_iff] at hr
      obtain ⟨n, -, ⟨m1, pn⟩, e1, hr⟩ := hr
      have A1 := insertAt_spec g.inv e1
      have g1 := A1.steps.sound g
      simp only at hr
      split at hr
      · simp at hr
      rename_i hp
      obtain ⟨u, hu⟩ : ∃ u, Pos m1 u px py := A1.has hp
      split at hr
      · rename_i he
        simp only [Option.some.injEq, Prod.mk.injEq, and_true] at hr
        rw [← hr, ← he.1, ← he.2]
        exact ⟨u, u, 0, hu, hu, .straight .refl⟩
      simp only [Option.bind_eq_some_iff] at hr
      obtain ⟨n2, -, ⟨m2, qn⟩, e2, hr⟩ := hr
      have A2 := insertAt_spec g1.inv e2
      have g2 := A2.steps.sound g1
      simp only at hr
      split at hr
      · simp at hr
      rename_i hq
      obtain ⟨v, hv⟩ : ∃ v, Pos m2 v qx qy := A2.has hq
      simp only [Option.bind_eq_some_iff] at hr
      obtain ⟨pn', e3, hr⟩ := hr
      have hu2 := A2.steps.pos hu
      obtain ⟨n, R⟩ := ih2 _ _ _ _ _ _ _ u v g2 (loc g2.inv e3) hu2 hv hr
      have S := st2 _ _ _ _ _ _ _ _ g2.inv (loc g2.inv e3) hr
      exact ⟨u, v, n, S.pos hu2, S.pos hv, R⟩
    · intro m m' px py qx qy pn u v g hpn hu hv hr
      rw [edgeLoop] at hr
      simp only at hr
      split at hr
      · rename_i hq
        simp only [Option.some.injEq, Prod.mk.injEq, and_true] at hr
        rw [V2.mk.injEq] at hq
        have : u = v := g.same hu ⟨hv.1, by rw [hv.2.1]; omega, by rw [hv.2.2]; omega⟩
        rw [← hr, ← this]
        exact ⟨0, .straight .refl⟩
      split at hr
      · simp at hr
      rename_i hd
      have hp : IsE m.size pn := by
        rcases hpn with e | e
        · exfalso; apply hd; left
          rw [e]
          show V2.mk _ _ = V2.mk _ _
          rw [(g.inv.low (0 / 4 * 4) (by decide) (by decide)).2.1, (g.inv.low (0 / 4 * 4 + 1) (by decide) (by decide)).2.1]
        · exact e
      have B := Cdt.base hp.base (by omega)
      have go : ∀ i, IsE m.size i → V2.mk (m.x (m.p i) - px) (m.y (m.p i) - py) = ⟨0, 0⟩ →
          corner limit k m px py ⟨qx - px, qy - py⟩ i pn = some (m', true) → ∃ n, m'.Route n u v := by
        intro i hi h0 hr
        rw [V2.mk.injEq] at h0
        have ex : m.x (m.p i) = px := by omega
        have ey : m.y (m.p i) = py := by omega
        have : u = m.p i := g.same hu ⟨g.inv.pl _ hi, ex, ey⟩
        rw [this]
        exact ih3 _ _ _ _ _ _ _ v g hi ex ey ⟨hv.1, by simp only [hv.2.1]; omega, by simp only [hv.2.2]; omega⟩ hr
      split at hr
      · exact go _ B.i0 ‹_› hr
      split at hr
      · exact go _ B.i1 ‹_› hr
      split at hr
      · exact go _ B.i2 ‹_› hr
      simp at hr
    · intro m m' px py q i pn v g hi hx hy hv hr
      have hu : Pos m (m.p i) px py := ⟨g.inv.pl _ hi, hx, hy⟩
      rw [corner] at hr
      simp only at hr
      -- the face is clockwise
      have cw := g.inv.cw _ hi
      unfold Mesh.cr at cw
      rw [hx, hy] at cw
      -- where the other end can be
      have out := g.corner_of hi hv.1
      unfold Mesh.InClosed Mesh.crP at out
      rw [hv.2.1, hv.2.2, hx, hy] at out
      split at hr
      · rename_i hab
        obtain ⟨ha, hb⟩ := hab
        have nu : v ≠ m.p i := by
          rintro rfl
          have e1 := hv.2.1; have e2 := hv.2.2
          have q1 : q.x = 0 := by omega
          have q2 : q.y = 0 := by omega
          rw [q1, q2] at ha; simp at ha
        have n1 : v ≠ m.p (nx i) := by
          rintro rfl
          rw [hv.2.1, hv.2.2] at ha
          apply absurd ha; ring_nf; simp
        split at hr
        · rename_i hb0
          simp only [Option.bind_eq_bind, Option.bind_eq_some_iff] at hr
          obtain ⟨m1, e1, pn', e2, hr⟩ := hr
          have S1 := constrainEdge_steps g.inv e1
          have g1 := S1.sound g
          have F := constrainEdge_fence g.inv e1
          rw [hi.nx_nx, hi.pv_nx] at F
          have hw : Pos m (m.p (pv i)) (px + (m.x (m.p (pv i)) - px)) (py + (m.y (m.p (pv i)) - py)) :=
            ⟨g.inv.pl _ hi.pv, by ring, by ring⟩
          obtain ⟨n, R⟩ := ih2 _ _ _ _ _ _ _ (m.p (pv i)) v g1 (loc g1.inv e2) (S1.pos hw) (S1.pos hv) hr
          have S2 := st2 _ _ _ _ _ _ _ _ g1.inv (loc g1.inv e2) hr
          have al : m.Along 0 (m.p i) v (m.p (pv i)) := by
            by_cases ew : v = m.p (pv i)
            · rw [← ew]; exact along_right m (le_refl _) _ _
            have le : (m.x (m.p (nx i)) - px) * q.y - (m.y (m.p (nx i)) - py) * q.x ≤
                (m.x (m.p (nx i)) - px) * (m.y (m.p (pv i)) - py) - (m.y (m.p (nx i)) - py) * (m.x (m.p (pv i)) - px) := by
              by_contra hc
              push Not at hc
              rcases out ⟨by linarith, by linarith, by linarith⟩ with e | e | e
              · exact nu e
              · exact n1 e
              · exact ew e
            rw [along_zero]
            rw [hv.2.1, hv.2.2, hx, hy]
            generalize m.x (m.p (nx i)) = x1 at *
            generalize m.y (m.p (nx i)) = y1 at *
            generalize m.x (m.p (pv i)) = x2 at *
            generalize m.y (m.p (pv i)) = y2 at *
            have ha' : ((((x1 - px) * q.y - (y1 - py) * q.x : Int)) : ℚ) < 0 := by exact_mod_cast ha
            have le' : ((((x1 - px) * q.y - (y1 - py) * q.x : Int)) : ℚ) ≤ (((x1 - px) * (y2 - py) - (y1 - py) * (x2 - px) : Int) : ℚ) := by
              exact_mod_cast le
            have cw' : (((x1 - px) * (y2 - py) - (y1 - py) * (x2 - px) : Int) : ℚ) < 0 := by
              exact_mod_cast cw
            have b' : ((((x2 - px) * q.y - (y2 - py) * q.x : Int)) : ℚ) = 0 := by exact_mod_cast hb0
            refine ⟨(((x1 - px) * (y2 - py) - (y1 - py) * (x2 - px) : Int) : ℚ) / ((((x1 - px) * q.y - (y1 - py) * q.x : Int)) : ℚ), ?_, ?_, ?_, ?_⟩
            · exact div_nonneg_of_nonpos cw'.le ha'.le
            · rw [div_le_one_of_neg ha']; exact le'
            · rw [div_mul_eq_mul_div, ← sub_eq_iff_eq_add', eq_div_iff ha'.ne]
              push_cast at b' ⊢
              linear_combination ((x1 : ℚ) - px) * b'
            · rw [div_mul_eq_mul_div, ← sub_eq_iff_eq_add', eq_div_iff ha'.ne]
              push_cast at b' ⊢
              linear_combination ((y1 : ℚ) - py) * b'
          have S := S1.trans S2
          refine ⟨0 + n, .pass (al.keep S.keep.2 hu.1 hv.1 hw.1) (.straight ?_) R⟩
          exact S2.fence g1.inv (S1.pos hu).1 (S1.pos hw).1 F.symm
        · rename_i hb0
          have ew : v ≠ m.p (pv i) := by
            rintro rfl
            rw [hv.2.1, hv.2.2] at hb0
            apply hb0; ring
          have le : (m.x (m.p (nx i)) - px) * q.y - (m.y (m.p (nx i)) - py) * q.x - ((m.x (m.p (pv i)) - px) * q.y - (m.y (m.p (pv i)) - py) * q.x) ≤
              (m.x (m.p (nx i)) - px) * (m.y (m.p (pv i)) - py) - (m.y (m.p (nx i)) - py) * (m.x (m.p (pv i)) - px) := by
            by_contra hc
            push Not at hc
            rcases out ⟨by linarith, by linarith, by linarith⟩ with e | e | e
            · exact nu e
            · exact n1 e
            · exact ew e
          simp only [Option.bind_eq_bind, Option.bind_eq_some_iff] at hr
          obtain ⟨⟨m1, done⟩, e1, hr⟩ := hr
          have S1 := tryFlip_steps g.inv hi e1
          have g1 := S1.sound g
          simp only at hr
          split at hr
          · simp only [Option.bind_eq_some_iff] at hr
            obtain ⟨pn', e2, hr⟩ := hr
            exact ih2 _ _ _ _ _ _ _ _ v g1 (loc g1.inv e2) (S1.pos hu) (S1.pos hv) hr
          · exact ih4 _ _ _ _ _ _ _ _ _ v g1 (S1.pos hu) (S1.pos hv) (fun r hr => intersect_near le cw hr) hr
      · exact ih2 _ _ _ _ _ _ _ _ v g (g.inv.twin hi.pv) hu hv hr
    · intro m m' px py q a b hint u v g hu hv hn hr
      rw [splitConstraint] at hr
      simp only [Option.bind_eq_bind, Option.bind_eq_some_iff] at hr
      obtain ⟨r, er, hr⟩ := hr
      split at hr
      · simp at hr
      simp only [Option.bind_eq_some_iff] at hr
      obtain ⟨⟨m1, pr⟩, e1, ⟨m2, rq⟩, e2, hr⟩ := hr
      simp only [Option.some.injEq, Prod.mk.injEq, Bool.and_eq_true] at hr
      obtain ⟨hm, h1, h2⟩ := hr
      subst h1 h2 hm
      have S1 := st1 _ _ _ _ _ _ _ _ g.inv e1
      have g1 := S1.sound g
      have S2 := st1 _ _ _ _ _ _ _ _ g1.inv e2
      have g2 := S2.sound g1
      obtain ⟨u1, r1, n1, pu, pr, R1⟩ := ih1 _ _ _ _ _ _ _ g e1
      obtain ⟨r2, v2, n2, pr', pv', R2⟩ := ih1 _ _ _ _ _ _ _ g1 e2
      have eu := g1.same (S1.pos hu) pu
      have er' := g2.same (S2.pos pr) pr'
      have ev := g2.same (S2.pos (S1.pos hv)) pv'
      subst eu er' ev
      obtain ⟨t, t0, t1, nx', ny⟩ := hn r er
      refine ⟨n1 + n2 + 1, .bend ⟨t, t0, t1, ?_, ?_⟩ (S2.route g1.inv pu.1 R1) R2⟩
      · rw [pr'.2.1, pv'.2.1, (S2.pos pu).2.1]
        convert nx' using 2
        push_cast; ring
      · rw [pr'.2.2, pv'.2.2, (S2.pos pu).2.2]
        convert ny using 2
        push_cast; ring

end CE.Cdt
