import Verif.Proof.CdtEndRun
import Verif.Props.CdtLinear
/-! The two searches of `Verif/Model/CdtBy.lean`, and `insert_edge` with the walk against `insertEdge`. -/
namespace CE.Cdt

open CE.Vec

variable {m m' : Mesh} {px py qx qy : Int} {limit : Nat}

/-! ### the searches -/

theorem search_right : Right search := by
  intro m x y hint n g h
  have hs := g.inv.sz
  unfold search at h
  split at h
  · rename_i f e
    simp only [Option.some.injEq] at h
    subst h
    right
    have hm := List.mem_of_find?_eq_some e
    rw [List.mem_reverse, List.mem_range'_1] at hm
    have hi : IsE m.size (f * 4) := by unfold IsE; omega
    refine ⟨hi, ?_⟩
    rw [mul_comm]
    rw [mul_comm] at hi
    have hp : m.inFace x y (4 * f) = true := List.find?_some (p := fun f => m.inFace x y (4 * f)) e
    exact (inFace_iff (base hi (by omega))).1 hp
  · rename_i e
    simp only [Option.some.injEq] at h
    left
    refine ⟨h.symm, fun i hi hin => ?_⟩
    rw [List.find?_eq_none] at e
    have := e (i / 4) (by rw [List.mem_reverse, List.mem_range'_1]; unfold IsE at hi; omega)
    apply this
    have hb := hi.base
    rw [mul_comm] at hb
    rw [inFace_iff (base hb (by omega)), mul_comm]
    exact InClosed.base hi hin

theorem search_some (m : Mesh) (x y : Int) (hint : Nat) : ∃ n, search m x y hint = some n := by
  unfold search; split
  · exact ⟨_, rfl⟩
  · exact ⟨_, rfl⟩

/-- the exhaustive search always answers -/
theorem search_found (limit : Nat) : ∀ k,
    (∀ m px py qx qy hint, insertEdgeBy search limit k m px py qx qy hint ≠ some .lost) ∧
    (∀ m px py qx qy pn, edgeLoopBy search limit k m px py qx qy pn ≠ some .lost) ∧
    (∀ m px py q i pn, cornerBy search limit k m px py q i pn ≠ some .lost) ∧
    (∀ m px py q a b hint, splitConstraintBy search limit k m px py q a b hint ≠ some .lost) := by
  intro k
  induction k with
  | zero =>
    refine ⟨?_, ?_, ?_, ?_⟩
    · intro m px py qx qy hint h; simp [insertEdgeBy] at h
    · intro m px py qx qy hint h; simp [edgeLoopBy] at h
    · intro m px py qx qy hint h; simp [cornerBy] at h
    · intro m px py qx qy hint r h; simp [splitConstraintBy] at h
  | succ k ih =>
    obtain ⟨ihI, ihL, ihC, ihS⟩ := ih
    have no : ∀ {m x y hint}, search m x y hint ≠ none := by
      intro m x y hint h
      obtain ⟨n, hn⟩ := search_some m x y hint
      rw [hn] at h; cases h
    refine ⟨?_, ?_, ?_, ?_⟩
    · intro m px py qx qy hint h
      rw [insertEdgeBy] at h
      split at h
      · rename_i e; exact no e
      split at h
      · cases h
      split at h
      · cases h
      split at h
      · cases h
      split at h
      · rename_i e; exact no e
      split at h
      · cases h
      split at h
      · cases h
      split at h
      · rename_i e; exact no e
      exact ihL _ _ _ _ _ _ h
    · intro m px py qx qy pn h
      rw [edgeLoopBy] at h
      simp only at h
      split at h
      · cases h
      split at h
      · cases h
      split at h
      · exact ihC _ _ _ _ _ _ h
      split at h
      · exact ihC _ _ _ _ _ _ h
      split at h
      · exact ihC _ _ _ _ _ _ h
      cases h
    · intro m px py q i pn h
      rw [cornerBy] at h
      simp only at h
      split at h
      · split at h
        · split at h
          · cases h
          split at h
          · rename_i e; exact no e
          exact ihL _ _ _ _ _ _ h
        · split at h
          · cases h
          · split at h
            · rename_i e; exact no e
            exact ihL _ _ _ _ _ _ h
          · exact ihS _ _ _ _ _ _ _ h
      · exact ihL _ _ _ _ _ _ h
    · intro m px py q a b hint h
      rw [splitConstraintBy] at h
      split at h
      · cases h
      split at h
      · cases h
      split at h
      · cases h
      · rename_i e; exact ihI _ _ _ _ _ _ e
      split at h
      · cases h
      · rename_i e; exact ihI _ _ _ _ _ _ e
      cases h

theorem walking_spec {x y hint n} (h : walking m x y hint = some n) : ∃ k, locateIns k m x y hint = some n := by
  unfold walking at h
  split at h
  · rename_i e
    simp only [Option.some.injEq] at h
    rw [← h]
    exact e.choose_spec
  · simp at h

theorem walking_of {x y hint n k} (h : locateIns k m x y hint = some n) : walking m x y hint = some n := by
  cases e : walking m x y hint with
  | none =>
    unfold walking at e
    split at e
    · simp at e
    · rename_i no
      exact absurd ⟨n, k, h⟩ no
  | some n' =>
    obtain ⟨k', h'⟩ := walking_spec e
    have h1 := locateIns_mono (le_max_left k k') h
    have h2 := locateIns_mono (le_max_right k k') h'
    rw [h1] at h2
    exact h2.symm

theorem walking_right : Right walking := by
  intro m x y hint n g h
  obtain ⟨k, hk⟩ := walking_spec h
  rcases locateIns_spec g.inv hk with ⟨e, i, b, hp⟩ | e
  · refine Or.inl ⟨e, fun j hj hin => ?_⟩
    obtain ⟨h1, h2⟩ := g.inv.range hj hin
    have := g.rim.inner b h1 h2
    omega
  · exact Or.inr e

/-! ### the walk -/

theorem insertAt_mono' {k k' n r} (hk : k ≤ k') (hr : insertAt limit k m px py n = some r) : insertAt limit k' m px py n = some r := by
  rw [← insertAtC_fst] at hr ⊢
  rw [Option.map_eq_some_iff] at hr ⊢
  obtain ⟨a, h, e⟩ := hr
  refine ⟨a, ?_, e⟩
  unfold insertAtC at *
  simp only [Option.bind_eq_bind, Option.bind_eq_some_iff] at h ⊢
  obtain ⟨x, h2, y, h3, h4⟩ := h
  exact ⟨x, h2, y, flipsC_mono' hk h3, h4⟩

/-- what the code computes is what is computed with the walk as the search -/
theorem by_same (limit : Nat) : ∀ k,
    (∀ m m' px py qx qy hint d, insertEdge limit k m px py qx qy hint = some (m', d) →
      insertEdgeBy walking limit k m px py qx qy hint = some (.done m' d)) ∧
    (∀ m m' px py qx qy pn d, edgeLoop limit k m px py qx qy pn = some (m', d) →
      edgeLoopBy walking limit k m px py qx qy pn = some (.done m' d)) ∧
    (∀ m m' px py q i pn d, corner limit k m px py q i pn = some (m', d) →
      cornerBy walking limit k m px py q i pn = some (.done m' d)) ∧
    (∀ m m' px py q a b hint d, splitConstraint limit k m px py q a b hint = some (m', d) →
      splitConstraintBy walking limit k m px py q a b hint = some (.done m' d)) := by
  intro k
  induction k with
  | zero =>
    refine ⟨?_, ?_, ?_, ?_⟩
    · intro m m' px py qx qy hint d h; simp [insertEdge] at h
    · intro m m' px py qx qy hint d h; simp [edgeLoop] at h
    · intro m m' px py qx qy hint d h; simp [corner] at h
    · intro m m' px py qx qy hint d r h; simp [splitConstraint] at h
  | succ k ih =>
    obtain ⟨ihI, ihL, ihC, ihS⟩ := ih
    refine ⟨?_, ?_, ?_, ?_⟩
    · intro m m' px py qx qy hint d h
      rw [insertEdge] at h
      simp only [Option.bind_eq_bind, Option.bind_eq_some_iff] at h
      obtain ⟨n, h1, ⟨m1, pn⟩, h2, h⟩ := h
      rw [insertEdgeBy]
      simp only [walking_of h1, h2]
      split at h
      · rename_i c
        simp only [Option.some.injEq, Prod.mk.injEq] at h
        rw [if_pos c, h.1, h.2]
      · rename_i c
        rw [if_neg c]
        split at h
        · rename_i c
          simp only [Option.some.injEq, Prod.mk.injEq] at h
          rw [if_pos c, h.1, h.2]
        · rename_i c
          rw [if_neg c]
          simp only [Option.bind_eq_some_iff] at h
          obtain ⟨n2, h3, ⟨m2, qn⟩, h4, h⟩ := h
          simp only [walking_of h3, h4]
          split at h
          · rename_i c
            simp only [Option.some.injEq, Prod.mk.injEq] at h
            rw [if_pos c, h.1, h.2]
          · rename_i c
            rw [if_neg c]
            simp only [Option.bind_eq_some_iff] at h
            obtain ⟨n3, h5, h⟩ := h
            simp only [walking_of h5]
            exact ihL _ _ _ _ _ _ _ _ h
    · intro m m' px py qx qy pn d h
      rw [edgeLoop] at h
      rw [edgeLoopBy]
      simp only at h ⊢
      split at h
      · rename_i c
        simp only [Option.some.injEq, Prod.mk.injEq] at h
        rw [if_pos c, h.1, h.2]
      · rename_i c
        rw [if_neg c]
        split at h
        · simp at h
        · rename_i c
          rw [if_neg c]
          split at h
          · rename_i c
            rw [if_pos c]; exact ihC _ _ _ _ _ _ _ _ h
          · rename_i c
            rw [if_neg c]
            split at h
            · rename_i c
              rw [if_pos c]; exact ihC _ _ _ _ _ _ _ _ h
            · rename_i c
              rw [if_neg c]
              split at h
              · rename_i c
                rw [if_pos c]; exact ihC _ _ _ _ _ _ _ _ h
              · simp at h
    · intro m m' px py q i pn d h
      rw [corner] at h
      rw [cornerBy]
      simp only at h ⊢
      split at h
      · rename_i c
        rw [if_pos c]
        split at h
        · rename_i c
          rw [if_pos c]
          simp only [Option.bind_eq_bind, Option.bind_eq_some_iff] at h
          obtain ⟨m1, h1, n, h2, h⟩ := h
          simp only [h1, walking_of h2]
          exact ihL _ _ _ _ _ _ _ _ h
        · rename_i c
          rw [if_neg c]
          simp only [Option.bind_eq_bind, Option.bind_eq_some_iff] at h
          obtain ⟨⟨m1, done⟩, h1, h⟩ := h
          cases done
          · simp only [Bool.false_eq_true, if_false] at h
            simp only [h1]
            exact ihS _ _ _ _ _ _ _ _ _ h
          · simp only [if_true, Option.bind_eq_some_iff] at h
            obtain ⟨n, h2, h⟩ := h
            simp only [h1, walking_of h2]
            exact ihL _ _ _ _ _ _ _ _ h
      · rename_i c
        rw [if_neg c]
        exact ihL _ _ _ _ _ _ _ _ h
    · intro m m' px py q a b hint d h
      rw [splitConstraint] at h
      rw [splitConstraintBy]
      simp only [Option.bind_eq_bind, Option.bind_eq_some_iff] at h
      obtain ⟨r, h1, h⟩ := h
      simp only [h1]
      split at h
      · rename_i c
        simp only [Option.some.injEq, Prod.mk.injEq] at h
        rw [if_pos c, h.1, h.2]
      · rename_i c
        rw [if_neg c]
        simp only [Option.bind_eq_some_iff] at h
        obtain ⟨⟨m1, pr⟩, h2, ⟨m2, rq⟩, h3, h⟩ := h
        simp only [Option.some.injEq, Prod.mk.injEq] at h
        simp only [ihI _ _ _ _ _ _ _ _ h2, ihI _ _ _ _ _ _ _ _ h3, h.1, h.2]

/-- and the other way: when every walk ends, so does the code -/
theorem by_ends (limit : Nat) : ∀ k,
    (∀ m m' px py qx qy hint d, insertEdgeBy walking limit k m px py qx qy hint = some (.done m' d) →
      Ends (fun k => insertEdge limit k m px py qx qy hint) (m', d)) ∧
    (∀ m m' px py qx qy pn d, edgeLoopBy walking limit k m px py qx qy pn = some (.done m' d) →
      Ends (fun k => edgeLoop limit k m px py qx qy pn) (m', d)) ∧
    (∀ m m' px py q i pn d, cornerBy walking limit k m px py q i pn = some (.done m' d) →
      Ends (fun k => corner limit k m px py q i pn) (m', d)) ∧
    (∀ m m' px py q a b hint d, splitConstraintBy walking limit k m px py q a b hint = some (.done m' d) →
      Ends (fun k => splitConstraint limit k m px py q a b hint) (m', d)) := by
  intro k
  induction k with
  | zero =>
    refine ⟨?_, ?_, ?_, ?_⟩
    · intro m m' px py qx qy hint d h; simp [insertEdgeBy] at h
    · intro m m' px py qx qy hint d h; simp [edgeLoopBy] at h
    · intro m m' px py qx qy hint d h; simp [cornerBy] at h
    · intro m m' px py qx qy hint d r h; simp [splitConstraintBy] at h
  | succ k ih =>
    obtain ⟨ihI, ihL, ihC, ihS⟩ := ih
    refine ⟨?_, ?_, ?_, ?_⟩
    · intro m m' px py qx qy hint d h
      rw [insertEdgeBy] at h
      split at h
      · simp at h
      rename_i n e1
      obtain ⟨k1, w1⟩ := walking_spec e1
      split at h
      · simp at h
      rename_i m1 pn a1
      split at h
      · rename_i c
        simp only [Option.some.injEq, Run.done.injEq] at h
        refine (Ends.const (m', d)).succ ⟨max k k1, fun j hj => ?_⟩
        rw [insertEdge, locateIns_mono (by omega) w1]
        simp only [Option.bind_eq_bind, Option.bind_some, insertAt_mono' (show k ≤ j by omega) a1]
        rw [if_pos c, h.1, h.2]
      rename_i c1
      split at h
      · rename_i c
        simp only [Option.some.injEq, Run.done.injEq] at h
        refine (Ends.const (m', d)).succ ⟨max k k1, fun j hj => ?_⟩
        rw [insertEdge, locateIns_mono (by omega) w1]
        simp only [Option.bind_eq_bind, Option.bind_some, insertAt_mono' (show k ≤ j by omega) a1]
        rw [if_neg c1, if_pos c, h.1, h.2]
      rename_i c2
      split at h
      · simp at h
      rename_i n2 e2
      obtain ⟨k2, w2⟩ := walking_spec e2
      split at h
      · simp at h
      rename_i m2 qn a2
      split at h
      · rename_i c
        simp only [Option.some.injEq, Run.done.injEq] at h
        refine (Ends.const (m', d)).succ ⟨max k (max k1 k2), fun j hj => ?_⟩
        rw [insertEdge, locateIns_mono (by omega) w1]
        simp only [Option.bind_eq_bind, Option.bind_some, insertAt_mono' (show k ≤ j by omega) a1]
        rw [if_neg c1, if_neg c2, locateIns_mono (by omega) w2]
        simp only [Option.bind_some, insertAt_mono' (show k ≤ j by omega) a2]
        rw [if_pos c, h.1, h.2]
      rename_i c3
      split at h
      · simp at h
      rename_i n3 e3
      obtain ⟨k3, w3⟩ := walking_spec e3
      refine (ihL _ _ _ _ _ _ _ _ h).succ ⟨max k (max k1 (max k2 k3)), fun j hj => ?_⟩
      rw [insertEdge, locateIns_mono (by omega) w1]
      simp only [Option.bind_eq_bind, Option.bind_some, insertAt_mono' (show k ≤ j by omega) a1]
      rw [if_neg c1, if_neg c2, locateIns_mono (by omega) w2]
      simp only [Option.bind_some, insertAt_mono' (show k ≤ j by omega) a2]
      rw [if_neg c3, locateIns_mono (by omega) w3]
      rfl
    · intro m m' px py qx qy pn d h
      rw [edgeLoopBy] at h
      simp only at h
      split at h
      · rename_i c
        simp only [Option.some.injEq, Run.done.injEq] at h
        refine (Ends.const (m', d)).succ ⟨0, fun j _ => ?_⟩
        rw [edgeLoop]; simp only; rw [if_pos c, h.1, h.2]
      rename_i c1
      split at h
      · simp at h
      rename_i c2
      split at h
      · rename_i c
        refine (ihC _ _ _ _ _ _ _ _ h).succ ⟨0, fun j _ => ?_⟩
        rw [edgeLoop]; simp only; rw [if_neg c1, if_neg c2, if_pos c]
      rename_i c3
      split at h
      · rename_i c
        refine (ihC _ _ _ _ _ _ _ _ h).succ ⟨0, fun j _ => ?_⟩
        rw [edgeLoop]; simp only; rw [if_neg c1, if_neg c2, if_neg c3, if_pos c]
      rename_i c4
      split at h
      · rename_i c
        refine (ihC _ _ _ _ _ _ _ _ h).succ ⟨0, fun j _ => ?_⟩
        rw [edgeLoop]; simp only; rw [if_neg c1, if_neg c2, if_neg c3, if_neg c4, if_pos c]
      · simp at h
    · intro m m' px py q i pn d h
      rw [cornerBy] at h
      simp only at h
      split at h
      · rename_i c1
        split at h
        · rename_i c2
          split at h
          · simp at h
          rename_i m1 a1
          split at h
          · simp at h
          rename_i n e1
          obtain ⟨k1, w1⟩ := walking_spec e1
          refine (ihL _ _ _ _ _ _ _ _ h).succ ⟨max k k1, fun j hj => ?_⟩
          rw [corner]; simp only
          rw [if_pos c1, if_pos c2, constrainEdge_mono (show k ≤ j by omega) a1]
          simp only [Option.bind_eq_bind, Option.bind_some]
          rw [locateIns_mono (show k1 ≤ j by omega) w1]
          rfl
        · rename_i c2
          split at h
          · simp at h
          · rename_i m1 a1
            split at h
            · simp at h
            rename_i n e1
            obtain ⟨k1, w1⟩ := walking_spec e1
            refine (ihL _ _ _ _ _ _ _ _ h).succ ⟨max k k1, fun j hj => ?_⟩
            rw [corner]; simp only
            rw [if_pos c1, if_neg c2, a1]
            simp only [Option.bind_eq_bind, Option.bind_some, if_true]
            rw [locateIns_mono (show k1 ≤ j by omega) w1]
            rfl
          · rename_i m1 a1
            refine (ihS _ _ _ _ _ _ _ _ _ h).succ ⟨0, fun j hj => ?_⟩
            rw [corner]; simp only
            rw [if_pos c1, if_neg c2, a1]
            simp only [Option.bind_eq_bind, Option.bind_some, if_false, Bool.false_eq_true]
      · rename_i c1
        refine (ihL _ _ _ _ _ _ _ _ h).succ ⟨0, fun j hj => ?_⟩
        rw [corner]; simp only
        rw [if_neg c1]
    · intro m m' px py q a b hint d h
      rw [splitConstraintBy] at h
      split at h
      · simp at h
      rename_i r hr
      split at h
      · rename_i c
        simp only [Option.some.injEq, Run.done.injEq] at h
        refine (Ends.const (m', d)).succ ⟨0, fun j _ => ?_⟩
        rw [splitConstraint, hr]
        simp only [Option.bind_eq_bind, Option.bind_some]
        rw [if_pos c, h.1, h.2]
      rename_i c
      split at h
      · simp at h
      · simp at h
      rename_i m1 pr h1
      split at h
      · simp at h
      · simp at h
      rename_i m2 rq h2
      simp only [Option.some.injEq, Run.done.injEq] at h
      obtain ⟨k1, w1⟩ := ihI _ _ _ _ _ _ _ _ h1
      obtain ⟨k2, w2⟩ := ihI _ _ _ _ _ _ _ _ h2
      refine (Ends.const (m', d)).succ ⟨max k1 k2, fun j hj => ?_⟩
      rw [splitConstraint, hr]
      simp only [Option.bind_eq_bind, Option.bind_some]
      have w1 := w1 j (by omega)
      have w2 := w2 j (by omega)
      simp only at w1 w2
      rw [if_neg c, w1]
      simp only [Option.bind_some]
      rw [w2]
      simp only [Option.bind_some]
      rw [h.1, h.2]

end CE.Cdt
