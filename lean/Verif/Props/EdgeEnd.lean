import Verif.Proof.CdtEndWalk
/-! C112: when `insert_edge` ends, and how many vertices it adds. -/
namespace CE.Cdt

variable {limit : Nat} {m m' : Mesh} {px py qx qy : Int}

theorem reach_sound (h : Reach limit m) : Sound m := by
  obtain ⟨I, R⟩ := reach_inv h
  obtain ⟨C, D⟩ := reach_tiled h
  exact ⟨I, R, C, D⟩

theorem fineE_bound {r : Run} (F : FineE m px py qx qy r) (hpq : ¬ (px = qx ∧ py = qy)) {ok} (h : r = .done m' ok) :
    m'.size ≤ m.size + ((qx - px).natAbs + (qy - py).natAbs + 1) := by
  have := (F m' ok h).2
  have d := dist_pos hpq
  have a1 : absent m px py ≤ 1 := by unfold Cdt.absent; split <;> omega
  have a2 : absent m qx qy ≤ 1 := by unfold Cdt.absent; split <;> omega
  unfold dist at *
  omega

/-- C112.  The run that is spoken of below is the run of the code: with the walk as the search it gives what `insertEdge` gives. -/
theorem C112_same (m m' : Mesh) (hint : Nat) (ok : Bool) :
    (∃ k, insertEdge limit k m px py qx qy hint = some (m', ok)) ↔
      ∃ k, insertEdgeBy walking limit k m px py qx qy hint = some (.done m' ok) := by
  constructor
  · rintro ⟨k, h⟩
    exact ⟨k, (by_same limit k).1 _ _ _ _ _ _ _ _ h⟩
  · rintro ⟨k, h⟩
    obtain ⟨K, hK⟩ := (by_ends limit k).1 _ _ _ _ _ _ _ _ h
    exact ⟨K, hK K (le_refl _)⟩

/-- C112.  With the exhaustive search that the code contains, switched off, `insert_edge` from a point that is not a corner of the square
ends on every mesh a program can have: no assertion fails, no rounding of an intersection makes it go around for ever. -/
theorem C112_search (h : Reach limit m) (hc : ¬ ((px = -32768 ∨ px = 32767) ∧ (py = -32768 ∨ py = 32767))) (hint : Nat) :
    ∃ m' ok K, ∀ k, K ≤ k → insertEdgeBy search limit k m px py qx qy hint = some (.done m' ok) := by
  obtain ⟨r, ⟨K, hK⟩, -⟩ := edge_ends (limit := limit) search_right _ m px py qx qy hint (reach_sound h) hc rfl
  cases r with
  | done m' ok => exact ⟨m', ok, K, hK⟩
  | lost =>
    exfalso
    have := search_found limit K
    exact this.1 _ _ _ _ _ _ (hK K (le_refl _))

/-- C112.  With the walk of the code it ends unless one of the walks does not: either `insert_edge` gives a result, or the run comes to a
search that never answers, and then `insert_edge` gives none. -/
theorem C112_only_walks_partial (h : Reach limit m) (hc : ¬ ((px = -32768 ∨ px = 32767) ∧ (py = -32768 ∨ py = 32767))) (hint : Nat) :
    (∃ m' ok K, ∀ k, K ≤ k → insertEdge limit k m px py qx qy hint = some (m', ok)) ∨
    ((∃ K, ∀ k, K ≤ k → insertEdgeBy walking limit k m px py qx qy hint = some .lost) ∧
      ∀ k, insertEdge limit k m px py qx qy hint = none) := by
  obtain ⟨r, ⟨K, hK⟩, -⟩ := edge_ends (limit := limit) walking_right _ m px py qx qy hint (reach_sound h) hc rfl
  cases r with
  | done m' ok =>
    obtain ⟨K', hK'⟩ := (by_ends limit K).1 _ _ _ _ _ _ _ _ (hK K (le_refl _))
    exact Or.inl ⟨m', ok, K', hK'⟩
  | lost =>
    refine Or.inr ⟨⟨K, hK⟩, fun k => ?_⟩
    cases e : insertEdge limit k m px py qx qy hint with
    | none => rfl
    | some x =>
      exfalso
      obtain ⟨m', ok⟩ := x
      obtain ⟨K', hK'⟩ := (by_ends limit k).1 _ _ _ _ _ _ _ _ ((by_same limit k).1 _ _ _ _ _ _ _ _ e)
      have h1 := (by_same limit (max K K')).1 _ _ _ _ _ _ _ _ (hK' (max K K') (le_max_right _ _))
      have h2 := hK (max K K') (le_max_left _ _)
      simp only at h2
      rw [h2] at h1
      cases h1

/-- C112.  What `insert_edge` adds: however many edges it crosses, at most one vertex for every unit step between the ends, and the ends. -/
theorem C112_bound (h : Reach limit m) (hc : ¬ ((px = -32768 ∨ px = 32767) ∧ (py = -32768 ∨ py = 32767))) (hpq : ¬ (px = qx ∧ py = qy))
    {hint k ok} (hr : insertEdge limit k m px py qx qy hint = some (m', ok)) :
    m'.size ≤ m.size + ((qx - px).natAbs + (qy - py).natAbs + 1) := by
  obtain ⟨r, ⟨K, hK⟩, F⟩ := edge_ends (limit := limit) walking_right _ m px py qx qy hint (reach_sound h) hc rfl
  obtain ⟨K', hK'⟩ := (by_ends limit k).1 _ _ _ _ _ _ _ _ ((by_same limit k).1 _ _ _ _ _ _ _ _ hr)
  have h1 := (by_same limit (max K K')).1 _ _ _ _ _ _ _ _ (hK' (max K K') (le_max_right _ _))
  have h2 := hK (max K K') (le_max_left _ _)
  simp only at h2
  rw [h2] at h1
  exact fineE_bound F hpq (Option.some.inj h1)

/-- C112.  A walk can fail to end: after three calls of `insert_edge` and three of `insert_point` a further `insert_edge` from the origin
does not return. -/
theorem C112_walk_false : ∃ m, Reach 100 m ∧ ∀ k, insertEdge 100 k m 0 0 100 0 0 = none := by
  refine ⟨spin, spin_reach, fun k => ?_⟩
  have : ∀ k, locateIns k spin 0 0 0 = none := by
    intro k
    have h8 : spin.size = 13 := by decide +kernel
    simp only [locateIns, h8]
    exact walkFrom_loops (N := 7) (L := 8) (t := (false, 65, ⟨-6339, -13595⟩, ⟨-1775, 3806⟩)) (by decide +kernel) (by decide +kernel) k
  cases k with
  | zero => rw [insertEdge]
  | succ k => rw [insertEdge, this k]; rfl

/-- one point -/
def kite : Mesh := ((insertPoint 100 30 sample0 (-1000) 100 0).get (by decide +kernel)).1
/-- and another -/
def kite2 : Mesh := ((insertAt 100 30 kite 100 200 26).get (by decide +kernel)).1

theorem kite_reach : Reach 100 kite := by
  unfold kite
  exact .point (.reset _) (get_pair _ _)

/-- C112.  From a corner of the square `insert_edge` need not end either: it turns around the corner in one direction only, and steps out
of the square.  Here the mesh has one point, and the edge goes to a new one; the other way around it is inserted. -/
theorem C112_corner_false : ∃ m, Reach 100 m ∧ (∀ k, insertEdge 100 k m (-32768) (-32768) 100 200 0 = none) ∧
    (insertEdge 100 60 m 100 200 (-32768) (-32768) 0).map (·.2) = some true := by
  refine ⟨kite, kite_reach, fun k => ?_, by decide +kernel⟩
  cases e : insertEdge 100 k kite (-32768) (-32768) 100 200 0 with
  | none => rfl
  | some x =>
    exfalso
    obtain ⟨m', ok⟩ := x
    obtain ⟨K, hK⟩ := (by_ends 100 k).1 _ _ _ _ _ _ _ _ ((by_same 100 k).1 _ _ _ _ _ _ _ _ e)
    have h := hK (K + 33 + 1) (by omega)
    simp only at h
    have a1 : insertAt 100 (K + 33) kite (-32768) (-32768) 36 = some (kite, 36) := by
      unfold insertAt
      rw [if_neg (by decide), if_neg (by decide +kernel), if_neg (by decide +kernel), if_pos (by decide +kernel)]
    have a2 : insertAt 100 (K + 33) kite 100 200 26 = some (kite2, 27) :=
      insertAt_mono' (k := 30) (by omega) (by
        have h1 : insertAt 100 30 kite 100 200 26 = some ((insertAt 100 30 kite 100 200 26).get (by decide +kernel)) := by simp
        rw [h1, Option.some.injEq]
        exact Prod.ext rfl (by decide +kernel))
    rw [insertEdge, locateIns_mono (k := 30) (n := 36) (by omega) (by decide +kernel)] at h
    simp only [Option.bind_eq_bind, Option.bind_some, a1] at h
    rw [if_neg (by decide), if_neg (by decide), locateIns_mono (k := 30) (n := 26) (by omega) (by decide +kernel)] at h
    simp only [Option.bind_some, a2] at h
    rw [if_neg (by decide), locateIns_mono (k := 30) (n := 36) (by omega) (by decide +kernel)] at h
    simp only [Option.bind_some] at h
    rw [edgeLoop] at h
    simp only at h
    rw [if_neg (by decide), if_neg (by decide +kernel), if_pos (by decide +kernel)] at h
    rw [corner] at h
    simp only at h
    rw [if_neg (by decide +kernel), show kite2.e (pv (36 / 4 * 4)) = 0 by decide +kernel] at h
    rw [edgeLoop] at h
    simp only at h
    rw [if_neg (by decide), if_pos (by decide +kernel)] at h
    cases h

/-! the hypotheses are met -/

example : Reach 100 sample ∧ ¬ (((0 : Int) = -32768 ∨ (0 : Int) = 32767) ∧ ((0 : Int) = -32768 ∨ (0 : Int) = 32767)) := ⟨sample_reach, by decide⟩

/-- an edge across a constrained one: the point of intersection is rounded to beside the edge, which is cut again, and the last piece is
given up; four vertices are added -/
example : sample.size = 6 ∧ (insertEdge 100 60 sample (-10000) 2000 1000 (-8000) 0).map (fun r => (r.1.size, r.2)) = some (10, false) := by
  decide +kernel

/-- the exhaustive search gets out of the mesh on which the walk does not -/
example : (insertEdgeBy search 100 60 spin 0 0 100 0 0).map (fun r => match r with | .lost => 0 | .done m _ => m.size) = some 15 := by
  decide +kernel

end CE.Cdt
