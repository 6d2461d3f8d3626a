import Verif.Spec.CdtCost
import Verif.Props.Delaunay
import Verif.Proof.CdtStarSplit
/-! C110: the cost of inserting a point without constraints. -/
namespace CE.Cdt

variable {m m' : Mesh} {limit : Nat}

theorem fan_deg (m : Mesh) (v : Nat) : m.fan v = m.deg v := by
  unfold Mesh.fan Mesh.deg
  rw [← List.toFinset_card_of_nodup (List.Nodup.filter _ List.nodup_range)]
  congr 1
  ext f
  simp only [List.mem_toFinset, List.mem_filter, List.mem_range, decide_eq_true_eq, Finset.mem_filter, Finset.mem_Ico, Has,
    Mesh.corner]
  norm_num
  tauto

theorem Points.empty (h : Points limit m) : Empty m := by
  obtain ⟨I, R⟩ := reach_inv h.marked.reach
  exact fun i hi v hv => delaunay I R (reach_tiled h.marked.reach).1 h.full hi hv

/-- what an insertion does, with the number of flips -/
theorem insertPointC_run (h : Points limit m) (px py : Int) (hint : Nat) : ∃ m' r c,
    (∀ k d, 6 * m.size ≤ k → m.size ≤ d + 2 → insertPointC limit k d m px py hint = some (m', r, c)) ∧
    (m' = m ∧ c = 0 ∨ m'.size = m.size + 1 ∧ (m'.deg m.size = 3 + c ∨ m'.deg m.size = 4 + c) ∧ m'.deg m.size ≤ m.size) := by
  obtain ⟨I, R⟩ := reach_inv h.marked.reach
  obtain ⟨n, hn⟩ := locateIns_total I (h.full.tame I) px py hint
  rcases locateIns_spec I (hn _ (le_refl _)) with ⟨e, -⟩ | ⟨e, hin⟩
  · refine ⟨m, 0, 0, fun k d hk _ => ?_, Or.inl ⟨rfl, rfl⟩⟩
    simp [insertPointC, hn k hk, insertAtC, placeAt, e, flipsC]
  · obtain ⟨m', r, c, run, hc⟩ := insertAtC_run I R h.empty limit e.base (InClosed.base e hin)
    refine ⟨m', r, c, fun k d hk hd => by simp [insertPointC, hn k hk, run d hd], ?_⟩
    rcases hc with hc | ⟨h1, -, -, -, -, h2, h3⟩
    · exact Or.inl hc
    · exact Or.inr ⟨h1, h2, h3⟩

theorem locateIns_mono {k k' px py hint n} (hk : k ≤ k') (h : locateIns k m px py hint = some n) :
    locateIns k' m px py hint = some n := by
  unfold locateIns at *
  exact walkFrom_mono hk h

theorem insertPointC_mono {k k' d d' px py hint r} (hk : k ≤ k') (hd : d ≤ d') (h : insertPointC limit k d m px py hint = some r) :
    insertPointC limit k' d' m px py hint = some r := by
  unfold insertPointC insertAtC at *
  simp only [Option.bind_eq_bind, Option.bind_eq_some_iff] at h ⊢
  obtain ⟨n, h1, x, h2, y, h3, h4⟩ := h
  exact ⟨n, locateIns_mono hk h1, x, h2, y, flipsC_mono' hd h3, h4⟩

/-- C110.  Counting the flips does not change what is computed. -/
theorem C110_count (limit k : Nat) (m : Mesh) (px py : Int) (hint : Nat) :
    (insertPointC limit k k m px py hint).map (fun r => (r.1, r.2.1)) = insertPoint limit k m px py hint := by
  unfold insertPointC insertPoint
  cases hn : locateIns k m px py hint with
  | none => rfl
  | some n => exact insertAtC_fst limit k m px py n

/-- C110.  Without constraints `insert_point` takes at most `6 n` steps to find the place in a triangulation of `n` vertices, flips at
most `n - 3` edges, and its recursion is at most `n - 2` calls deep. -/
theorem C110_linear (h : Points limit m) (px py : Int) (hint : Nat) : ∃ m' r c, c + 3 ≤ m.size ∧
    ∀ k d, 6 * m.size ≤ k → m.size ≤ d + 2 → insertPointC limit k d m px py hint = some (m', r, c) := by
  obtain ⟨m', r, c, run, hc⟩ := insertPointC_run h px py hint
  have := (reach_inv h.marked.reach).1.sz
  exact ⟨m', r, c, by rcases hc with ⟨-, rfl⟩ | hc <;> omega, run⟩

/-- C110.  So `6 n` rounds suffice for the whole of `insert_point`. -/
theorem C110_insert_ends (h : Points limit m) (px py : Int) (hint : Nat) :
    ∃ r, ∀ k, 6 * m.size ≤ k → insertPoint limit k m px py hint = some r := by
  obtain ⟨m', r, c, -, run⟩ := C110_linear h px py hint
  exact ⟨(m', r), fun k hk => by rw [← C110_count, run k k hk (by omega)]; rfl⟩

/-- C110.  Every flip of an insertion adds one face at the new vertex to the three or four it starts with; no flip takes one away. -/
theorem C110_fan (h : Points limit m) {k d px py hint r c} (run : insertPointC limit k d m px py hint = some (m', r, c)) :
    (m' = m ∧ c = 0) ∨ (m'.size = m.size + 1 ∧ (m'.fan m.size = c + 3 ∨ m'.fan m.size = c + 4)) := by
  obtain ⟨m1, r1, c1, run1, hc⟩ := insertPointC_run h px py hint
  have e1 := run1 (max k (6 * m.size)) (max d m.size) (le_max_right _ _) (by have := le_max_right d m.size; omega)
  rw [insertPointC_mono (le_max_left _ _) (le_max_left _ _) run] at e1
  simp only [Option.some.injEq, Prod.mk.injEq] at e1
  obtain ⟨rfl, rfl, rfl⟩ := e1
  rw [fan_deg]
  rcases hc with hc | ⟨h1, h2, -⟩
  · exact Or.inl hc
  · exact Or.inr ⟨h1, by omega⟩

/-- C110.  In every triangulation a vertex has fewer faces than there are vertices. -/
theorem C110_fan_le (h : Reach limit m) {v} (hv : v < m.size) : m.fan v < m.size := by
  obtain ⟨I, R⟩ := reach_inv h
  rw [fan_deg]
  have := deg_le I R hv
  omega

/-- C110.  The bound on the flips is attained. -/
theorem C110_tight : ∃ m, Points 100 m ∧ ∃ k d px py m' r c, insertPointC 100 k d m px py 0 = some (m', r, c) ∧ c + 3 = m.size := by
  have e : (insertPointC 100 60 60 sample0 (-20000) (-10000) 0).map (fun r => r.2.2) = some 1 := by decide +kernel
  rw [Option.map_eq_some_iff] at e
  obtain ⟨⟨m', r, c⟩, e1, e2⟩ := e
  exact ⟨sample0, .reset _, 60, 60, -20000, -10000, m', r, c, e1, by simp only at e2; rw [e2]; decide +kernel⟩

-- three points and a fourth, inside a face and on an edge
example : Points 100 pts3 ∧ pts3.size = 7 ∧
    ((insertPointC 100 42 5 pts3 7 7 0).map fun r => (r.2.2, r.1.fan 7)) = some (1, 4) ∧
    ((insertPointC 100 42 5 pts3 (-7500) (-2000) 0).map fun r => (r.2.2, r.1.fan 7)) = some (1, 5) :=
  ⟨pts3_points, by decide +kernel, by decide +kernel, by decide +kernel⟩

end CE.Cdt
