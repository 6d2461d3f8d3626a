import Verif.Props.Near
import Verif.Props.View
/-! C142: looking for the vertex nearest to a point, from the face that `locate` returns. -/
namespace CE.Cdt

variable {m : Mesh} {limit : Nat}

/-- one step of the search: along an edge, to a vertex that is strictly nearer to the point -/
def Nearer (m : Mesh) (qx qy : ℝ) (u v : Nat) : Prop := v < m.size ∧ m.Joined u v ∧ m.from2 qx qy v < m.from2 qx qy u

/-- C142.  A search that goes along edges from vertex to vertex, strictly nearer to the point with each step, passes each vertex at most
once, and where no step is left it is at a vertex that is nearest of all. -/
theorem C142_search (h : Points limit m) (qx qy : ℝ) {u : Nat} (hu : u < m.size) {l : List Nat}
    (steps : List.IsChain (Nearer m qx qy) (u :: l)) :
    (u :: l).Nodup ∧ l.length < m.size ∧
    ((∀ v, ¬ Nearer m qx qy ((u :: l).getLast (by simp)) v) →
      ∀ v, v < m.size → m.from2 qx qy ((u :: l).getLast (by simp)) ≤ m.from2 qx qy v) := by
  have nd : (u :: l).Nodup := by
    have c : List.IsChain (fun a b => m.from2 qx qy b < m.from2 qx qy a) (u :: l) := steps.imp fun _ _ s => s.2.2
    have : IsTrans Nat (fun a b => m.from2 qx qy b < m.from2 qx qy a) := ⟨fun a b c h1 h2 => lt_trans h2 h1⟩
    refine (List.isChain_iff_pairwise.1 c).imp ?_
    rintro a b lt rfl
    exact absurd lt (lt_irrefl _)
  have all : ∀ (l : List Nat) (u : Nat), u < m.size → List.IsChain (Nearer m qx qy) (u :: l) → ∀ v ∈ u :: l, v < m.size := by
    intro l
    induction l with
    | nil => intro u hu _ v hv; simp only [List.mem_singleton] at hv; exact hv ▸ hu
    | cons a l ih =>
      intro u hu c v hv
      rw [List.isChain_cons_cons] at c
      rcases List.mem_cons.1 hv with e | e
      · exact e ▸ hu
      · exact ih a c.1.1 c.2 v e
  have mem := all l u hu steps
  refine ⟨nd, ?_, fun no => ?_⟩
  · have := (List.subperm_of_subset nd (l₂ := List.range m.size) fun v hv => List.mem_range.2 (mem v hv)).length_le
    simp only [List.length_cons, List.length_range] at this
    omega
  · refine (C122_greedy h (mem _ (List.getLast_mem _)) qx qy).1 fun w hw j => ?_
    by_contra lt
    exact no w ⟨hw, j, not_le.1 lt⟩

/-- C142.  Such a search exists from each vertex to a nearest one. -/
theorem C142_reaches (h : Points limit m) (qx qy : ℝ) {u : Nat} (hu : u < m.size) :
    ∃ l, List.IsChain (Nearer m qx qy) (u :: l) ∧ ∀ v, v < m.size → m.from2 qx qy ((u :: l).getLast (by simp)) ≤ m.from2 qx qy v := by
  -- the longest search there is
  have bound : ∀ n, (∃ l, List.IsChain (Nearer m qx qy) (u :: l) ∧ l.length = n) → n ≤ m.size := by
    rintro n ⟨l, c, e⟩
    have := (C142_search h qx qy hu c).2.1
    omega
  classical
  have ex : ∃ n, ∃ l, List.IsChain (Nearer m qx qy) (u :: l) ∧ l.length = n := ⟨0, [], by simp, rfl⟩
  obtain ⟨n0, hn0⟩ := ex
  have spec := Nat.findGreatest_spec (P := fun n => ∃ l, List.IsChain (Nearer m qx qy) (u :: l) ∧ l.length = n) (bound n0 hn0) hn0
  obtain ⟨l, c, e⟩ := spec
  refine ⟨l, c, (C142_search h qx qy hu c).2.2 fun v s => ?_⟩
  have c' : List.IsChain (Nearer m qx qy) (u :: (l ++ [v])) := by
    rw [← List.cons_append, List.isChain_append]
    refine ⟨c, by simp, ?_⟩
    intro x hx y hy
    rw [List.getLast?_eq_getLast_of_ne_nil (by simp)] at hx
    simp only [Option.mem_def, Option.some.injEq, List.head?_cons] at hx hy
    rw [← hx, ← hy]
    exact s
  have := Nat.le_findGreatest (bound _ ⟨l ++ [v], c', rfl⟩) (P := fun n => ∃ l, List.IsChain (Nearer m qx qy) (u :: l) ∧ l.length = n)
    ⟨l ++ [v], c', rfl⟩
  rw [List.length_append, List.length_singleton] at this
  omega

/-- C142.  From the face that `locate` returns for a point, a search from each corner leads to a nearest vertex. -/
theorem C142_locate (h : Points limit m) {w px py : Int} (hw : 0 < w) {k hint r : Nat} (run : locate k m w px py hint = some r) (h0 : r ≠ 0) (j : Nat) :
    m.corner (r / 4) j < m.size ∧
    ∃ l, List.IsChain (Nearer m ((px : ℝ) / w) ((py : ℝ) / w)) (m.corner (r / 4) j :: l) ∧
      ∀ v, v < m.size → m.from2 ((px : ℝ) / w) ((py : ℝ) / w) ((m.corner (r / 4) j :: l).getLast (by simp)) ≤ m.from2 ((px : ℝ) / w) ((py : ℝ) / w) v := by
  rcases C75_locate h.marked.reach hw run with ⟨e, -⟩ | ⟨uf, -, -⟩
  · exact absurd e h0
  · obtain ⟨I, -⟩ := reach_inv h.marked.reach
    have hu : m.corner (r / 4) j < m.size := by
      unfold Mesh.corner
      exact I.pl _ (uf.isE (Nat.mod_lt _ (by omega)))
    exact ⟨hu, C142_reaches h _ _ hu⟩

/-- the mesh of the examples: three points that are almost in a line -/
def thin1 : Mesh := ((insertPoint 100 60 sample0 (-100) 0 0).get (by decide +kernel)).1
/-- the second -/
def thin2 : Mesh := ((insertPoint 100 60 thin1 100 0 0).get (by decide +kernel)).1
/-- the third -/
def thin3 : Mesh := ((insertPoint 100 60 thin2 0 (-2) 0).get (by decide +kernel)).1

theorem thin3_points : Points 100 thin3 := by
  have h1 : Points 100 thin1 := by
    unfold thin1
    exact .point (.reset _) (get_pair _ _)
  have h2 : Points 100 thin2 := by
    unfold thin2
    exact .point h1 (get_pair _ _)
  unfold thin3
  exact .point h2 (get_pair _ _)

/-- C142.  The corners of the face that `locate` returns do not do: here the point (0, 1) is in a face with all corners at least 100 away, and
there is a vertex at distance 3. -/
theorem C142_corners_false : ¬ ∀ (limit : Nat) (m : Mesh) (w px py : Int) (k hint r : Nat), Points limit m → 0 < w →
    locate k m w px py hint = some r → r ≠ 0 →
    ∃ j, j < 3 ∧ ∀ v, v < m.size →
      (w * m.x (m.corner (r / 4) j) - px) ^ 2 + (w * m.y (m.corner (r / 4) j) - py) ^ 2 ≤ (w * m.x v - px) ^ 2 + (w * m.y v - py) ^ 2 := by
  intro H
  obtain ⟨j, hj, a⟩ := H 100 thin3 2 0 2 60 0 47 thin3_points (by decide) (by decide +kernel) (by decide)
  have := a 6 (by decide +kernel)
  have no : ∀ j, j < 3 → ¬ (2 * thin3.x (thin3.corner (47 / 4) j) - 0) ^ 2 + (2 * thin3.y (thin3.corner (47 / 4) j) - 2) ^ 2 ≤
      (2 * thin3.x 6 - 0) ^ 2 + (2 * thin3.y 6 - 2) ^ 2 := by decide +kernel
  exact no j hj this

-- the search of the example: from vertex 4, a corner of the face, to vertex 6
example : Points 100 thin3 ∧ locate 60 thin3 2 0 2 0 = some 47 ∧ thin3.corner 11 0 = 4 ∧ List.IsChain (Nearer thin3 0 1) [4, 6] := by
  refine ⟨thin3_points, by decide +kernel, by decide +kernel, ?_⟩
  rw [List.isChain_cons_cons]
  refine ⟨⟨by decide +kernel, ⟨12, 0, by unfold Used; decide +kernel, by decide, Or.inl (by decide +kernel)⟩, ?_⟩, by simp⟩
  have e : thin3.x 6 = 0 ∧ thin3.y 6 = -2 ∧ thin3.x 4 = -100 ∧ thin3.y 4 = 0 := by decide +kernel
  unfold Mesh.from2
  rw [e.1, e.2.1, e.2.2.1, e.2.2.2]
  norm_num

end CE.Cdt
