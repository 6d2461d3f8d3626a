import Verif.Spec.Winding
import Mathlib.Data.List.Perm.Basic
/-! Edges of which as many start as end at every point are the sides of closed polygons. -/
namespace CE.Vec

/-- where the path ends -/
def tip (u : V2) : List V2 → V2
  | [] => u
  | v :: vs => tip v vs

theorem tip_append (u : V2) (as bs : List V2) : tip u (as ++ bs) = tip (tip u as) bs := by
  induction as generalizing u with
  | nil => rfl
  | cons a as ih => exact ih a

theorem edgesFrom_join (u : V2) (as bs : List V2) : edgesFrom u (as ++ bs) = edgesFrom u as ++ edgesFrom (tip u as) bs := by
  induction as generalizing u with
  | nil => rfl
  | cons a as ih => exact congrArg _ (ih a)

theorem getLast_tip (u : V2) {vs : List V2} (h : vs ≠ []) : vs.getLast? = some (tip u vs) := by
  induction vs generalizing u with
  | nil => exact absurd rfl h
  | cons v vs ih =>
    cases vs with
    | nil => rfl
    | cons w vs => rw [List.getLast?_cons_cons]; exact ih v (by simp)

theorem polyEdges_closed {u : V2} {vs : List V2} (h : vs ≠ []) (c : tip u vs = u) : polyEdges vs = edgesFrom u vs := by
  unfold polyEdges
  rw [getLast_tip u h, c]

/-- paths of which as many start as end at every point can be joined to closed polygons -/
theorem closed_paths : ∀ (n : Nat) (L : List (V2 × List V2)), L.length = n → (∀ P ∈ L, P.2 ≠ []) →
    (L.map fun P => P.1).Perm (L.map fun P => tip P.1 P.2) →
    ∃ Ps : List (List V2), (Ps.flatMap polyEdges).Perm (L.flatMap fun P => edgesFrom P.1 P.2) := by
  intro n
  induction n with
  | zero =>
    intro L h0 _ _
    rw [List.length_eq_zero_iff] at h0
    subst h0
    exact ⟨[], .refl _⟩
  | succ n ih =>
    intro L hn ne b
    obtain ⟨P, L, rfl⟩ : ∃ P L', L = P :: L' := by
      cases L with
      | nil => simp at hn
      | cons P L => exact ⟨P, L, rfl⟩
    rw [List.map_cons, List.map_cons] at b
    have hP := ne P (by simp)
    by_cases c : tip P.1 P.2 = P.1
    · rw [c] at b
      obtain ⟨Ps, h⟩ := ih L (by simpa using hn) (fun Q hQ => ne Q (by simp [hQ])) b.cons_inv
      refine ⟨P.2 :: Ps, ?_⟩
      rw [List.flatMap_cons, List.flatMap_cons, polyEdges_closed hP c]
      exact h.append_left _
    · have : tip P.1 P.2 ∈ P.1 :: L.map fun P => P.1 := b.mem_iff.2 (by simp)
      rw [List.mem_cons, or_iff_right c, List.mem_map] at this
      obtain ⟨Q, hQ, e⟩ := this
      obtain ⟨pre, post, rfl⟩ := List.append_of_mem hQ
      have pm : (pre ++ Q :: post).Perm (Q :: (pre ++ post)) := List.perm_middle
      obtain ⟨Ps, h⟩ := ih ((P.1, P.2 ++ Q.2) :: (pre ++ post)) (by simp at hn ⊢; omega) (by
          intro R hR
          rw [List.mem_cons] at hR
          rcases hR with rfl | hR
          · simp [hP]
          · exact ne R (by rw [List.mem_append] at hR; simp; tauto)) (by
          have b1 := (((pm.map fun P => P.1).cons P.1).symm.trans b).trans ((pm.map fun P => tip P.1 P.2).cons (tip P.1 P.2))
          rw [List.map_cons, List.map_cons, e] at b1
          have b2 := ((List.Perm.swap _ _ _).trans b1).cons_inv
          rw [List.map_cons, List.map_cons]
          simp only
          rw [tip_append]
          exact b2)
      refine ⟨Ps, h.trans ?_⟩
      rw [List.flatMap_cons, List.flatMap_cons]
      simp only
      rw [edgesFrom_join, ← e, List.append_assoc]
      refine List.Perm.append_left _ ?_
      have := pm.flatMap_right (fun P => edgesFrom P.1 P.2)
      rw [List.flatMap_cons] at this
      exact this.symm

end CE.Vec
