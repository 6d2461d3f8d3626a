import Verif.Proof.Vec
import Verif.Proof.Winding
import Mathlib.Data.List.Rotate
/-! `in_polygon` as a sum over edges. -/
namespace CE.Vec

/-- the vector the code forms from a vertex -/
def rel (p v : V2) : V2 := ⟨p.x - v.x, p.y - v.y⟩

/-- contribution of an edge -/
def crossing (a b : V2) : Int :=
  if xorNeg a.y b.y then
    (if xorNeg b.y (a.x * b.y - a.y * b.x) then
      (if a.x * b.y - a.y * b.x > 0 then 1 else 0) - (if a.x * b.y - a.y * b.x < 0 then 1 else 0) else 0)
  else 0

/-- contribution of an edge of the polygon -/
def cr (p : V2) (e : V2 × V2) : Int := crossing (rel p e.1) (rel p e.2)

theorem polyRound_some {x y : Int} {a v : V2} {w : Nat} {r : V2 × Nat} (hw : w < 2 ^ 64)
    (h : polyRound x y a w v = some r) :
    r.1 = rel ⟨x, y⟩ v ∧ (r.2 : Int) = (w + crossing a (rel ⟨x, y⟩ v)) % 2 ^ 64 ∧ r.2 < 2 ^ 64 := by
  unfold polyRound at h
  simp only [Option.bind_eq_bind, Option.bind_eq_some_iff, i64_iff] at h
  obtain ⟨_, ⟨rfl, -⟩, _, ⟨rfl, -⟩, h⟩ := h
  unfold crossing rel
  dsimp only
  split at h
  · next hx =>
    rw [if_pos hx]
    simp only [Option.bind_eq_some_iff, i64_iff, Option.pure_def, Option.some.injEq] at h
    obtain ⟨_, ⟨rfl, -⟩, _, ⟨rfl, -⟩, _, ⟨rfl, -⟩, h⟩ := h
    subst h
    refine ⟨rfl, ?_, ?_⟩
    · dsimp only
      rw [Int.toNat_of_nonneg (Int.emod_nonneg _ (by norm_num))]
    · dsimp only
      have h1 := Int.emod_lt_of_pos ((w : Int) + if xorNeg (y - v.y) (a.x * (y - v.y) - a.y * (x - v.x)) = true
        then (if a.x * (y - v.y) - a.y * (x - v.x) > 0 then 1 else 0) -
          (if a.x * (y - v.y) - a.y * (x - v.x) < 0 then 1 else 0) else 0) (show (0 : Int) < 2 ^ 64 by norm_num)
      omega
  · next hx =>
    rw [if_neg hx]
    simp only [Option.pure_def, Option.some.injEq] at h
    subst h
    exact ⟨rfl, by omega, hw⟩

theorem polyLoop_some (p : V2) (u : V2) (w : Nat) (vs : List V2) (r : Nat) (hw : w < 2 ^ 64)
    (h : polyLoop p.x p.y (rel p u) w vs = some r) :
    (r : Int) = (w + ((edgesFrom u vs).map (cr p)).sum) % 2 ^ 64 := by
  induction vs generalizing u w with
  | nil =>
    simp only [polyLoop, Option.some.injEq] at h
    simp only [edgesFrom, List.map_nil, List.sum_nil]
    omega
  | cons v vs ih =>
    rw [polyLoop, Option.bind_eq_bind, Option.bind_eq_some_iff] at h
    obtain ⟨s, hs, h⟩ := h
    obtain ⟨h1, h2, h3⟩ := polyRound_some hw hs
    rw [h1] at h
    have := ih v s.2 h3 h
    rw [this, h2, edgesFrom, List.map_cons, List.sum_cons]
    unfold cr
    dsimp only
    have : (⟨p.x, p.y⟩ : V2) = p := rfl
    rw [this]
    generalize crossing (rel p u) (rel p v) = c
    generalize ((edgesFrom v vs).map fun e => crossing (rel p e.1) (rel p e.2)).sum = t
    rw [Int.emod_add_emod, Int.add_assoc]

/-- `in_polygon` is the sum over the edges, modulo 2^64 -/
theorem inPolygon_some {p : V2} {ps : List V2} {w : Nat} (h : inPolygon p ps = some w) :
    (w : Int) = ((polyEdges ps).map (cr p)).sum % 2 ^ 64 := by
  unfold inPolygon at h
  unfold polyEdges
  cases hl : ps.getLast? with
  | none =>
    rw [hl] at h
    simp only [Option.some.injEq] at h
    simp [← h]
  | some v =>
    rw [hl] at h
    simp only [Option.bind_eq_bind, Option.bind_eq_some_iff, i64_iff] at h
    obtain ⟨_, ⟨rfl, -⟩, _, ⟨rfl, -⟩, h⟩ := h
    have := polyLoop_some p v 0 ps w (by norm_num) h
    simpa using this

theorem crossing_swap (a b : V2) : crossing b a = -crossing a b := by
  unfold crossing xorNeg
  rw [mul_comm b.x, mul_comm b.y]
  generalize a.x * b.y = l
  generalize a.y * b.x = r
  by_cases h1 : a.y < 0 <;> by_cases h2 : b.y < 0 <;> rcases lt_trichotomy l r with h3 | h3 | h3 <;>
    simp [h1, h2, h3, sub_neg, sub_pos, not_lt_of_gt]

theorem cr_swap (p : V2) (e : V2 × V2) : cr p e.swap = -cr p e := crossing_swap _ _

/-! ## rotation, reversal, cutting -/

theorem edgesFrom_concat (u : V2) (vs : List V2) (w : V2) :
    edgesFrom u (vs ++ [w]) = edgesFrom u vs ++ [((u :: vs).getLast (by simp), w)] := by
  induction vs generalizing u with
  | nil => rfl
  | cons v vs ih =>
    rw [List.cons_append, edgesFrom, ih, edgesFrom]
    simp

theorem edgesFrom_append (u : V2) (vs ws : List V2) (w : V2) :
    edgesFrom u (vs ++ w :: ws) = edgesFrom u (vs ++ [w]) ++ edgesFrom w ws := by
  induction vs generalizing u with
  | nil => rfl
  | cons v vs ih =>
    rw [List.cons_append, edgesFrom, ih, List.cons_append, edgesFrom, List.cons_append]

/-- the edges, listed from the first vertex -/
theorem polyEdges_perm (v : V2) (vs : List V2) :
    (polyEdges (v :: vs)).Perm (edgesFrom v (vs ++ [v])) := by
  unfold polyEdges
  rw [List.getLast?_eq_getLast_of_ne_nil (by simp)]
  dsimp only
  rw [edgesFrom, edgesFrom_concat]
  exact (List.perm_append_singleton _ _).symm

theorem polyEdges_rotate1 (v : V2) (vs : List V2) :
    (polyEdges (vs ++ [v])).Perm (polyEdges (v :: vs)) := by
  have : polyEdges (vs ++ [v]) = edgesFrom v (vs ++ [v]) := by
    unfold polyEdges; simp
  rw [this]
  exact (polyEdges_perm v vs).symm

theorem polyEdges_rotate (ps : List V2) (k : Nat) :
    (polyEdges (ps.rotate k)).Perm (polyEdges ps) := by
  induction k generalizing ps with
  | zero => simp
  | succ k ih =>
    cases ps with
    | nil => simp
    | cons v vs =>
      rw [List.rotate_cons_succ]
      exact (ih _).trans (polyEdges_rotate1 v vs)

theorem edgesFrom_reverse (u w : V2) (l : List V2) :
    (edgesFrom w (l.reverse ++ [u])).Perm ((edgesFrom u (l ++ [w])).map Prod.swap) := by
  induction l generalizing u with
  | nil => exact List.Perm.refl _
  | cons x l ih =>
    rw [List.reverse_cons, edgesFrom_concat, List.cons_append, edgesFrom, List.map_cons]
    refine (List.perm_append_singleton _ _).trans ?_
    rw [show ((w :: (l.reverse ++ [x])).getLast (by simp), u) = Prod.swap (u, x) by simp]
    exact List.Perm.cons _ (ih x)

theorem polyEdges_reverse (ps : List V2) :
    (polyEdges ps.reverse).Perm ((polyEdges ps).map Prod.swap) := by
  cases ps with
  | nil => simp [polyEdges]
  | cons v vs =>
    have : polyEdges (v :: vs).reverse = edgesFrom v (vs.reverse ++ [v]) := by
      unfold polyEdges; simp
    rw [this]
    exact (edgesFrom_reverse v v vs).trans ((polyEdges_perm v vs).symm.map _)

/-- cutting along the chord from `u` to `v` -/
theorem polyEdges_cut (u v : V2) (as bs : List V2) :
    ((v, u) :: (u, v) :: polyEdges (u :: as ++ v :: bs)).Perm
      (polyEdges (u :: as ++ [v]) ++ polyEdges (v :: bs ++ [u])) := by
  have e1 := polyEdges_perm u (as ++ v :: bs)
  have e2 := polyEdges_perm u (as ++ [v])
  have e3 := polyEdges_perm v (bs ++ [u])
  rw [List.append_assoc, List.cons_append, edgesFrom_append] at e1
  rw [edgesFrom_concat] at e2 e3
  have g2 : (u :: (as ++ [v])).getLast (by simp) = v := by simp
  have g3 : (v :: (bs ++ [u])).getLast (by simp) = u := by simp
  rw [g2] at e2
  rw [g3] at e3
  rw [List.cons_append, List.cons_append, List.cons_append]
  refine ((e1.cons _).cons _).trans ?_
  refine List.Perm.trans ?_ (e2.append e3).symm
  rw [List.append_assoc]
  have h1 : ((v, u) :: (u, v) :: (edgesFrom u (as ++ [v]) ++ edgesFrom v (bs ++ [u]))).Perm
      ((v, u) :: (edgesFrom u (as ++ [v]) ++ (edgesFrom v (bs ++ [u]) ++ [(u, v)]))) := by
    refine List.Perm.cons _ ?_
    rw [← List.append_assoc]
    exact (List.perm_append_singleton _ _).symm
  refine h1.trans ?_
  exact List.perm_middle.symm

end CE.Vec
