import Verif.Proof.CdtSides
import Verif.Spec.Flood
import Verif.Props.Fence
/-! The two sides of an outline. -/
namespace CE.Cdt

open CE.Vec

variable {m m' : Mesh} {n : Nat} {v : Nat → Nat}

theorem Mesh.Outline.inner' (O : m.Outline n v) {k : Nat} (hk : k ≤ n) : 4 ≤ v k := by
  rcases Nat.lt_or_eq_of_le hk with h | rfl
  · exact O.inner k h
  · rw [O.round]; exact O.inner 0 (by have := O.three; omega)

/-- an edge with an inner end has a twin -/
theorem has_twin (R : Rim m) {i : Nat} (hi : IsE m.size i) (h4 : 4 ≤ m.p (nx i) ∨ 4 ≤ m.p (pv i)) : m.e i ≠ 0 := by
  intro e
  have := R.mem i ⟨hi, e⟩
  unfold Mesh.ends at this
  simp only [sides, List.mem_cons, Prod.mk.injEq, List.not_mem_nil, or_false] at this
  omega

theorem twin_ends (h : Inv m) {i : Nat} (hi : IsE m.size i) (he : m.e i ≠ 0) {a b : Nat} (e : m.ends i = (a, b)) : m.ends (m.e i) = (b, a) := by
  obtain ⟨-, -, -, t4, t5⟩ := h.tw i hi he
  unfold Mesh.ends at e ⊢
  rw [Prod.mk.injEq] at e
  rw [t4, t5, e.1, e.2]

/-- the sides of the outline as edges of the mesh -/
theorem Mesh.Outline.slot (O : m.Outline n v) (h : Inv m) (R : Rim m) {k : Nat} (hk : k < n) :
    ∃ i, IsE m.size i ∧ m.e i ≠ 0 ∧ m.ends i = (v k, v (k + 1)) := by
  have h4 := O.inner k hk
  rcases wall_iff.1 (O.wall k hk) with ⟨i, hi, -, e⟩ | ⟨i, hi, -, e⟩
  · refine ⟨i, hi, has_twin R hi (.inl ?_), e⟩
    rw [show m.p (nx i) = v k from congrArg Prod.fst e]; exact h4
  · have he := has_twin R hi (.inr (by rw [show m.p (pv i) = v k from congrArg Prod.snd e]; exact h4))
    obtain ⟨t1, t2, -⟩ := h.tw i hi he
    exact ⟨m.e i, t1, by rw [t2]; exact hi.pos, twin_ends h hi he e⟩

/-- the boundary of a set of faces that is closed under crossing unconstrained edges is, inside the square, on the outline -/
theorem Mesh.Outline.cut (O : m.Outline n v) (h : Inv m) {S : Nat → Prop}
    (cl : ∀ i, IsE m.size i → m.c i = 0 → S (i / 4) → S (m.e i / 4)) {j : Nat} (hj : j ∈ m.edgeOf S) (he : m.e j ≠ 0) :
    ∃ k, k < n ∧ (m.ends j = (v k, v (k + 1)) ∨ m.ends j = (v (k + 1), v k)) := by
  rw [mem_edgeOf] at hj
  obtain ⟨h1, h2, h3⟩ := hj
  have hc : m.c j ≠ 0 := by
    intro hc
    rcases h3 with h3 | h3
    · exact he h3
    · exact h3 (cl j h1 hc h2)
  have h4 : j = 4 * (j / 4) + j % 4 := by omega
  have h5 : j % 4 < 3 := by unfold IsE at h1; omega
  obtain ⟨k, hk, hv⟩ := O.only (j / 4) (j % 4) h1.isF h5 (by rw [← h4]; exact hc) (by rw [← h4]; exact he)
  rw [corner_nx m _ h5, corner_pv m _ h5, ← h4] at hv
  unfold Mesh.ends
  refine ⟨k, hk, ?_⟩
  rcases hv with ⟨a, b⟩ | ⟨a, b⟩
  · left; rw [a, b]
  · right; rw [a, b]

theorem Mesh.Outline.same (O : m.Outline n v) {j k : Nat} (hj : j < n) (hk : k < n) (e : v (j + 1) = v (k + 1)) : j = k := by
  rcases Nat.lt_or_eq_of_le (show j + 1 ≤ n by omega) with h1 | h1 <;> rcases Nat.lt_or_eq_of_le (show k + 1 ≤ n by omega) with h2 | h2
  · have := O.inj _ _ h1 h2 e; omega
  · rw [h2, O.round] at e
    have := O.inj _ _ h1 (by omega) e; omega
  · rw [h1, O.round] at e
    have := O.inj _ _ (by omega) h2 e; omega
  · omega

/-- a set of faces that is closed under crossing unconstrained edges contains one of the two faces at the first side -/
theorem Mesh.Outline.sides (O : m.Outline n v) (h : Inv m) (R : Rim m) {S : Nat → Prop}
    (cl : ∀ i, IsE m.size i → m.c i = 0 → S (i / 4) → S (m.e i / 4)) {f : Nat} (uf : IsF m.size f) (hf : S f)
    {i : Nat} (hi : IsE m.size i) (ei : m.ends i = (v 0, v 1)) : S (i / 4) ∨ S (m.e i / 4) := by
  have h3 := O.three
  have hie : m.e i ≠ 0 := has_twin R hi (.inl (by
    rw [show m.p (nx i) = v 0 from congrArg Prod.fst ei]; exact O.inner 0 (by omega)))
  -- not both an edge and its twin
  have nb : ∀ {a b : Nat}, ∀ j ∈ m.edgeOf S, ∀ j' ∈ m.edgeOf S, m.e j ≠ 0 → m.ends j = (a, b) → m.ends j' = (b, a) → False := by
    intro a b j hj j' hj' he e e'
    rw [mem_edgeOf] at hj hj'
    have := slot_unique h R (h.tw j hj.1 he).1 hj'.1 (e'.trans (twin_ends h hj.1 he e).symm)
    rcases hj.2.2 with h1 | h1
    · exact he h1
    · rw [this] at hj'; exact h1 hj'.2.1
  have step : ∀ k, k + 1 < n → (∃ j ∈ m.edgeOf S, m.ends j = (v (k + 1), v (k + 2)) ∨ m.ends j = (v (k + 2), v (k + 1))) →
      ∃ j ∈ m.edgeOf S, m.ends j = (v k, v (k + 1)) ∨ m.ends j = (v (k + 1), v k) := by
    rintro k hk ⟨j, hj, e⟩
    have h4 := O.inner (k + 1) hk
    have hjE := (mem_edgeOf.1 hj).1
    rcases e with e | e
    · have e1 : m.p (nx j) = v (k + 1) := congrArg Prod.fst e
      have hje := has_twin R hjE (.inl (by rw [e1]; exact h4))
      obtain ⟨j', hj', e'⟩ := precede h hj
      rw [e1] at e'
      have hje' := has_twin R (mem_edgeOf.1 hj').1 (.inr (by rw [e']; exact h4))
      obtain ⟨l, hl, el | el⟩ := O.cut h cl hj' hje'
      · have e2 : m.p (pv j') = v (l + 1) := congrArg Prod.snd el
        have := O.same hl (by omega) (e2.symm.trans e')
        subst this
        exact ⟨j', hj', .inl el⟩
      · have e2 : m.p (pv j') = v l := congrArg Prod.snd el
        have := O.inj _ _ hl hk (e2.symm.trans e')
        subst this
        exact (nb j hj j' hj' hje e el).elim
    · have e1 : m.p (pv j) = v (k + 1) := congrArg Prod.snd e
      have hje := has_twin R hjE (.inr (by rw [e1]; exact h4))
      obtain ⟨j', hj', e'⟩ := follow h hj
      rw [e1] at e'
      have hje' := has_twin R (mem_edgeOf.1 hj').1 (.inl (by rw [e']; exact h4))
      obtain ⟨l, hl, el | el⟩ := O.cut h cl hj' hje'
      · have e2 : m.p (nx j') = v l := congrArg Prod.fst el
        have := O.inj _ _ hl hk (e2.symm.trans e')
        subst this
        exact (nb j hj j' hj' hje e el).elim
      · have e2 : m.p (nx j') = v (l + 1) := congrArg Prod.fst el
        have := O.same hl (by omega) (e2.symm.trans e')
        subst this
        exact ⟨j', hj', .inr el⟩
  have down : ∀ k, k < n → (∃ j ∈ m.edgeOf S, m.ends j = (v k, v (k + 1)) ∨ m.ends j = (v (k + 1), v k)) →
      ∃ j ∈ m.edgeOf S, m.ends j = (v 0, v 1) ∨ m.ends j = (v 1, v 0) := by
    intro k
    induction k with
    | zero => intro _ h; exact h
    | succ k ih => intro hk h; exact ih (by omega) (step k hk h)
  by_cases hc : ∃ j ∈ m.edgeOf S, m.e j ≠ 0
  · obtain ⟨j, hj, he⟩ := hc
    obtain ⟨k, hk, e⟩ := O.cut h cl hj he
    obtain ⟨j, hj, e⟩ := down k hk ⟨j, hj, e⟩
    have hj := mem_edgeOf.1 hj
    rcases e with e | e
    · left
      rw [← slot_unique h R hi hj.1 (e.trans ei.symm)]
      exact hj.2.1
    · right
      rw [← slot_unique h R (h.tw i hi hie).1 hj.1 (e.trans (twin_ends h hi hie ei).symm)]
      exact hj.2.1
  · push Not at hc
    left
    refine connected h R (S := S) ?_ uf hi.isF hf
    intro j hj he hs
    by_contra hn
    exact he (hc j (mem_edgeOf.2 ⟨hj, hs, .inr hn⟩))

/-! ### the polygon -/

theorem edgesFrom_map (g : Nat → V2) (a l : Nat) :
    edgesFrom (g a) ((List.range' (a + 1) l).map g) = (List.range' a l).map fun k => (g k, g (k + 1)) := by
  induction l generalizing a with
  | zero => rfl
  | succ l ih =>
    rw [List.range'_succ, List.range'_succ, List.map_cons, List.map_cons]
    exact congrArg _ (ih (a + 1))

theorem polyEdges_map (g : Nat → V2) (l : Nat) (hr : g (l + 1) = g 0) :
    polyEdges ((List.range (l + 1)).map g) = (g l, g (l + 1)) :: (List.range' 0 l).map fun k => (g k, g (k + 1)) := by
  unfold polyEdges
  rw [show ((List.range (l + 1)).map g).getLast? = some (g l) by rw [List.range_succ]; simp]
  simp only
  rw [List.range_eq_range', List.range'_succ, List.map_cons, hr, ← edgesFrom_map g 0 l]
  rfl

/-- sides of the polygon -/
theorem Mesh.Outline.mem (O : m.Outline n v) {e : V2 × V2} :
    e ∈ polyEdges (m.polygon n v) ↔ ∃ k, k < n ∧ e = (m.place (v k), m.place (v (k + 1))) := by
  obtain ⟨l, rfl⟩ : ∃ l, n = l + 1 := ⟨n - 1, by have := O.three; omega⟩
  unfold Mesh.polygon
  rw [polyEdges_map (fun k => m.place (v k)) l (by show m.place (v _) = _; rw [O.round])]
  simp only [List.mem_cons, List.mem_map, List.mem_range'_1]
  constructor
  · rintro (rfl | ⟨k, hk, rfl⟩)
    · exact ⟨l, by omega, rfl⟩
    · exact ⟨k, by omega, rfl⟩
  · rintro ⟨k, hk, rfl⟩
    rcases Nat.lt_or_eq_of_le (show k ≤ l by omega) with h | rfl
    · exact .inr ⟨k, by omega, rfl⟩
    · exact .inl rfl

theorem Mesh.Outline.lt (O : m.Outline n v) (h : Inv m) {k : Nat} (hk : k ≤ n) : v k < m.size := by
  rcases Nat.lt_or_eq_of_le hk with hk | rfl
  · exact ((O.wall k hk).lt h).1
  · rw [O.round]; exact ((O.wall 0 (by have := O.three; omega)).lt h).1

theorem place_inj (D : Distinct m) {a b : Nat} (ha : a < m.size) (hb : b < m.size) (e : m.place a = m.place b) : a = b := by
  unfold Mesh.place at e
  rw [V2.mk.injEq] at e
  exact D a b ha hb e.1 e.2

/-- each side occurs once -/
theorem Mesh.Outline.nodup (O : m.Outline n v) (h : Inv m) (D : Distinct m) : (polyEdges (m.polygon n v)).Nodup := by
  have h3 := O.three
  have inj : ∀ j k, j < n → k < n → (m.place (v j), m.place (v (j + 1))) = (m.place (v k), m.place (v (k + 1))) → j = k := by
    intro j k hj hk e
    rw [Prod.mk.injEq] at e
    exact O.inj j k hj hk (place_inj D (O.lt h hj.le) (O.lt h hk.le) e.1)
  obtain ⟨l, rfl⟩ : ∃ l, n = l + 1 := ⟨n - 1, by omega⟩
  unfold Mesh.polygon
  rw [polyEdges_map (fun k => m.place (v k)) l (by show m.place (v _) = _; rw [O.round]), List.nodup_cons]
  constructor
  · rw [List.mem_map]
    rintro ⟨k, hk, e⟩
    rw [List.mem_range'_1] at hk
    have := inj k l (by omega) (by omega) e
    omega
  · refine List.Nodup.map_on ?_ List.nodup_range'
    intro j hj k hk e
    rw [List.mem_range'_1] at hj hk
    exact inj j k (by omega) (by omega) e

theorem Mesh.Outline.walled (O : m.Outline n v) : m.Walled (m.polygon n v) := by
  intro e he x y on
  obtain ⟨k, hk, rfl⟩ := O.mem.1 he
  exact ⟨_, _, O.wall k hk, on⟩

end CE.Cdt
