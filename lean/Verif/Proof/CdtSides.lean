import Verif.Proof.CdtSight
import Verif.Proof.CdtEnd
import Mathlib.Algebra.BigOperators.Group.Finset.Basic
/-! Sets of faces and their boundaries: the boundary has as many edges into a vertex as out of it, and it is not empty unless the
set is empty. -/
namespace CE.Cdt

variable {m m' : Mesh}

open Classical in
/-- the edges of faces in `S` that have no twin in `S` -/
noncomputable def Mesh.edgeOf (m : Mesh) (S : Nat → Prop) : Finset Nat :=
  m.es.filter fun i => S (i / 4) ∧ (m.e i = 0 ∨ ¬S (m.e i / 4))

theorem mem_edgeOf {S : Nat → Prop} {i : Nat} : i ∈ m.edgeOf S ↔ IsE m.size i ∧ S (i / 4) ∧ (m.e i = 0 ∨ ¬S (m.e i / 4)) := by
  classical
  unfold Mesh.edgeOf
  rw [Finset.mem_filter, mem_es]

open Classical in
/-- in a sum over the edges of the faces in `S` those inside cancel -/
theorem cancel {A : Type} [CommRing A] (h : Inv m) (S : Nat → Prop) (φ : Nat → Nat → A) (anti : ∀ a b, φ a b = -φ b a) :
    ∑ f ∈ (Finset.Ico 6 (2 * m.size)).filter S, (φ (m.p (4 * f + 1)) (m.p (4 * f + 2)) + φ (m.p (4 * f + 2)) (m.p (4 * f)) +
      φ (m.p (4 * f)) (m.p (4 * f + 1))) = ∑ i ∈ m.edgeOf S, φ (m.p (nx i)) (m.p (pv i)) := by
  have e1 : ∑ i ∈ m.es.filter (fun i => S (i / 4)), φ (m.p (nx i)) (m.p (pv i)) =
      ∑ f ∈ (Finset.Ico 6 (2 * m.size)).filter S, (φ (m.p (4 * f + 1)) (m.p (4 * f + 2)) + φ (m.p (4 * f + 2)) (m.p (4 * f)) +
        φ (m.p (4 * f)) (m.p (4 * f + 1))) := by
    rw [Finset.sum_filter, es_sum, Finset.sum_filter]
    apply Finset.sum_congr rfl
    intro f hf
    have B := base (isE_face hf) (by omega)
    rw [B.n0, B.n1, B.n2, B.p0, B.p1, B.p2, show 4 * f / 4 = f by omega, show (4 * f + 1) / 4 = f by omega, show (4 * f + 2) / 4 = f by omega]
    split <;> simp
  rw [← e1]
  have e2 : m.es.filter (fun i => S (i / 4)) = m.edgeOf S ∪ m.es.filter (fun i => S (i / 4) ∧ ¬(m.e i = 0 ∨ ¬S (m.e i / 4))) := by
    ext i
    unfold Mesh.edgeOf
    simp only [Finset.mem_union, Finset.mem_filter]
    tauto
  have dj : Disjoint (m.edgeOf S) (m.es.filter (fun i => S (i / 4) ∧ ¬(m.e i = 0 ∨ ¬S (m.e i / 4)))) := by
    rw [Finset.disjoint_left]
    intro i h1 h2
    rw [mem_edgeOf] at h1
    rw [Finset.mem_filter] at h2
    exact h2.2.2 h1.2.2
  rw [e2, Finset.sum_union dj]
  have : ∑ i ∈ m.es.filter (fun i => S (i / 4) ∧ ¬(m.e i = 0 ∨ ¬S (m.e i / 4))), φ (m.p (nx i)) (m.p (pv i)) = 0 := by
    apply Finset.sum_involution (fun i _ => m.e i)
    · intro i hi
      rw [Finset.mem_filter, mem_es] at hi
      push Not at hi
      obtain ⟨-, -, -, t4, t5⟩ := h.tw i hi.1 hi.2.2.1
      rw [t4, t5, anti (m.p (pv i))]
      ring
    · intro i hi _ e
      rw [Finset.mem_filter, mem_es] at hi
      push Not at hi
      have := h.other hi.1 hi.2.2.1
      rw [e] at this
      exact this rfl
    · intro i hi
      rw [Finset.mem_filter, mem_es] at hi ⊢
      push Not at hi ⊢
      obtain ⟨t1, t2, -⟩ := h.tw i hi.1 hi.2.2.1
      rw [t2]
      exact ⟨t1, hi.2.2.2, hi.1.pos, hi.2.1⟩
    · intro i hi
      rw [Finset.mem_filter, mem_es] at hi
      push Not at hi
      exact (h.tw i hi.1 hi.2.2.1).2.1
  rw [this, add_zero]

/-- a set without boundary is empty -/
theorem no_boundary (h : Inv m) {S : Nat → Prop} (he : m.edgeOf S = ∅) {f : Nat} (uf : IsF m.size f) : ¬S f := by
  classical
  intro hs
  have := cancel h S (fun a b => m.x a * m.y b - m.y a * m.x b) (fun a b => by ring)
  rw [he, Finset.sum_empty] at this
  have neg : ∀ g ∈ (Finset.Ico 6 (2 * m.size)).filter S, (m.x (m.p (4 * g + 1)) * m.y (m.p (4 * g + 2)) - m.y (m.p (4 * g + 1)) * m.x (m.p (4 * g + 2)) +
      (m.x (m.p (4 * g + 2)) * m.y (m.p (4 * g)) - m.y (m.p (4 * g + 2)) * m.x (m.p (4 * g))) +
      (m.x (m.p (4 * g)) * m.y (m.p (4 * g + 1)) - m.y (m.p (4 * g)) * m.x (m.p (4 * g + 1)))) < 0 := by
    intro g hg
    rw [Finset.mem_filter] at hg
    have B := base (isE_face hg.1) (by omega)
    have := h.cw _ (isE_face hg.1)
    rw [B.n0, B.p0] at this
    unfold Mesh.cr at this
    linarith
  have := Finset.sum_neg neg ⟨f, by rw [Finset.mem_filter, Finset.mem_Ico]; unfold IsF at uf; exact ⟨by omega, hs⟩⟩
  omega

/-- as many edges of the boundary start at a vertex as end there -/
theorem balance (h : Inv m) (S : Nat → Prop) (v : Nat) :
    ((m.edgeOf S).filter fun i => m.p (nx i) = v).card = ((m.edgeOf S).filter fun i => m.p (pv i) = v).card := by
  classical
  have := cancel h S (fun a b => (if a = v then (1 : ℤ) else 0) - (if b = v then 1 else 0)) (fun a b => by ring)
  rw [Finset.sum_eq_zero (fun f _ => by ring), Finset.sum_sub_distrib, Finset.sum_boole, Finset.sum_boole] at this
  have : (((m.edgeOf S).filter fun i => m.p (nx i) = v).card : ℤ) = ((m.edgeOf S).filter fun i => m.p (pv i) = v).card := by linarith
  exact_mod_cast this

/-- an edge of the boundary is followed by another one -/
theorem follow (h : Inv m) {S : Nat → Prop} {i : Nat} (hi : i ∈ m.edgeOf S) : ∃ j ∈ m.edgeOf S, m.p (nx j) = m.p (pv i) := by
  have b := balance h S (m.p (pv i))
  have : 0 < ((m.edgeOf S).filter fun j => m.p (pv j) = m.p (pv i)).card := Finset.card_pos.2 ⟨i, Finset.mem_filter.2 ⟨hi, rfl⟩⟩
  rw [← b] at this
  obtain ⟨j, hj⟩ := Finset.card_pos.1 this
  rw [Finset.mem_filter] at hj
  exact ⟨j, hj⟩

theorem precede (h : Inv m) {S : Nat → Prop} {i : Nat} (hi : i ∈ m.edgeOf S) : ∃ j ∈ m.edgeOf S, m.p (pv j) = m.p (nx i) := by
  have b := balance h S (m.p (nx i))
  have : 0 < ((m.edgeOf S).filter fun j => m.p (nx j) = m.p (nx i)).card := Finset.card_pos.2 ⟨i, Finset.mem_filter.2 ⟨hi, rfl⟩⟩
  rw [b] at this
  obtain ⟨j, hj⟩ := Finset.card_pos.1 this
  rw [Finset.mem_filter] at hj
  exact ⟨j, hj⟩

/-- all faces are connected -/
theorem connected (h : Inv m) (R : Rim m) {S : Nat → Prop} (cl : ∀ i, IsE m.size i → m.e i ≠ 0 → S (i / 4) → S (m.e i / 4))
    {f g : Nat} (uf : IsF m.size f) (ug : IsF m.size g) (hf : S f) : S g := by
  by_contra hg
  -- the boundary of a closed set is on the square
  have bd : ∀ (T : Nat → Prop), (∀ i, IsE m.size i → m.e i ≠ 0 → T (i / 4) → T (m.e i / 4)) → ∀ i ∈ m.edgeOf T, Bnd m i ∧ T (i / 4) := by
    intro T clT i hi
    rw [mem_edgeOf] at hi
    obtain ⟨h1, h2, h3⟩ := hi
    rcases h3 with h3 | h3
    · exact ⟨⟨h1, h3⟩, h2⟩
    · by_cases e : m.e i = 0
      · exact ⟨⟨h1, e⟩, h2⟩
      · exact absurd (clT i h1 e h2) h3
  have cl' : ∀ i, IsE m.size i → m.e i ≠ 0 → ¬S (i / 4) → ¬S (m.e i / 4) := by
    intro i hi he hn hs
    obtain ⟨t1, t2, -⟩ := h.tw i hi he
    have := cl _ t1 (by rw [t2]; exact hi.pos) hs
    rw [t2] at this
    exact hn this
  -- with one side of the square the next one, and so all of them
  have all : ∀ (T : Nat → Prop), (∀ i, IsE m.size i → m.e i ≠ 0 → T (i / 4) → T (m.e i / 4)) → ∀ f, IsF m.size f → T f →
      ∀ i, Bnd m i → m.ends i = (1, 0) → T (i / 4) := by
    intro T clT f uf hf
    obtain ⟨i, hi⟩ : (m.edgeOf T).Nonempty := by
      rw [Finset.nonempty_iff_ne_empty]
      exact fun e => no_boundary h e uf hf
    have step : ∀ i ∈ m.edgeOf T, ∀ a b c, m.ends i = (a, b) → (∀ d, (b, d) ∈ sides → d = c) → ∃ j ∈ m.edgeOf T, m.ends j = (b, c) := by
      intro i hi a b c e u
      obtain ⟨j, hj, ej⟩ := follow h hi
      have hs := R.mem j (bd T clT j hj).1
      unfold Mesh.ends at e hs ⊢
      rw [Prod.mk.injEq] at e
      rw [ej, e.2] at hs
      refine ⟨j, hj, ?_⟩
      rw [ej, e.2, u _ hs]
    have s10 : ∀ i ∈ m.edgeOf T, m.ends i = (3, 1) → ∃ j ∈ m.edgeOf T, m.ends j = (1, 0) := fun i hi e => step i hi 3 1 0 e (by
      intro d hd; simp [sides] at hd; exact hd)
    have s31 : ∀ i ∈ m.edgeOf T, m.ends i = (2, 3) → ∃ j ∈ m.edgeOf T, m.ends j = (3, 1) := fun i hi e => step i hi 2 3 1 e (by
      intro d hd; simp [sides] at hd; exact hd)
    have s23 : ∀ i ∈ m.edgeOf T, m.ends i = (0, 2) → ∃ j ∈ m.edgeOf T, m.ends j = (2, 3) := fun i hi e => step i hi 0 2 3 e (by
      intro d hd; simp [sides] at hd; exact hd)
    obtain ⟨j, hj, ej⟩ : ∃ j ∈ m.edgeOf T, m.ends j = (1, 0) := by
      have hs := R.mem i (bd T clT i hi).1
      simp only [sides, List.mem_cons, List.not_mem_nil, or_false] at hs
      rcases hs with e | e | e | e
      · exact ⟨i, hi, e⟩
      · obtain ⟨j, hj, ej⟩ := s23 i hi e
        obtain ⟨k, hk, ek⟩ := s31 j hj ej
        exact s10 k hk ek
      · obtain ⟨k, hk, ek⟩ := s31 i hi e
        exact s10 k hk ek
      · exact s10 i hi e
    intro k bk ek
    obtain ⟨k0, -, -, un⟩ := R.one (1, 0) (by decide)
    rw [un k bk ek, ← un j (bd T clT j hj).1 ej]
    exact (bd T clT j hj).2
  obtain ⟨i, bi, ei, -⟩ := R.one (1, 0) (by decide)
  exact all (fun f => ¬S f) cl' g ug hg i bi ei (all S cl f uf hf i bi ei)

/-- a directed edge belongs to one face only -/
theorem slot_unique (h : Inv m) (R : Rim m) {i k : Nat} (hi : IsE m.size i) (hk : IsE m.size k) (e : m.ends k = m.ends i) : k = i := by
  unfold Mesh.ends at e
  rw [Prod.mk.injEq] at e
  have o := mid_on h hi
  have o' := mid_on h hk
  rw [e.1, e.2] at o'
  have c := centre_open h hk
  refine Mesh.OnOpen.same h R hi hk o o'.shut o'.on c ?_
  rw [← e.1, ← e.2]
  exact c.2.1

/-- inside an edge there is no other edge -/
theorem edge_only (h : Inv m) (R : Rim m) {i k : Nat} (hi : IsE m.size i) (he : m.e i ≠ 0) {x y : ℚ} (o : m.OnOpen x y i)
    (o' : m.OnOpen x y (m.e i)) {t : ℚ} (hk : IsE m.size k) (h0 : 0 ≤ t) (h1 : t ≤ 1) (ex : x = m.x (m.p (nx k)) + t * (m.x (m.p (pv k)) - m.x (m.p (nx k))))
    (ey : y = m.y (m.p (nx k)) + t * (m.y (m.p (pv k)) - m.y (m.p (nx k)))) : k = i ∨ k = m.e i := by
  have P := h.pair hi he
  obtain ⟨s, on⟩ := edge_shut h hk h0 h1
  rw [← ex, ← ey] at s on
  obtain ⟨x', y', T, hT⟩ : ∃ x' y', m.InOpen x' y' k ∧ m.crQ x' y' (m.p (nx i)) (m.p (pv i)) ≠ 0 := by
    have c := centre_open h hk
    generalize (((m.x (m.p k) + m.x (m.p (nx k)) + m.x (m.p (pv k)) : ℚ)) / 3) = cx at c
    generalize (((m.y (m.p k) + m.y (m.p (nx k)) + m.y (m.p (pv k)) : ℚ)) / 3) = cy at c
    by_cases z : m.crQ cx cy (m.p (nx i)) (m.p (pv i)) = 0
    · obtain ⟨d, hd, hn⟩ := near_open c (m.x (m.p i)) (m.y (m.p i))
      refine ⟨_, _, hn (d / 2) (by linarith) (by linarith), ?_⟩
      rw [crQ_mix, z]
      have cw : ((m.cr (m.p i) (m.p (nx i)) (m.p (pv i)) : ℤ) : ℚ) < 0 := by exact_mod_cast h.cw i hi
      have e : m.crQ (m.x (m.p i)) (m.y (m.p i)) (m.p (nx i)) (m.p (pv i)) = (m.cr (m.p i) (m.p (nx i)) (m.p (pv i)) : ℤ) := by
        unfold Mesh.crQ Mesh.cr; push_cast; ring
      rw [e, sub_zero, zero_add]
      exact mul_ne_zero (by linarith) cw.ne
    · exact ⟨cx, cy, c, z⟩
  rcases lt_or_gt_of_ne hT with hT | hT
  · exact .inl (Mesh.OnOpen.same h R hi hk o s on T hT)
  · exact .inr (Mesh.OnOpen.same h R P.ib hk o' s on T (by rw [P.n1, P.n2, crQ_swap]; linarith))

end CE.Cdt
