import Verif.Proof.CdtEnd
/-! The run of `insert_edge` with a search that finds: it ends, and inserts few vertices. -/
namespace CE.Cdt

open CE.Vec

variable {m m' : Mesh} {px py qx qy : Int} {find : Finder} {limit : Nat}

/-- with enough rounds `f` gives `r` -/
def Ends {α : Type} (f : Nat → Option α) (r : α) : Prop := ∃ K, ∀ k, K ≤ k → f k = some r

theorem Ends.succ {α : Type} {f g : Nat → Option α} {r : α} (h : Ends g r) (e : ∃ K, ∀ k, K ≤ k → f (k + 1) = g k) : Ends f r := by
  obtain ⟨K, hK⟩ := h
  obtain ⟨K', hK'⟩ := e
  refine ⟨max K K' + 1, fun k hk => ?_⟩
  obtain ⟨j, rfl⟩ : ∃ j, k = j + 1 := ⟨k - 1, by omega⟩
  rw [hK' j (by omega), hK j (by omega)]

theorem Ends.const {α : Type} (r : α) : Ends (fun _ => some r) r := ⟨0, fun _ _ => rfl⟩

theorem insertAt_ends (g : Sound m) {n} (hn : n = 0 ∨ (IsE m.size n ∧ m.InClosed px py n)) (limit : Nat) :
    ∃ r, Ends (fun k => insertAt limit k m px py n) r := by
  rcases hn with e | ⟨e, hin⟩
  · exact ⟨(m, 0), 0, fun k _ => by show insertAt limit k m px py n = _; unfold insertAt; rw [if_pos e]⟩
  · obtain ⟨K, hK⟩ := insertAt_some g.inv e.base (InClosed.base e hin) limit
    obtain ⟨r, hr⟩ := hK K (le_refl _)
    exact ⟨r, K, fun k hk => insertAt_mono g.inv hk hr⟩

theorem constrainEdge_ends (g : Sound m) {en} (h : IsE m.size en) : ∃ r, Ends (fun k => constrainEdge k m en) r := by
  obtain ⟨K, hK⟩ := constrainEdge_some g.inv h
  obtain ⟨r, hr⟩ := hK K (le_refl _)
  exact ⟨r, K, fun k hk => constrainEdge_mono hk hr⟩

/-- what is claimed of a run: steps only, and at most `n` new vertices -/
def Fine (m : Mesh) (n : Nat) (r : Run) : Prop := ∀ m' ok, r = .done m' ok → Steps m m' ∧ m'.size ≤ m.size + n

/-- what is claimed of a run of `insert_edge`, the ends counting only when they are new -/
def FineE (m : Mesh) (px py qx qy : Int) (r : Run) : Prop := ∀ m' ok, r = .done m' ok → Steps m m' ∧
  m'.size + absent m' px py + absent m' qx qy ≤ m.size + absent m px py + absent m qx qy + (dist px py qx qy - 1)

theorem fine_lost {n} : Fine m n .lost := fun _ _ h => by simp at h
theorem fineE_lost : FineE m px py qx qy .lost := fun _ _ h => by simp at h

/-- the loop goes on with the corner at the vertex -/
theorem loop_corner (g : Sound m) {u i pn} (hu : Pos m u px py) (hi : IsE m.size i) (hf : i / 4 = pn / 4) (hp : m.p i = u)
    (hq : ¬ (px = qx ∧ py = qy)) (k : Nat) :
    edgeLoopBy find limit (k + 1) m px py qx qy pn = cornerBy find limit k m px py ⟨qx - px, qy - py⟩ i pn := by
  have B := Cdt.base hi.base (by omega)
  rw [hf] at B
  rw [edgeLoopBy]
  simp only
  have ne : ∀ {a b}, IsE m.size a → IsE m.size b → m.p a ≠ m.p b →
      V2.mk (m.x (m.p a) - px) (m.y (m.p a) - py) ≠ V2.mk (m.x (m.p b) - px) (m.y (m.p b) - py) := by
    intro a b ha hb hab e
    rw [V2.mk.injEq] at e
    exact hab (g.distinct _ _ (g.inv.pl _ ha) (g.inv.pl _ hb) (by omega) (by omega))
  have z : ∀ {a}, IsE m.size a → (V2.mk (m.x (m.p a) - px) (m.y (m.p a) - py) = ⟨0, 0⟩ ↔ m.p a = u) := by
    intro a ha
    rw [V2.mk.injEq]
    constructor
    · intro e
      exact g.same ⟨g.inv.pl _ ha, by omega, by omega⟩ hu
    · intro e
      rw [e, hu.2.1, hu.2.2]; omega
  have n1 := g.inv.ne1 B.i0
  have n2 := g.inv.ne2 B.i0
  have n3 := g.inv.ne3 B.i0
  rw [B.n0] at n1 n3
  rw [B.p0] at n2 n3
  rw [if_neg (by rw [V2.mk.injEq]; omega), if_neg (by
    rintro (e | e | e)
    · exact ne B.i0 B.i1 n1 e
    · exact ne B.i1 B.i2 n3 e
    · exact ne B.i2 B.i0 n2.symm e)]
  rcases B.i0.face hi (by omega) with e | e | e
  · subst e; rw [if_pos ((z B.i0).2 hp)]
  · rw [B.n0] at e; subst e
    rw [if_neg (fun h => n1 (((z B.i0).1 h).trans hp.symm)), if_pos ((z B.i1).2 hp)]
  · rw [B.p0] at e; subst e
    rw [if_neg (fun h => n2 (((z B.i0).1 h).trans hp.symm)), if_neg (fun h => n3 (((z B.i1).1 h).trans hp.symm)), if_pos ((z B.i2).2 hp)]

theorem Sound.inner (g : Sound m) {u} (hu : Pos m u px py) (hc : ¬ Corner px py) : 4 ≤ u := by
  by_contra h
  push Not at h
  apply hc
  obtain ⟨-, rfl, rfl⟩ := hu
  have := g.rim.xy0; have := g.rim.xy1; have := g.rim.xy2; have := g.rim.xy3
  unfold Corner
  obtain rfl | rfl | rfl | rfl : u = 0 ∨ u = 1 ∨ u = 2 ∨ u = 3 := by omega
  all_goals omega

/-- what is to be shown of the loop for one distance -/
def LoopEnds (find : Finder) (limit L : Nat) : Prop := ∀ m px py qx qy pn u v, Sound m → Pos m u px py → Pos m v qx qy → ¬ Corner px py →
  dist px py qx qy = L → (∃ i, IsE m.size i ∧ i / 4 = pn / 4 ∧ m.p i = u) →
  ∃ r, Ends (fun k => edgeLoopBy find limit k m px py qx qy pn) r ∧ Fine m (L - 1) r

/-- what is to be shown of `insert_edge` for one distance -/
def EdgeEnds (find : Finder) (limit L : Nat) : Prop := ∀ m px py qx qy hint, Sound m → ¬ Corner px py → dist px py qx qy = L →
  ∃ r, Ends (fun k => insertEdgeBy find limit k m px py qx qy hint) r ∧ FineE m px py qx qy r

theorem edge_of_loop (hf : Right find) {L} (hl : LoopEnds find limit L) : EdgeEnds find limit L := by
  intro m px py qx qy hint g hc hL
  cases e1 : find m px py hint with
  | none => exact ⟨.lost, (Ends.const Run.lost).succ ⟨0, fun k _ => by rw [insertEdgeBy, e1]⟩, fineE_lost⟩
  | some n =>
    have w : n = 0 ∨ (IsE m.size n ∧ m.InClosed px py n) := (hf _ _ _ _ _ g e1).imp (fun h => h.1) id
    obtain ⟨⟨m1, pn⟩, K1, h1⟩ := insertAt_ends (limit := limit) g w
    have A1 := insertAt_spec g.inv (h1 K1 (le_refl _))
    have g1 := A1.steps.sound g
    have z1 := insertAt_absent g (h1 K1 (le_refl _))
    have y1 := A1.steps.absent qx qy
    by_cases hp : pn = 0
    · refine ⟨.done m1 false, (Ends.const (Run.done m1 false)).succ ⟨K1, fun k hk => by
        rw [insertEdgeBy, e1]; simp only [h1 k hk]; rw [if_pos hp]⟩, ?_⟩
      intro m' ok h
      simp only [Run.done.injEq] at h
      obtain ⟨rfl, -⟩ := h
      exact ⟨A1.steps, by omega⟩
    by_cases hpq : px = qx ∧ py = qy
    · refine ⟨.done m1 true, (Ends.const (Run.done m1 true)).succ ⟨K1, fun k hk => by
        rw [insertEdgeBy, e1]; simp only [h1 k hk]; rw [if_neg hp, if_pos hpq]⟩, ?_⟩
      intro m' ok h
      simp only [Run.done.injEq] at h
      obtain ⟨rfl, -⟩ := h
      exact ⟨A1.steps, by omega⟩
    obtain ⟨u, hu⟩ : ∃ u, Pos m1 u px py := A1.has hp
    cases e2 : find m1 qx qy pn with
    | none =>
      exact ⟨.lost, (Ends.const Run.lost).succ ⟨K1, fun k hk => by
        rw [insertEdgeBy, e1]; simp only [h1 k hk]; rw [if_neg hp, if_neg hpq, e2]⟩, fineE_lost⟩
    | some n2 =>
      have w2 : n2 = 0 ∨ (IsE m1.size n2 ∧ m1.InClosed qx qy n2) := (hf _ _ _ _ _ g1 e2).imp (fun h => h.1) id
      obtain ⟨⟨m2, qn⟩, K2, h2⟩ := insertAt_ends (limit := limit) g1 w2
      have A2 := insertAt_spec g1.inv (h2 K2 (le_refl _))
      have g2 := A2.steps.sound g1
      have z2 := insertAt_absent g1 (h2 K2 (le_refl _))
      have y2 := A2.steps.absent px py
      by_cases hq : qn = 0
      · refine ⟨.done m2 false, (Ends.const (Run.done m2 false)).succ ⟨max K1 K2, fun k hk => by
          rw [insertEdgeBy, e1]; simp only [h1 k (by omega)]; rw [if_neg hp, if_neg hpq, e2]; simp only [h2 k (by omega)]; rw [if_pos hq]⟩, ?_⟩
        intro m' ok h
        simp only [Run.done.injEq] at h
        obtain ⟨rfl, -⟩ := h
        exact ⟨A1.steps.trans A2.steps, by omega⟩
      obtain ⟨v, hv⟩ : ∃ v, Pos m2 v qx qy := A2.has hq
      have hu2 := A2.steps.pos hu
      cases e3 : find m2 px py pn with
      | none =>
        exact ⟨.lost, (Ends.const Run.lost).succ ⟨max K1 K2, fun k hk => by
          rw [insertEdgeBy, e1]; simp only [h1 k (by omega)]; rw [if_neg hp, if_neg hpq, e2]; simp only [h2 k (by omega)]
          rw [if_neg hq, e3]⟩, fineE_lost⟩
      | some pn' =>
        obtain ⟨-, i, hi, hfi, hpi⟩ := hf.vertex g2 hu2 e3
        obtain ⟨r, hr, F⟩ := hl m2 px py qx qy pn' u v g2 hu2 hv hc hL ⟨i, hi, hfi, hpi⟩
        refine ⟨r, hr.succ ⟨max K1 K2, fun k hk => by
          rw [insertEdgeBy, e1]; simp only [h1 k (by omega)]; rw [if_neg hp, if_neg hpq, e2]; simp only [h2 k (by omega)]
          rw [if_neg hq, e3]⟩, ?_⟩
        intro m' ok h
        obtain ⟨S, hs⟩ := F m' ok h
        have y3 := S.absent px py
        have y4 := S.absent qx qy
        exact ⟨(A1.steps.trans A2.steps).trans S, by omega⟩

/-- what the other end can be when the corner looks towards it: not in the face -/
theorem Sound.outside (g : Sound m) {i v} {q : V2} (hi : IsE m.size i) (hx : m.x (m.p i) = px) (hy : m.y (m.p i) = py)
    (hv : Pos m v (px + q.x) (py + q.y)) (hF : m.Faces px py q i) :
    (v ≠ m.p (pv i) → (m.x (m.p (nx i)) - px) * q.y - (m.y (m.p (nx i)) - py) * q.x - ((m.x (m.p (pv i)) - px) * q.y - (m.y (m.p (pv i)) - py) * q.x) ≤
      (m.x (m.p (nx i)) - px) * (m.y (m.p (pv i)) - py) - (m.y (m.p (nx i)) - py) * (m.x (m.p (pv i)) - px)) ∧
    ((m.x (m.p (nx i)) - px) * (m.y (m.p (pv i)) - py) - (m.y (m.p (nx i)) - py) * (m.x (m.p (pv i)) - px) < 0) := by
  have cw := g.inv.cw _ hi
  unfold Mesh.cr at cw
  rw [hx, hy] at cw
  refine ⟨fun ew => ?_, cw⟩
  have out := g.corner_of hi hv.1
  unfold Mesh.InClosed Mesh.crP at out
  rw [hv.2.1, hv.2.2, hx, hy] at out
  obtain ⟨ha, hb⟩ := hF
  have nu : v ≠ m.p i := by
    rintro rfl
    have e1 := hv.2.1; have e2 := hv.2.2
    have q1 : q.x = 0 := by omega
    have q2 : q.y = 0 := by omega
    rw [q1, q2] at ha; simp at ha
  have n1 : v ≠ m.p (nx i) := by
    rintro rfl
    rw [hv.2.1, hv.2.2] at ha
    apply absurd ha; ring_nf; simp
  by_contra hc
  push Not at hc
  rcases out ⟨by linarith, by linarith, by linarith⟩ with e | e | e
  · exact nu e
  · exact n1 e
  · exact ew e

theorem loop_ends (hf : Right find) (L : Nat) (ihE : ∀ L', L' < L → EdgeEnds find limit L') (ihL : ∀ L', L' < L → LoopEnds find limit L') :
    LoopEnds find limit L := by
  -- by the number of corners at the vertex
  have main : ∀ d m, ∀ px py qx qy pn u v, Sound m → Pos m u px py → Pos m v qx qy → ¬ Corner px py →
      dist px py qx qy = L → (∃ i, IsE m.size i ∧ i / 4 = pn / 4 ∧ m.p i = u) → m.es.card - (m.slots u).card = d →
      ∃ r, Ends (fun k => edgeLoopBy find limit k m px py qx qy pn) r ∧ Fine m (L - 1) r := by
    intro d
    induction d using Nat.strong_induction_on with
    | _ d ihd =>
    intro m px py qx qy pn u v g hu hv hc hL hin hd
    by_cases hpq : px = qx ∧ py = qy
    · refine ⟨.done m true, (Ends.const (Run.done m true)).succ ⟨0, fun k _ => ?_⟩, ?_⟩
      · rw [edgeLoopBy]; simp only; rw [if_pos (by rw [V2.mk.injEq]; omega)]
      · intro m' ok h
        simp only [Run.done.injEq] at h
        obtain ⟨rfl, -⟩ := h
        exact ⟨.refl _, by omega⟩
    have h4 := g.inner hu hc
    have ins := rim_only g.inv g.rim g.cover g.distinct hu.1 h4
    rw [hu.2.1, hu.2.2] at ins
    obtain ⟨q16x, q16y⟩ := g.inv.rng v hv.1
    rw [hv.2.1] at q16x
    rw [hv.2.2] at q16y
    have ex : px + (qx - px) = qx := by ring
    have ey : py + (qy - py) = qy := by ring
    have hv' : Pos m v (px + (V2.mk (qx - px) (qy - py)).x) (py + (V2.mk (qx - px) (qy - py)).y) := by
      simp only [ex, ey]; exact hv
    have Lpos : 0 < L := by rw [← hL]; exact dist_pos hpq
    -- the corner that looks towards the other end
    have facing : ∀ i pn, IsE m.size i → m.p i = u → m.Faces px py ⟨qx - px, qy - py⟩ i →
        ∃ r, Ends (fun k => cornerBy find limit k m px py ⟨qx - px, qy - py⟩ i pn) r ∧ Fine m (L - 1) r := by
      intro i pn hi hp hF
      have hx : m.x (m.p i) = px := by rw [hp]; exact hu.2.1
      have hy : m.y (m.p i) = py := by rw [hp]; exact hu.2.2
      obtain ⟨out, cw⟩ := g.outside hi hx hy hv' hF
      obtain ⟨ha, hb⟩ := hF
      simp only at ha hb out
      by_cases hb0 : (m.x (m.p (pv i)) - px) * (qy - py) - (m.y (m.p (pv i)) - py) * (qx - px) = 0
      · -- along an edge
        obtain ⟨m1, K1, h1⟩ := constrainEdge_ends g hi.nx
        have S1 := constrainEdge_steps g.inv (h1 K1 (le_refl _))
        have g1 := S1.sound g
        have hs : m1.size ≤ m.size + 0 := by
          obtain ⟨_, _, F⟩ := constrainEdge_flips g.inv (h1 K1 (le_refl _))
          rw [F.size.1]; exact le_refl _
        have e2x : px + (m.x (m.p (pv i)) - px) = m.x (m.p (pv i)) := by ring
        have e2y : py + (m.y (m.p (pv i)) - py) = m.y (m.p (pv i)) := by ring
        have hw : Pos m (m.p (pv i)) (m.x (m.p (pv i))) (m.y (m.p (pv i))) := ⟨g.inv.pl _ hi.pv, rfl, rfl⟩
        have bx : Between px (m.x (m.p (pv i))) qx ∧ Between py (m.y (m.p (pv i))) qy := by
          by_cases ew : v = m.p (pv i)
          · rw [← ew, hv.2.1, hv.2.2]; unfold Between; omega
          have le := out ew
          rw [hb0, sub_zero] at le
          have b1 := between_part le cw (z := m.x (m.p (pv i)) - px) (q := qx - px) (by linear_combination (m.x (m.p (nx i)) - px) * hb0)
          have b2 := between_part le cw (z := m.y (m.p (pv i)) - py) (q := qy - py) (by linear_combination (m.y (m.p (nx i)) - py) * hb0)
          unfold Between at b1 b2 ⊢; omega
        have pos : 0 < dist px py (m.x (m.p (pv i))) (m.y (m.p (pv i))) := dist_pos (by
          rintro ⟨c1, c2⟩
          exact g.inv.ne2 hi (g.distinct _ _ (g.inv.pl _ hi) (g.inv.pl _ hi.pv) (hx.trans c1) (hy.trans c2)))
        have sp := dist_split bx.1 bx.2
        cases e : find m1 (m.x (m.p (pv i))) (m.y (m.p (pv i))) (m1.e (nx i)) with
        | none =>
          refine ⟨.lost, (Ends.const Run.lost).succ ⟨K1, fun k hk => ?_⟩, fine_lost⟩
          rw [cornerBy]
          simp only
          rw [if_pos ⟨ha, hb⟩, if_pos hb0]
          simp only [h1 k hk, e2x, e2y, e]
        | some pn' =>
          have step : ∃ K, ∀ k, K ≤ k → cornerBy find limit (k + 1) m px py ⟨qx - px, qy - py⟩ i pn =
              edgeLoopBy find limit k m1 (m.x (m.p (pv i))) (m.y (m.p (pv i))) qx qy pn' := by
            refine ⟨K1, fun k hk => ?_⟩
            rw [cornerBy]
            simp only
            rw [if_pos ⟨ha, hb⟩, if_pos hb0]
            simp only [h1 k hk, e2x, e2y, e, ex, ey]
          by_cases hend : m.x (m.p (pv i)) = qx ∧ m.y (m.p (pv i)) = qy
          · refine ⟨.done m1 true, Ends.succ ((Ends.const (Run.done m1 true)).succ ⟨0, fun k _ => ?_⟩) step, ?_⟩
            · rw [edgeLoopBy]; simp only; rw [if_pos (by rw [V2.mk.injEq]; omega)]
            · intro m' ok h
              simp only [Run.done.injEq] at h
              obtain ⟨rfl, -⟩ := h
              exact ⟨S1, by omega⟩
          · obtain ⟨-, j, hj, hfj, hpj⟩ := hf.vertex g1 (S1.pos hw) e
            obtain ⟨r, hr, F⟩ := ihL (dist (m.x (m.p (pv i))) (m.y (m.p (pv i))) qx qy) (by omega) m1 _ _ qx qy pn' (m.p (pv i)) v g1
              (S1.pos hw) (S1.pos hv) (fun c => hend (box_corner ins q16x q16y bx.1 bx.2 c)) rfl ⟨j, hj, hfj, hpj⟩
            refine ⟨r, hr.succ step, ?_⟩
            intro m' ok h
            obtain ⟨S, hs'⟩ := F m' ok h
            exact ⟨S1.trans S, by omega⟩
      · have ew : v ≠ m.p (pv i) := by
          rintro rfl
          rw [hv.2.1, hv.2.2] at hb0
          apply hb0; ring
        have le := out ew
        obtain ⟨⟨m1, done⟩, h1⟩ := tryFlip_some g.inv hi
        have S1 := tryFlip_steps g.inv hi h1
        have g1 := S1.sound g
        cases done with
        | true =>
          -- a flip
          have sp : m1.size = m.size ∧ m1.p i = u ∧ (m.slots u).card < (m1.slots u).card := by
            unfold Mesh.tryFlip at h1
            split at h1
            · rename_i hcan
              have hc0 : m.c i = 0 := by
                unfold Mesh.canFlip at hcan
                split at hcan
                · simp at hcan
                · omega
              obtain ⟨m2, e2, P, S⟩ := flip_one g.inv hi hc0
              rw [e2] at h1
              simp only [Option.map_some, Option.some.injEq, Prod.mk.injEq, and_true] at h1
              subst h1
              have := S.slots g.inv P
              rw [hp] at this
              refine ⟨S.size, ?_, this⟩
              rw [S.p3 i hi.nx_ne.symm ?_, hp]
              intro e
              exact P.face (by rw [← P.ib.nx_div, ← e])
            · simp at h1
          cases e : find m1 px py pn with
          | none =>
            refine ⟨.lost, (Ends.const Run.lost).succ ⟨0, fun k hk => ?_⟩, fine_lost⟩
            rw [cornerBy]
            simp only
            rw [if_pos ⟨ha, hb⟩, if_neg hb0]
            simp only [h1, e]
          | some pn' =>
            obtain ⟨-, j, hj, hfj, hpj⟩ := hf.vertex g1 (S1.pos hu) e
            have hes : m1.es = m.es := by unfold Mesh.es; rw [sp.1]
            have hle : (m1.slots u).card ≤ m1.es.card := Finset.card_filter_le _ _
            rw [hes] at hle
            obtain ⟨r, hr, F⟩ := ihd (m1.es.card - (m1.slots u).card) (by rw [hes]; omega) m1 px py qx qy pn' u v g1 (S1.pos hu) (S1.pos hv) hc hL
              ⟨j, hj, hfj, hpj⟩ rfl
            refine ⟨r, hr.succ ⟨0, fun k _ => ?_⟩, ?_⟩
            · rw [cornerBy]
              simp only
              rw [if_pos ⟨ha, hb⟩, if_neg hb0]
              simp only [h1, e, ex, ey]
            · intro m' ok h
              obtain ⟨S, hs'⟩ := F m' ok h
              exact ⟨S1.trans S, by rw [← sp.1]; exact hs'⟩
        | false =>
          -- in two parts
          have em : m1 = m := by
            unfold Mesh.tryFlip at h1
            split at h1
            · cases h : m.doFlip i <;> simp [h] at h1
            · simp at h1; exact h1.symm
          subst em
          have step : ∀ k, cornerBy find limit (k + 1) m1 px py ⟨qx - px, qy - py⟩ i pn =
              splitConstraintBy find limit k m1 px py ⟨qx - px, qy - py⟩ ⟨m1.x (m1.p (nx i)) - px, m1.y (m1.p (nx i)) - py⟩
                ⟨m1.x (m1.p (pv i)) - px, m1.y (m1.p (pv i)) - py⟩ pn := by
            intro k
            rw [cornerBy]
            simp only
            rw [if_pos ⟨ha, hb⟩, if_neg hb0]
            simp only [h1]
          obtain ⟨r, hr⟩ : ∃ r, intersectEdges ⟨qx - px, qy - py⟩ ⟨m1.x (m1.p (nx i)) - px, m1.y (m1.p (nx i)) - py⟩
              ⟨m1.x (m1.p (pv i)) - px, m1.y (m1.p (pv i)) - py⟩ = some r := by
            unfold intersectEdges
            simp only
            have hb' := lt_of_le_of_ne hb (Ne.symm hb0)
            rw [if_pos (by linarith), if_pos ⟨by linarith, by linarith⟩]
            exact ⟨_, rfl⟩
          obtain ⟨t, t0, t1, nx', ny⟩ := intersect_near le cw hr
          have b1 : Between px (px + r.x) qx := by
            have := between_add (p := px) (between_near t0 t1 nx')
            simpa using this
          have b2 : Between py (py + r.y) qy := by
            have := between_add (p := py) (between_near t0 t1 ny)
            simpa using this
          by_cases hr0 : r = ⟨0, 0⟩ ∨ r = ⟨qx - px, qy - py⟩
          · refine ⟨.done m1 false, Ends.succ ((Ends.const (Run.done m1 false)).succ ⟨0, fun k _ => ?_⟩) ⟨0, fun k _ => step k⟩, ?_⟩
            · rw [splitConstraintBy, hr]; simp only; rw [if_pos hr0]
            · intro m' ok h
              simp only [Run.done.injEq] at h
              obtain ⟨rfl, -⟩ := h
              exact ⟨.refl _, by omega⟩
          have r0 : ¬ (px = px + r.x ∧ py = py + r.y) := by
            rintro ⟨c1, c2⟩
            apply hr0; left
            cases r; simp only [V2.mk.injEq] at *; omega
          have rq : ¬ (px + r.x = qx ∧ py + r.y = qy) := by
            rintro ⟨c1, c2⟩
            apply hr0; right
            cases r; simp only [V2.mk.injEq] at *; omega
          have sp := dist_split b1 b2
          have d1 := dist_pos r0
          have d2 := dist_pos rq
          obtain ⟨r1, E1, F1⟩ := ihE (dist px py (px + r.x) (py + r.y)) (by omega) m1 px py (px + r.x) (py + r.y) pn g hc rfl
          cases r1 with
          | lost =>
            refine ⟨.lost, Ends.succ (Ends.succ (Ends.const Run.lost) (f := fun k => splitConstraintBy find limit k m1 px py ⟨qx - px, qy - py⟩ ⟨m1.x (m1.p (nx i)) - px, m1.y (m1.p (nx i)) - py⟩
                ⟨m1.x (m1.p (pv i)) - px, m1.y (m1.p (pv i)) - py⟩ pn) ?_) ⟨0, fun k _ => step k⟩, fine_lost⟩
            obtain ⟨K, hK⟩ := E1
            refine ⟨K, fun k hk => ?_⟩
            rw [splitConstraintBy, hr]; simp only; rw [if_neg hr0]
            simp only [hK k hk]
          | done m2 pr =>
            obtain ⟨S2, s2⟩ := F1 m2 pr rfl
            have g2 := S2.sound g
            obtain ⟨r2, E2, F2⟩ := ihE (dist (px + r.x) (py + r.y) qx qy) (by omega) m2 (px + r.x) (py + r.y) qx qy pn g2
              (fun c => rq (box_corner ins q16x q16y b1 b2 c)) rfl
            cases r2 with
            | lost =>
              refine ⟨.lost, Ends.succ (Ends.succ (Ends.const Run.lost) (f := fun k => splitConstraintBy find limit k m1 px py ⟨qx - px, qy - py⟩ ⟨m1.x (m1.p (nx i)) - px, m1.y (m1.p (nx i)) - py⟩
                ⟨m1.x (m1.p (pv i)) - px, m1.y (m1.p (pv i)) - py⟩ pn) ?_) ⟨0, fun k _ => step k⟩, fine_lost⟩
              obtain ⟨K, hK⟩ := E1
              obtain ⟨K2, hK2⟩ := E2
              refine ⟨max K K2, fun k hk => ?_⟩
              rw [splitConstraintBy, hr]; simp only; rw [if_neg hr0]
              simp only [hK k (by omega), ex, ey, hK2 k (by omega)]
            | done m3 rq' =>
              refine ⟨.done m3 (pr && rq'), Ends.succ (Ends.succ (Ends.const (Run.done m3 (pr && rq'))) (f := fun k => splitConstraintBy find limit k m1 px py ⟨qx - px, qy - py⟩ ⟨m1.x (m1.p (nx i)) - px, m1.y (m1.p (nx i)) - py⟩
                ⟨m1.x (m1.p (pv i)) - px, m1.y (m1.p (pv i)) - py⟩ pn) ?_) ⟨0, fun k _ => step k⟩, ?_⟩
              · obtain ⟨K, hK⟩ := E1
                obtain ⟨K2, hK2⟩ := E2
                refine ⟨max K K2, fun k hk => ?_⟩
                rw [splitConstraintBy, hr]; simp only; rw [if_neg hr0]
                simp only [hK k (by omega), ex, ey, hK2 k (by omega)]
              · intro m' ok h
                simp only [Run.done.injEq] at h
                obtain ⟨rfl, -⟩ := h
                obtain ⟨S3, s3⟩ := F2 _ _ rfl
                refine ⟨S2.trans S3, ?_⟩
                rw [absent_pos hu, absent_pos (S2.pos hu)] at s2
                rw [absent_pos (S2.pos hv), absent_pos (S3.pos (S2.pos hv))] at s3
                have le1 : absent m1 (px + r.x) (py + r.y) ≤ 1 := by unfold Cdt.absent; split <;> omega
                omega
    -- turning to it
    have rot : ∀ n i pn, IsE m.size i → m.p i = u → i / 4 = pn / 4 → m.Faces px py ⟨qx - px, qy - py⟩ (m.turn^[n] i) →
        ∃ r, Ends (fun k => edgeLoopBy find limit k m px py qx qy pn) r ∧ Fine m (L - 1) r := by
      intro n
      induction n with
      | zero =>
        intro i pn hi hp hfi hF
        obtain ⟨r, hr, F⟩ := facing i pn hi hp hF
        exact ⟨r, hr.succ ⟨0, fun k _ => loop_corner g hu hi hfi hp hpq k⟩, F⟩
      | succ n ih =>
        intro i pn hi hp hfi hF
        by_cases now : m.Faces px py ⟨qx - px, qy - py⟩ i
        · obtain ⟨r, hr, F⟩ := facing i pn hi hp now
          exact ⟨r, hr.succ ⟨0, fun k _ => loop_corner g hu hi hfi hp hpq k⟩, F⟩
        · rw [Function.iterate_succ_apply] at hF
          have t := g.turn_spec hi (by rw [hp]; exact h4)
          obtain ⟨r, hr, F⟩ := ih (m.turn i) (m.e (pv i)) t.1 (t.2.1.trans hp) t.2.2.2.2 hF
          refine ⟨r, Ends.succ (Ends.succ hr (f := fun k => cornerBy find limit k m px py ⟨qx - px, qy - py⟩ i pn) ⟨0, fun k _ => ?_⟩)
            ⟨0, fun k _ => loop_corner g hu hi hfi hp hpq k⟩, F⟩
          rw [cornerBy]
          simp only
          rw [if_neg (fun h => now ⟨h.1, h.2⟩)]
          simp only [ex, ey]
    obtain ⟨i, hi, hfi, hpi⟩ := hin
    obtain ⟨n, hn⟩ := g.faces hi (by rw [hpi]; exact h4) ⟨qx - px, qy - py⟩ (by intro e; rw [V2.mk.injEq] at e; omega)
    rw [hpi, hu.2.1, hu.2.2] at hn
    exact rot n i pn hi hpi hfi hn
  exact fun m px py qx qy pn u v g hu hv hc hL hin => main _ m px py qx qy pn u v g hu hv hc hL hin rfl

theorem edge_ends (hf : Right find) (L : Nat) : EdgeEnds find limit L := by
  have both : ∀ L, EdgeEnds find limit L ∧ LoopEnds find limit L := by
    intro L
    induction L using Nat.strong_induction_on with
    | _ L ih =>
      have l := loop_ends hf L (fun L' h => (ih L' h).1) (fun L' h => (ih L' h).2)
      exact ⟨edge_of_loop hf l, l⟩
  exact (both L).1

end CE.Cdt
