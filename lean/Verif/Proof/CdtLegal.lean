import Verif.Proof.CdtOps
/-! `flip` makes edges legal and never makes a legal edge illegal. -/
namespace CE.Cdt

variable {m m' m'' : Mesh} {a b : Nat} {l l' l'' : Nat → Nat}

/-- an edge that should be flipped -/
def Bad (m : Mesh) (i : Nat) : Prop := IsE m.size i ∧ m.c i = 0 ∧ m.det i < 0

/-- no edge should be flipped -/
def Legal (m : Mesh) : Prop := ∀ i, IsE m.size i → m.c i = 0 → 0 ≤ m.det i

/-- names of edges: twins have the same, others have different ones -/
def Good (m : Mesh) (l : Nat → Nat) : Prop := ∀ i j, IsE m.size i → IsE m.size j → (l i = l j ↔ i = j ∨ m.e i = j)

/-- the edge of this name should be flipped -/
def BadL (m : Mesh) (l : Nat → Nat) (q : Nat) : Prop := ∃ i, Bad m i ∧ l i = q

theorem det_twin (P : Pair m a b) : m.det b = m.det a := by
  unfold Mesh.det
  rw [P.ab, P.ba, P.n1, P.n2]
  unfold Mesh.dt detE
  ring

theorem Bad.twin (h : Inv m) {i} (hb : Bad m i) : Bad m (m.e i) := by
  have P := h.pair hb.1 (h.free hb.1 hb.2.1)
  exact ⟨P.ib, by rw [P.cc]; exact hb.2.1, by rw [det_twin P]; exact hb.2.2⟩

theorem BadL.bad (h : Inv m) (g : Good m l) {i} (hi : IsE m.size i) (hb : BadL m l (l i)) : Bad m i := by
  obtain ⟨j, bj, e⟩ := hb
  rcases (g j i bj.1 hi).1 e with e | e
  · rw [← e]; exact bj
  · rw [← e]; exact bj.twin h

theorem sw_isE (P : Pair m a b) {i} (hi : IsE m.size i) : IsE m.size (sw a (pv b) b (pv a) i) := by
  unfold sw
  split
  · exact P.ib.pv
  · split
    · exact P.ia
    · split
      · exact P.ia.pv
      · split
        · exact P.ib
        · exact hi

theorem sw_out (P : Pair m a b) {i} (h1 : i ≠ a) (h2 : i ≠ b) (h3 : i ≠ pv a) (h4 : i ≠ pv b) : sw a (pv b) b (pv a) i = i := by
  unfold sw; rw [if_neg h1, if_neg h4, if_neg h2, if_neg h3]

/-- the links after a flip -/
theorem FlipSpec.esw (S : FlipSpec m m' a b) (h : Inv m) (P : Pair m a b) {i} (hi : IsE m.size i) :
    m'.e i = sw a (pv b) b (pv a) (m.e (sw a (pv b) b (pv a) i)) := by
  have A := P.apart
  have B := P.symm.apart
  have sa : sw a (pv b) b (pv a) a = pv b := by unfold sw; rw [if_pos rfl]
  have spb : sw a (pv b) b (pv a) (pv b) = a := by unfold sw; rw [if_neg A.apb.symm, if_pos rfl]
  have sb : sw a (pv b) b (pv a) b = pv a := by unfold sw; rw [if_neg A.ab.symm, if_neg A.pb.symm, if_pos rfl]
  have spa : sw a (pv b) b (pv a) (pv a) = b := by
    unfold sw; rw [if_neg A.pa, if_neg A.pp, if_neg A.bpa.symm, if_pos rfl]
  have out : ∀ {j}, j / 4 ≠ a / 4 → j / 4 ≠ b / 4 → sw a (pv b) b (pv a) j = j := by
    intro j h1 h2
    exact sw_out P (fun e => h1 (by rw [e])) (fun e => h2 (by rw [e])) (fun e => h1 (by rw [e, P.ia.pv_div])) (fun e => h2 (by rw [e, P.ib.pv_div]))
  have z : sw a (pv b) b (pv a) 0 = 0 := sw_out P (Ne.symm P.ia.pos) (Ne.symm P.ib.pos) (Ne.symm P.ia.pv.pos) (Ne.symm P.ib.pv.pos)
  have o1 : sw a (pv b) b (pv a) (m.e (pv a)) = m.e (pv a) := by
    by_cases h0 : m.e (pv a) = 0
    · rw [h0, z]
    · exact out (P.faceP h h0).1 (P.faceP h h0).2
  have o2 : sw a (pv b) b (pv a) (m.e (pv b)) = m.e (pv b) := by
    by_cases h0 : m.e (pv b) = 0
    · rw [h0, z]
    · exact out (P.symm.faceP h h0).2 (P.symm.faceP h h0).1
  have o3 : sw a (pv b) b (pv a) (m.e (nx a)) = m.e (nx a) := by
    by_cases h0 : m.e (nx a) = 0
    · rw [h0, z]
    · exact out (P.faceN h h0).1 (P.faceN h h0).2
  have o4 : sw a (pv b) b (pv a) (m.e (nx b)) = m.e (nx b) := by
    by_cases h0 : m.e (nx b) = 0
    · rw [h0, z]
    · exact out (P.symm.faceN h h0).2 (P.symm.faceN h h0).1
  have tn : ∀ {j k}, IsE m.size j → IsE m.size k → j = m.e k → m.e j = k := fun hj hk e => by
    have h0 : m.e _ ≠ 0 := e ▸ hj.pos
    rw [e]; exact (h.tw _ hk h0).2.1
  rcases P.cases hi with (e | e | e) | (e | e | e) | ⟨c, d⟩
  · rw [e, sa, o2]; exact S.e1
  · rw [e, sw_out P A.na A.bna.symm A.npa A.np, o3]
    refine S.e7 _ A.na A.bna.symm A.npa A.np (Or.inr fun e => ?_) (Or.inr fun e => ?_)
    · exact (P.faceP h (e ▸ P.ia.nx.pos)).1 (by rw [← e, P.ia.nx_div])
    · exact (P.symm.faceP h (e ▸ P.ia.nx.pos)).2 (by rw [← e, P.ia.nx_div])
  · rw [e, spa, P.ba, sa]; exact S.e3
  · rw [e, sb, o1]; exact S.e2
  · rw [e, sw_out P B.bna.symm A.nb (Ne.symm A.pn) A.npb, o4]
    refine S.e7 _ A.anb.symm A.nb (Ne.symm A.pn) A.npb (Or.inr fun e => ?_) (Or.inr fun e => ?_)
    · exact (P.faceP h (e ▸ P.ib.nx.pos)).2 (by rw [← e, P.ib.nx_div])
    · exact (P.symm.faceP h (e ▸ P.ib.nx.pos)).1 (by rw [← e, P.ib.nx_div])
  · rw [e, spb, P.ab, sb]; exact S.e4
  · rw [out c d]
    have n1 : i ≠ a := fun e => c (by rw [e])
    have n2 : i ≠ b := fun e => d (by rw [e])
    have n3 : i ≠ pv a := fun e => c (by rw [e, P.ia.pv_div])
    have n4 : i ≠ pv b := fun e => d (by rw [e, P.ib.pv_div])
    by_cases hu : i = m.e (pv a)
    · rw [tn hi P.ia.pv hu, spa, hu]; exact S.e6 (hu ▸ hi.pos)
    by_cases hv : i = m.e (pv b)
    · rw [tn hi P.ib.pv hv, spb, hv]; exact S.e5 (hv ▸ hi.pos)
    rw [S.e7 _ n1 n2 n3 n4 (Or.inr hu) (Or.inr hv)]
    by_cases h0 : m.e i = 0
    · rw [h0, z]
    · have tt := (h.tw i hi h0).2.1
      exact (sw_out P (fun e => n2 (by rw [← tt, e, P.ab])) (fun e => n1 (by rw [← tt, e, P.ba])) (fun e => hu (by rw [← tt, e]))
        (fun e => hv (by rw [← tt, e]))).symm

/-- names after a flip: the new diagonal gets the name of the old one -/
theorem FlipSpec.good (S : FlipSpec m m' a b) (h : Inv m) (P : Pair m a b) (g : Good m l) :
    Good m' (fun i => l (sw a (pv b) b (pv a) i)) := by
  have A := P.apart
  have ss := sw_sw (a := a) (b := pv b) (c := b) (d := pv a) A.ab A.pa.symm A.pb (Ne.symm A.pp)
  intro i j hi hj
  rw [S.size] at hi hj
  have e := S.esw h P hi
  simp only
  rw [g _ _ (sw_isE P hi) (sw_isE P hj)]
  constructor
  · rintro (k | k)
    · exact Or.inl (by rw [← ss i, k, ss])
    · exact Or.inr (by rw [e, k, ss])
  · rintro (k | k)
    · exact Or.inl (by rw [k])
    · rw [e] at k; exact Or.inr (by rw [← k, ss])

theorem FlipSpec.bad (S : FlipSpec m m' a b) (h : Inv m) (P : Pair m a b) (hd : m.det a < 0) (g : Good m l) {q}
    (hq : BadL m' (fun i => l (sw a (pv b) b (pv a) i)) q) :
    q = l (pv b) ∨ q = l (pv a) ∨ q = l (nx a) ∨ q = l (nx b) ∨ (BadL m l q ∧ q ≠ l a) := by
  have A := P.apart
  have B := P.symm.apart
  have sa : sw a (pv b) b (pv a) a = pv b := by unfold sw; rw [if_pos rfl]
  have spb : sw a (pv b) b (pv a) (pv b) = a := by unfold sw; rw [if_neg A.apb.symm, if_pos rfl]
  have sb : sw a (pv b) b (pv a) b = pv a := by unfold sw; rw [if_neg A.ab.symm, if_neg A.pb.symm, if_pos rfl]
  have spa : sw a (pv b) b (pv a) (pv a) = b := by
    unfold sw; rw [if_neg A.pa, if_neg A.pp, if_neg A.bpa.symm, if_pos rfl]
  have diag : 0 ≤ m'.det (pv a) := by
    have : m'.det (pv a) = - m.det a := by
      unfold Mesh.det
      rw [S.e3, S.symm.ppa P.symm, S.ppa P, P.ia.nx_pv, P.ia.pv_pv, S.pa P, S.p1, P.ab, P.n2]
      unfold Mesh.dt detE
      rw [S.x, S.y]
      ring
    omega
  obtain ⟨i, ⟨hi, hc, hn⟩, e⟩ := hq
  rw [S.size] at hi
  simp only at e
  rcases P.cases hi with (c | c | c) | (c | c | c) | ⟨c, d⟩
  · rw [c, sa] at e; exact Or.inl e.symm
  · rw [c, sw_out P A.na A.bna.symm A.npa A.np] at e; exact Or.inr (Or.inr (Or.inl e.symm))
  · rw [c] at hn; omega
  · rw [c, sb] at e; exact Or.inr (Or.inl e.symm)
  · rw [c, sw_out P B.bna.symm A.nb (Ne.symm A.pn) A.npb] at e; exact Or.inr (Or.inr (Or.inr (Or.inl e.symm)))
  · have h' := S.inv h P (P.convex h hd).1 (P.convex h hd).2
    have P' : Pair m' (pv a) (pv b) := by
      have := h'.pair (a := pv a) (by rw [S.size]; exact P.ia.pv) (by rw [S.e3]; exact P.ib.pv.pos)
      rwa [S.e3] at this
    rw [c, det_twin P'] at hn; omega
  · have n1 : i ≠ a := fun e => c (by rw [e])
    have n2 : i ≠ b := fun e => d (by rw [e])
    have n3 : i ≠ pv a := fun e => c (by rw [e, P.ia.pv_div])
    have n4 : i ≠ pv b := fun e => d (by rw [e, P.ib.pv_div])
    rw [sw_out P n1 n2 n3 n4] at e
    rw [S.c5 _ n1 n2 n3 n4] at hc
    have h0 := h.free hi hc
    obtain ⟨t1, t2, -⟩ := h.tw i hi h0
    have same : ∀ {j}, IsE m.size j → m.e i = j → q = l j := fun hj e' => by rw [← e]; exact (g i _ hi hj).2 (Or.inr e')
    rcases P.cases t1 with (x | x | x) | (x | x | x) | ⟨x, y⟩
    · exact absurd (by rw [← t2, x, P.ab]) n2
    · exact Or.inr (Or.inr (Or.inl (same P.ia.nx x)))
    · exact Or.inr (Or.inl (same P.ia.pv x))
    · exact absurd (by rw [← t2, x, P.ba]) n1
    · exact Or.inr (Or.inr (Or.inr (Or.inl (same P.ib.nx x))))
    · exact Or.inl (same P.ib.pv x)
    · refine Or.inr (Or.inr (Or.inr (Or.inr ⟨⟨i, ⟨hi, hc, ?_⟩, e⟩, ?_⟩)))
      · have e' : m'.e i = m.e i :=
          S.e7 _ n1 n2 n3 n4 (Or.inr fun k => y (by have := (h.tw _ P.ia.pv (k ▸ hi.pos)).2.1; rw [← k] at this; exact absurd (by rw [this, P.ia.pv_div]) x))
            (Or.inr fun k => y (by have := (h.tw _ P.ib.pv (k ▸ hi.pos)).2.1; rw [← k] at this; rw [this, P.ib.pv_div]))
        unfold Mesh.det Mesh.dt at hn ⊢
        rw [e', S.x, S.y, S.pout P c d, S.pout P (out_nx hi c) (out_nx hi d), S.pout P (out_pv hi c) (out_pv hi d), S.pout P x y] at hn
        exact hn
      · intro k
        rw [← e] at k
        rcases (g i a hi P.ia).1 k with k | k
        · exact n1 k
        · rw [k] at t2; exact n2 (by rw [← t2, P.ab])

/-- no edge became illegal; an edge that lost its name is legal -/
structure Calm (m m' : Mesh) (l l' : Nat → Nat) : Prop where
  good : Good m' l'
  le : ∀ q, BadL m' l' q → BadL m l q
  keep : ∀ i, IsE m.size i → l' i = l i ∨ ¬ BadL m' l' (l i)

theorem Calm.refl (g : Good m l) : Calm m m l l := ⟨g, fun _ h => h, fun _ _ => Or.inl rfl⟩

theorem Calm.trans (hs : m'.size = m.size) (h : Calm m m' l l') (h' : Calm m' m'' l' l'') : Calm m m'' l l'' := by
  refine ⟨h'.good, fun q hq => h.le q (h'.le q hq), fun i hi => ?_⟩
  rcases h.keep i hi with e | e
  · rw [← e]; exact h'.keep i (by rw [hs]; exact hi)
  · exact Or.inr fun hb => e (h'.le _ hb)

/-- calls of `flip` one after the other -/
def runFlips (k : Nat) : Mesh → List Nat → Option Mesh
  | m, [] => some m
  | m, a :: as => (flip k m a).bind fun m' => runFlips k m' as

theorem runFlips_calm {k : Nat}
    (one : ∀ m a m' l, Inv m → IsE m.size a → Good m l → flip k m a = some m' → ∃ l', Calm m m' l l' ∧ ¬ BadL m' l' (l a)) :
    ∀ (as : List Nat) m m' l, Inv m → (∀ a ∈ as, IsE m.size a) → Good m l → runFlips k m as = some m' →
      ∃ l', Calm m m' l l' ∧ ∀ a ∈ as, ¬ BadL m' l' (l a) := by
  intro as
  induction as with
  | nil =>
    intro m m' l h _ g hr
    simp only [runFlips, Option.some.injEq] at hr
    rw [← hr]; exact ⟨l, .refl g, by simp⟩
  | cons a as ih =>
    intro m m' l h ha g hr
    simp only [runFlips, Option.bind_eq_some_iff] at hr
    obtain ⟨m1, e1, e2⟩ := hr
    have ia := ha a (by simp)
    have F := flip_flips h (Or.inl ia) e1
    obtain ⟨l1, C1, n1⟩ := one m a m1 l h ia g e1
    obtain ⟨l2, C2, n2⟩ := ih m1 m' l1 (F.inv h) (fun x hx => F.isE (ha x (by simp [hx]))) C1.good e2
    refine ⟨l2, C1.trans F.size.1 C2, fun x hx => ?_⟩
    rw [List.mem_cons] at hx
    rcases hx with rfl | hx
    · exact fun hb => n1 (C2.le _ hb)
    · rcases C1.keep x (ha x (by simp [hx])) with e | e
      · rw [← e]; exact n2 x hx
      · exact fun hb => e (C2.le _ hb)

/-- `flip` leaves its edge legal -/
theorem flip_calm : ∀ k m a m' l, Inv m → IsE m.size a → Good m l → flip k m a = some m' →
    ∃ l', Calm m m' l l' ∧ ¬ BadL m' l' (l a) := by
  intro k
  induction k with
  | zero => intro m a m' l _ _ _ h; simp [flip] at h
  | succ k ih =>
    intro m a m' l h ha g hr
    rw [flip, if_neg ha.2.2] at hr
    by_cases hc : m.c a = 0
    · rw [if_neg (by simp [hc])] at hr
      obtain ⟨m1, hf, P, S⟩ := flip_one h ha hc
      simp only [(edge_iff _ _).2 P.ia, (edge_iff _ _).2 P.ib, P.ba, Bool.true_and, beq_self_eq_true, if_true] at hr
      by_cases hin : m.incircle (a / 4) (m.p (m.e a)) = true
      · have hd : m.det a < 0 := (incircle_iff h ha (h.pl _ P.ib)).1 hin
        rw [if_pos hin, hf] at hr
        have h1 := S.inv h P (P.convex h hd).1 (P.convex h hd).2
        have z1 := S.size
        generalize hb : m.e a = b at *
        have A := P.apart
        have B := P.symm.apart
        have sa : sw a (pv b) b (pv a) a = pv b := by unfold sw; rw [if_pos rfl]
        have sb : sw a (pv b) b (pv a) b = pv a := by unfold sw; rw [if_neg A.ab.symm, if_neg A.pb.symm, if_pos rfl]
        have sna := sw_out P A.na A.bna.symm A.npa A.np
        have snb := sw_out P B.bna.symm A.nb (Ne.symm A.pn) A.npb
        have run : runFlips k m1 [a, nx a, b, nx b] = some m' := by
          simp only [runFlips]
          simpa using hr
        obtain ⟨l', C, n⟩ := runFlips_calm ih _ m1 m' _ h1
          (by intro x hx; rw [z1]; simp only [List.mem_cons, List.not_mem_nil, or_false] at hx
              rcases hx with rfl | rfl | rfl | rfl; exacts [P.ia, P.ia.nx, P.ib, P.ib.nx]) (S.good h P g) run
        have na := n a (by simp)
        have nna := n (nx a) (by simp)
        have nb := n b (by simp)
        have nnb := n (nx b) (by simp)
        simp only [sa, sb, sna, snb] at na nna nb nnb
        have le : ∀ q, BadL m' l' q → BadL m l q ∧ q ≠ l a := by
          intro q hq
          rcases S.bad h P hd g (C.le q hq) with e | e | e | e | e
          · exact absurd (e ▸ hq) na
          · exact absurd (e ▸ hq) nb
          · exact absurd (e ▸ hq) nna
          · exact absurd (e ▸ hq) nnb
          · exact e
        have lab : l b = l a := (g b a P.ib P.ia).2 (Or.inr P.ba)
        refine ⟨l', ⟨C.good, fun q hq => (le q hq).1, fun i hi => ?_⟩, fun hb => (le _ hb).2 rfl⟩
        by_cases c1 : i = a
        · exact Or.inr (by rw [c1]; exact fun hb => (le _ hb).2 rfl)
        by_cases c2 : i = b
        · exact Or.inr (by rw [c2]; exact fun hb => (le _ hb).2 lab)
        by_cases c3 : i = pv a
        · exact Or.inr (by rw [c3]; exact nb)
        by_cases c4 : i = pv b
        · exact Or.inr (by rw [c4]; exact na)
        have := C.keep i (by rw [z1]; exact hi)
        simp only [sw_out P c1 c2 c3 c4] at this
        exact this
      · rw [if_neg hin] at hr
        injection hr with e
        rw [← e]
        refine ⟨l, .refl g, fun hb => ?_⟩
        have := (hb.bad h g ha).2.2
        exact hin ((incircle_iff h ha (h.pl _ P.ib)).2 this)
    · rw [if_pos hc] at hr
      injection hr with e
      rw [← e]
      exact ⟨l, .refl g, fun hb => hc (hb.bad h g ha).2.1⟩

/-- a naming -/
def Mesh.name (m : Mesh) (i : Nat) : Nat := if m.e i = 0 then i else min i (m.e i)

theorem name_good (h : Inv m) : Good m m.name := by
  intro i j hi hj
  have pi := hi.pos
  have pj := hj.pos
  have ti := h.tw i hi
  have tj := h.tw j hj
  unfold Mesh.name
  by_cases e1 : m.e i = 0 <;> by_cases e2 : m.e j = 0
  · rw [if_pos e1, if_pos e2]; constructor
    · exact Or.inl
    · rintro (e | e); exacts [e, absurd (e1.symm.trans e).symm pj]
  · rw [if_pos e1, if_neg e2]
    have t := tj e2
    constructor
    · intro e
      rcases Nat.le_total j (m.e j) with le | le
      · rw [min_eq_left le] at e; exact Or.inl e
      · rw [min_eq_right le] at e; rw [e, t.2.1] at e1; omega
    · rintro (e | e)
      · rw [e] at e1; exact absurd e1 e2
      · omega
  · rw [if_neg e1, if_pos e2]
    have t := ti e1
    constructor
    · intro e
      rcases Nat.le_total i (m.e i) with le | le
      · rw [min_eq_left le] at e; exact Or.inl e
      · rw [min_eq_right le] at e; exact Or.inr e
    · rintro (e | e)
      · rw [e] at e1; exact absurd e2 e1
      · rw [← e, t.2.1] at e2; omega
  · rw [if_neg e1, if_neg e2]
    have t := ti e1
    have t' := tj e2
    constructor
    · intro e
      rcases Nat.le_total i (m.e i) with le | le <;> rcases Nat.le_total j (m.e j) with le' | le'
      · rw [min_eq_left le, min_eq_left le'] at e; exact Or.inl e
      · rw [min_eq_left le, min_eq_right le'] at e; exact Or.inr (by rw [e, t'.2.1])
      · rw [min_eq_right le, min_eq_left le'] at e; exact Or.inr e
      · rw [min_eq_right le, min_eq_right le'] at e; exact Or.inl (by rw [← t.2.1, e, t'.2.1])
    · rintro (e | e)
      · rw [e]
      · rw [← e, t.2.1, min_comm]

/-- flips of all the suspicious edges make everything legal -/
theorem runFlips_legal {k : Nat} (h : Inv m) {as : List Nat} (ha : ∀ a ∈ as, IsE m.size a)
    (hb : ∀ i, Bad m i → i ∈ as ∨ m.e i ∈ as) (hr : runFlips k m as = some m') : Legal m' := by
  have g := name_good h
  obtain ⟨l', C, n⟩ := runFlips_calm (flip_calm k) as m m' m.name h ha g hr
  intro i hi hc
  by_contra hd
  have bl : BadL m' l' (l' i) := ⟨i, ⟨hi, hc, by omega⟩, rfl⟩
  obtain ⟨j, bj, e⟩ := C.le _ bl
  rw [← e] at bl
  rcases hb j bj with hj | hj
  · exact n j hj bl
  · have := n _ hj
    rw [← (g j _ bj.1 (ha _ hj)).2 (Or.inr rfl)] at this
    exact this bl

theorem flip_legal {k : Nat} (h : Inv m) (L : Legal m) (ha : Flippable m a) (hr : flip k m a = some m') : Legal m' := by
  rcases ha with ha | ha
  · refine runFlips_legal (k := k) h (as := [a]) (by simpa using ha) (fun i hb => ?_) (by simp [runFlips, hr])
    have := L i hb.1 hb.2.1
    have := hb.2.2
    omega
  · cases k with
    | zero => simp [flip] at hr
    | succ k =>
      rw [flip, if_neg ha.1, if_pos ha.2] at hr
      injection hr with e
      rw [← e]; exact L

end CE.Cdt
