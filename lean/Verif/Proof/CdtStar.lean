import Verif.Model.CdtCost
import Verif.Proof.CdtPoints
import Verif.Proof.CdtView
/-! Inserting a point without constraints: every flip adds a face at the new vertex. -/
namespace CE.Cdt

variable {m m' : Mesh} {n : Nat}

/-! ### circles -/

/-- there is a circle through `a` and `b` with no vertex strictly inside -/
def Sup (m : Mesh) (a b : Nat) : Prop := ∃ α β γ δ : ℤ, 0 < α ∧
  α * (m.x a * m.x a + m.y a * m.y a) + β * m.x a + γ * m.y a + δ = 0 ∧
  α * (m.x b * m.x b + m.y b * m.y b) + β * m.x b + γ * m.y b + δ = 0 ∧
  ∀ v, v < m.size → 0 ≤ α * (m.x v * m.x v + m.y v * m.y v) + β * m.x v + γ * m.y v + δ

theorem Sup.symm {a b} (h : Sup m a b) : Sup m b a := by
  obtain ⟨α, β, γ, δ, h0, h1, h2, h3⟩ := h
  exact ⟨α, β, γ, δ, h0, h2, h1, h3⟩

theorem Sup.congr {a b} (h : Sup m a b) (hs : m'.size = m.size) (hx : m'.x = m.x) (hy : m'.y = m.y) : Sup m' a b := by
  unfold Sup at *; rw [hs, hx, hy]; exact h

/-- such an edge is not flipped -/
theorem Sup.legal (h : Inv m) {i} (hi : IsE m.size i) (he : m.e i ≠ 0) (s : Sup m (m.p (nx i)) (m.p (pv i))) : 0 ≤ m.det i := by
  obtain ⟨α, β, γ, δ, h0, h1, h2, h3⟩ := s
  have P := h.pair hi he
  have c1 := h.cw _ hi
  have c2 := h.cw _ P.ib
  rw [P.n1, P.n2] at c2
  have fA := h3 _ (h.pl _ hi)
  have fD := h3 _ (h.pl _ P.ib)
  have key : α * m.det i =
      (α * (m.x (m.p i) * m.x (m.p i) + m.y (m.p i) * m.y (m.p i)) + β * m.x (m.p i) + γ * m.y (m.p i) + δ) *
        -m.cr (m.p (m.e i)) (m.p (pv i)) (m.p (nx i)) +
      (α * (m.x (m.p (m.e i)) * m.x (m.p (m.e i)) + m.y (m.p (m.e i)) * m.y (m.p (m.e i))) + β * m.x (m.p (m.e i)) +
        γ * m.y (m.p (m.e i)) + δ) * -m.cr (m.p i) (m.p (nx i)) (m.p (pv i)) := by
    unfold Mesh.det Mesh.dt detE Mesh.cr
    linear_combination (-((m.x (m.p (pv i)) - m.x (m.p i)) * (m.y (m.p (m.e i)) - m.y (m.p i)) - (m.y (m.p (pv i)) - m.y (m.p i)) * (m.x (m.p (m.e i)) - m.x (m.p i)))) * h1 +
      ((m.x (m.p (nx i)) - m.x (m.p i)) * (m.y (m.p (m.e i)) - m.y (m.p i)) - (m.y (m.p (nx i)) - m.y (m.p i)) * (m.x (m.p (m.e i)) - m.x (m.p i))) * h2
  have : 0 ≤ α * m.det i := by
    rw [key]
    exact add_nonneg (mul_nonneg fA (by omega)) (mul_nonneg fD (by omega))
  exact nonneg_of_mul_nonneg_right this h0

/-- the circle of a face shrunk to go through a corner and a point inside it -/
theorem sup_new {a b c d : Nat} (cw : m.cr a b c < 0) (hd : m.dt a b c d = 0) (hn : m.dt a b c n ≤ 0)
    (ne : m.x n ≠ m.x d ∨ m.y n ≠ m.y d) (old : ∀ v, v < m.size → v ≠ n → 0 ≤ m.dt a b c v) : Sup m n d := by
  obtain ⟨N, hN⟩ : ∃ N, N = m.dt a b c n := ⟨_, rfl⟩
  obtain ⟨L, hL⟩ : ∃ L, L = (m.x n - m.x d) * (m.x n - m.x d) + (m.y n - m.y d) * (m.y n - m.y d) := ⟨_, rfl⟩
  have L0 : 0 < L := by
    rw [hL]
    rcases ne with h | h
    · exact add_pos_of_pos_of_nonneg (mul_self_pos.2 (sub_ne_zero.2 h)) (mul_self_nonneg _)
    · exact add_pos_of_nonneg_of_pos (mul_self_nonneg _) (mul_self_pos.2 (sub_ne_zero.2 h))
  -- the form of the circle of the face
  obtain ⟨B, hB⟩ : ∃ B, B = -((m.y a) * ((m.x b * m.x b + m.y b * m.y b) - (m.x c * m.x c + m.y c * m.y c)) +
      m.y b * ((m.x c * m.x c + m.y c * m.y c) - (m.x a * m.x a + m.y a * m.y a)) +
      m.y c * ((m.x a * m.x a + m.y a * m.y a) - (m.x b * m.x b + m.y b * m.y b))) := ⟨_, rfl⟩
  obtain ⟨G, hG⟩ : ∃ G, G = ((m.x a) * ((m.x b * m.x b + m.y b * m.y b) - (m.x c * m.x c + m.y c * m.y c)) +
      m.x b * ((m.x c * m.x c + m.y c * m.y c) - (m.x a * m.x a + m.y a * m.y a)) +
      m.x c * ((m.x a * m.x a + m.y a * m.y a) - (m.x b * m.x b + m.y b * m.y b))) := ⟨_, rfl⟩
  obtain ⟨E, hE⟩ : ∃ E, E = (m.x a * m.x a + m.y a * m.y a) * (m.x b * m.y c - m.y b * m.x c) +
      (m.x b * m.x b + m.y b * m.y b) * (m.x c * m.y a - m.y c * m.x a) +
      (m.x c * m.x c + m.y c * m.y c) * (m.x a * m.y b - m.y a * m.x b) := ⟨_, rfl⟩
  have form : ∀ v, m.dt a b c v = -m.cr a b c * (m.x v * m.x v + m.y v * m.y v) + B * m.x v + G * m.y v + E := by
    intro v; rw [hB, hG, hE]; unfold Mesh.dt detE Mesh.cr; ring
  have val : ∀ v, (-N + L * -m.cr a b c) * (m.x v * m.x v + m.y v * m.y v) + (2 * N * m.x d + L * B) * m.x v +
      (2 * N * m.y d + L * G) * m.y v + (-N * (m.x d * m.x d + m.y d * m.y d) + L * E) =
      -N * ((m.x v - m.x d) * (m.x v - m.x d) + (m.y v - m.y d) * (m.y v - m.y d)) + L * m.dt a b c v := by
    intro v; rw [form v]; ring
  have vn : -N * ((m.x n - m.x d) * (m.x n - m.x d) + (m.y n - m.y d) * (m.y n - m.y d)) + L * m.dt a b c n = 0 := by
    rw [← hL, ← hN]; ring
  refine ⟨-N + L * -m.cr a b c, 2 * N * m.x d + L * B, 2 * N * m.y d + L * G, -N * (m.x d * m.x d + m.y d * m.y d) + L * E, ?_, ?_, ?_, ?_⟩
  · have := mul_pos L0 (by omega : 0 < -m.cr a b c); rw [← hN] at hn; omega
  · rw [val]; exact vn
  · rw [val, hd]; ring
  · intro v hv
    rw [val]
    by_cases e : v = n
    · rw [e, vn]
    · exact add_nonneg (mul_nonneg (by omega) (add_nonneg (mul_self_nonneg _) (mul_self_nonneg _))) (mul_nonneg L0.le (old v hv e))

theorem dt_a (m : Mesh) (a b c : Nat) : m.dt a b c a = 0 := by unfold Mesh.dt detE; ring
theorem dt_b (m : Mesh) (a b c : Nat) : m.dt a b c b = 0 := by unfold Mesh.dt detE; ring
theorem dt_c (m : Mesh) (a b c : Nat) : m.dt a b c c = 0 := by unfold Mesh.dt detE; ring

/-- a point of a triangle is in its circle -/
theorem dt_in {a b c v : Nat} (h0 : m.cr v b c ≤ 0) (h1 : m.cr v c a ≤ 0) (h2 : m.cr v a b ≤ 0) : m.dt a b c v ≤ 0 := by
  have key : m.dt a b c v = -(((m.x a - m.x v) * (m.x a - m.x v) + (m.y a - m.y v) * (m.y a - m.y v)) * -m.cr v b c +
      ((m.x b - m.x v) * (m.x b - m.x v) + (m.y b - m.y v) * (m.y b - m.y v)) * -m.cr v c a +
      ((m.x c - m.x v) * (m.x c - m.x v) + (m.y c - m.y v) * (m.y c - m.y v)) * -m.cr v a b) := by
    unfold Mesh.dt detE Mesh.cr; ring
  rw [key]
  have sq : ∀ p q : ℤ, 0 ≤ p * p + q * q := fun p q => add_nonneg (mul_self_nonneg _) (mul_self_nonneg _)
  have := add_nonneg (add_nonneg (mul_nonneg (sq (m.x a - m.x v) (m.y a - m.y v)) (by omega : 0 ≤ -m.cr v b c))
    (mul_nonneg (sq (m.x b - m.x v) (m.y b - m.y v)) (by omega : 0 ≤ -m.cr v c a)))
    (mul_nonneg (sq (m.x c - m.x v) (m.y c - m.y v)) (by omega : 0 ≤ -m.cr v a b))
  omega

/-! ### faces at a vertex -/

/-- the face has the corner -/
def Has (m : Mesh) (n f : Nat) : Prop := m.p (4 * f) = n ∨ m.p (4 * f + 1) = n ∨ m.p (4 * f + 2) = n

instance (m : Mesh) (n : Nat) : DecidablePred (Has m n) := fun _ => inferInstanceAs (Decidable (_ ∨ _))

theorem has_iff {s i} (hi : IsE s i) : Has m n (i / 4) ↔ m.p i = n ∨ m.p (nx i) = n ∨ m.p (pv i) = n := by
  unfold Has
  rcases hi.thirds with ⟨e1, e2, e3⟩ | ⟨e1, e2, e3⟩ | ⟨e1, e2, e3⟩
  · rw [e2, e3, ← e1]
  · rw [e2, e3, ← e1]; tauto
  · rw [e2, e3, ← e1]; tauto

/-- the number of faces at a vertex -/
def Mesh.deg (m : Mesh) (n : Nat) : Nat := ((Finset.Ico 6 (2 * m.size)).filter (Has m n)).card

/-- the corner after the vertex -/
def after (m : Mesh) (n f : Nat) : Nat :=
  if m.p (4 * f) = n then m.p (4 * f + 1) else if m.p (4 * f + 1) = n then m.p (4 * f + 2) else m.p (4 * f)

theorem after_spec {f} (hf : f ∈ Finset.Ico 6 (2 * m.size)) (h : Has m n f) :
    ∃ i, IsE m.size i ∧ i / 4 = f ∧ m.p (nx i) = n ∧ m.p (pv i) = after m n f := by
  have B := base (isE_face hf) (by omega)
  unfold after
  by_cases h0 : m.p (4 * f) = n
  · exact ⟨4 * f + 2, B.i2, by omega, by rw [B.n2]; exact h0, by rw [if_pos h0, B.p2]⟩
  · by_cases h1 : m.p (4 * f + 1) = n
    · exact ⟨4 * f, B.i0, by omega, by rw [B.n0]; exact h1, by rw [if_neg h0, if_pos h1, B.p0]⟩
    · have h2 : m.p (4 * f + 2) = n := by rcases h with h | h | h; exacts [absurd h h0, absurd h h1, h]
      exact ⟨4 * f + 1, B.i1, by omega, by rw [B.n1]; exact h2, by rw [if_neg h0, if_neg h1, B.p1]⟩

/-- every other vertex follows in at most one face -/
theorem deg_le (h : Inv m) (R : Rim m) (hn : n < m.size) : m.deg n + 1 ≤ m.size := by
  have hc : m.deg n ≤ ((Finset.range m.size).erase n).card := by
    apply Finset.card_le_card_of_injOn (after m n)
    · intro f hf
      rw [Finset.mem_coe, Finset.mem_filter] at hf
      obtain ⟨i, hi, -, e1, e2⟩ := after_spec hf.1 hf.2
      rw [Finset.mem_coe, Finset.mem_erase, Finset.mem_range, ← e2, ← e1]
      exact ⟨(h.ne3 hi).symm, h.pl _ hi.pv⟩
    · intro f hf g hg e
      rw [Finset.mem_coe, Finset.mem_filter] at hf hg
      obtain ⟨i, hi, ei, e1, e2⟩ := after_spec hf.1 hf.2
      obtain ⟨j, hj, ej, e3, e4⟩ := after_spec hg.1 hg.2
      have := ends_inj h R hi hj (by unfold Mesh.ends; rw [e1, e2, e3, e4, e])
      rw [← ei, ← ej, this]
  rw [Finset.card_erase_of_mem (Finset.mem_range.2 hn), Finset.card_range] at hc
  omega

/-! ### the invariant during the flips -/

/-- the faces without the new vertex are Delaunay but for it, and the edges at it will stay -/
structure Star (m : Mesh) (n : Nat) : Prop where
  old : ∀ i, IsE m.size i → m.p i ≠ n → m.p (nx i) ≠ n → m.p (pv i) ≠ n → ∀ v, v < m.size → v ≠ n →
    0 ≤ m.dt (m.p i) (m.p (nx i)) (m.p (pv i)) v
  spoke : ∀ i, IsE m.size i → m.p i = n → Sup m n (m.p (nx i)) ∧ Sup m n (m.p (pv i))

/-- only the edge opposite the new vertex is flipped -/
theorem Star.opp (s : Star m n) (h : Inv m) {a} (ia : IsE m.size a) (he : m.e a ≠ 0) (hf : Has m n (a / 4)) (hd : m.det a < 0) :
    m.p a = n := by
  by_contra ne
  have : 0 ≤ m.det a := by
    rcases (has_iff ia).1 hf with e | e | e
    · exact absurd e ne
    · have := (s.spoke _ ia.nx e).1
      rw [ia.nx_nx, ← e] at this
      exact this.legal h ia he
    · have := (s.spoke _ ia.pv e).2
      rw [ia.pv_pv, ← e] at this
      exact this.symm.legal h ia he
  omega

theorem dt_congr (hx : m'.x = m.x) (hy : m'.y = m.y) (a b c d : Nat) : m'.dt a b c d = m.dt a b c d := by
  unfold Mesh.dt; rw [hx, hy]

/-- one flip -/
theorem Star.flip {a b} (s : Star m n) (h : Inv m) (P : Pair m a b) (hd : m.det a < 0) (hf : Has m n (a / 4)) (S : FlipSpec m m' a b) :
    Star m' n ∧ m'.deg n = m.deg n + 1 ∧ (∀ f, f ∈ Finset.Ico 6 (2 * m.size) → Has m n f → Has m' n f) ∧
      Has m' n (a / 4) ∧ Has m' n (b / 4) := by
  have pa := s.opp h P.ia (by rw [P.ab]; exact P.ib.pos) hf hd
  have A := P.apart
  have ia := P.ia
  have ib := P.ib
  have b0 : m.p b ≠ n := by
    intro e
    unfold Mesh.det at hd
    rw [P.ab, e, ← pa, dt_a] at hd
    omega
  have b1 : m.p (nx b) ≠ n := by rw [P.n1, ← pa]; exact (h.ne2 ia).symm
  have b2 : m.p (pv b) ≠ n := by rw [P.n2, ← pa]; exact (h.ne1 ia).symm
  have hn : n < m.size := pa ▸ h.pl _ ia
  have new : Sup m n (m.p b) := by
    refine sup_new (h.cw _ ib) (dt_a _ _ _ _) ?_ ?_ (s.old _ ib b0 b1 b2)
    · have := det_twin P
      unfold Mesh.det at this hd
      rw [P.ba, pa] at this
      rw [pa] at hd
      rw [this]; exact hd.le
    · by_contra hc
      push Not at hc
      have e : m.det a = 0 := by
        unfold Mesh.det Mesh.dt
        rw [P.ab, pa, hc.1, hc.2]; unfold detE; ring
      omega
  have cg : ∀ {u v}, Sup m u v → Sup m' u v := fun s => s.congr S.size S.x S.y
  have q0 : m'.p a = n := by rw [S.pa P, pa]
  have q1 : m'.p (nx a) = m.p b := S.p1
  have q2 : m'.p (pv a) = m.p (pv a) := S.ppa P
  have r0 : m'.p b = m.p b := S.symm.pa P.symm
  have r1 : m'.p (nx b) = n := by rw [S.p2, pa]
  have r2 : m'.p (pv b) = m.p (nx a) := by rw [S.symm.ppa P.symm, P.n2]
  obtain ⟨s1, s2⟩ := s.spoke a ia pa
  have hA : Has m' n (a / 4) := (has_iff (m := m') ia).2 (Or.inl q0)
  have hB : Has m' n (b / 4) := (has_iff (m := m') ib).2 (Or.inr (Or.inl r1))
  have same : ∀ f, f ≠ a / 4 → f ≠ b / 4 → (Has m' n f ↔ Has m n f) := by
    intro f h1 h2
    unfold Has
    rw [S.pout P (i := 4 * f) (by omega) (by omega), S.pout P (i := 4 * f + 1) (by omega) (by omega),
      S.pout P (i := 4 * f + 2) (by omega) (by omega)]
  have nB : ¬ Has m n (b / 4) := by rw [has_iff ib]; tauto
  refine ⟨⟨?_, ?_⟩, ?_, ?_, hA, hB⟩
  · intro i hi h0 h1 h2 v hv hvn
    rw [S.size] at hi hv
    rcases P.cases hi with (e | e | e) | (e | e | e) | ⟨f1, f2⟩
    · rw [e] at h0; exact absurd q0 h0
    · rw [e, ia.pv_nx] at h2; exact absurd q0 h2
    · rw [e, ia.nx_pv] at h1; exact absurd q0 h1
    · rw [e] at h1; exact absurd r1 h1
    · rw [e] at h0; exact absurd r1 h0
    · rw [e, ib.pv_pv] at h2; exact absurd r1 h2
    · have e0 := S.pout P f1 f2
      have e1 := S.pout P (out_nx hi f1) (out_nx hi f2)
      have e2 := S.pout P (out_pv hi f1) (out_pv hi f2)
      rw [e0] at h0
      rw [e1] at h1
      rw [e2] at h2
      rw [e0, e1, e2, dt_congr S.x S.y]
      exact s.old i hi h0 h1 h2 v hv hvn
  · intro i hi h0
    rw [S.size] at hi
    rcases P.cases hi with (e | e | e) | (e | e | e) | ⟨f1, f2⟩
    · rw [e, q1, q2]; exact ⟨cg new, cg s2⟩
    · rw [e, q1] at h0; exact absurd h0 b0
    · rw [e, q2, ← P.n1] at h0; exact absurd h0 b1
    · rw [e, r0] at h0; exact absurd h0 b0
    · rw [e, ib.nx_nx, ib.pv_nx, r0, r2]; exact ⟨cg s1, cg new⟩
    · rw [e, r2, ← P.n2] at h0; exact absurd h0 b2
    · rw [S.pout P f1 f2] at h0
      rw [S.pout P (out_nx hi f1) (out_nx hi f2), S.pout P (out_pv hi f1) (out_pv hi f2)]
      obtain ⟨t1, t2⟩ := s.spoke i hi h0
      exact ⟨cg t1, cg t2⟩
  · unfold Mesh.deg
    rw [S.size]
    have : (Finset.Ico 6 (2 * m.size)).filter (Has m' n) = insert (b / 4) ((Finset.Ico 6 (2 * m.size)).filter (Has m n)) := by
      ext f
      rw [Finset.mem_insert, Finset.mem_filter, Finset.mem_filter]
      by_cases e : f = b / 4
      · rw [e]; exact ⟨fun _ => Or.inl rfl, fun _ => ⟨face_mem ib, hB⟩⟩
      · by_cases e' : f = a / 4
        · rw [e']; exact ⟨fun k => Or.inr ⟨k.1, hf⟩, fun _ => ⟨face_mem ia, hA⟩⟩
        · rw [same f e' e]; tauto
    rw [this, Finset.card_insert_of_notMem (by rw [Finset.mem_filter]; exact fun k => nB k.2)]
  · intro f _ hk
    by_cases e : f = b / 4
    · rw [e]; exact hB
    · by_cases e' : f = a / 4
      · rw [e']; exact hA
      · exact (same f e' e).2 hk

/-- what a call of `flip` does -/
structure Grown (m m' : Mesh) (n c : Nat) : Prop where
  flips : Flips m m'
  star : Star m' n
  deg : m'.deg n = m.deg n + c
  keep : ∀ f, f ∈ Finset.Ico 6 (2 * m.size) → Has m n f → Has m' n f

theorem Grown.trans {m''} {c d} (g : Grown m m' n c) (g' : Grown m' m'' n d) : Grown m m'' n (c + d) where
  flips := g.flips.trans g'.flips
  star := g'.star
  deg := by rw [g'.deg, g.deg]; omega
  keep f hf hh := g'.keep f (by rw [g.flips.size.1]; exact hf) (g.keep f hf hh)

theorem flipC_mono : ∀ k m a r, flipC k m a = some r → flipC (k + 1) m a = some r := by
  intro k
  induction k with
  | zero => intro m a r h; simp [flipC] at h
  | succ k ih =>
    intro m a r h
    rw [flipC] at h ⊢
    split at h
    · exact absurd h (by simp)
    · rename_i h3
      rw [if_neg h3]
      split at h
      · rename_i hc; rw [if_pos hc]; exact h
      · rename_i hc
        rw [if_neg hc]
        simp only at h ⊢
        split at h
        · rename_i he
          rw [if_pos he]
          split at h
          · rename_i hin
            rw [if_pos hin]
            simp only [Option.bind_eq_bind, Option.bind_eq_some_iff] at h ⊢
            obtain ⟨m1, h1, r2, h2, r3, h3, r4, h4, r5, h5, h6⟩ := h
            exact ⟨m1, h1, r2, ih _ _ _ h2, r3, ih _ _ _ h3, r4, ih _ _ _ h4, r5, ih _ _ _ h5, h6⟩
          · rename_i hin; rw [if_neg hin]; exact h
        · exact absurd h (by simp)

theorem flipC_mono' {k k'} (hk : k ≤ k') {m a r} (h : flipC k m a = some r) : flipC k' m a = some r := by
  induction hk with
  | refl => exact h
  | step _ ih => exact flipC_mono _ _ _ _ ih

theorem flipsC_mono' {k k'} (hk : k ≤ k') : ∀ {as : List Nat} {m r}, flipsC k m as = some r → flipsC k' m as = some r
  | [], _, _, h => h
  | _ :: _, _, _, h => by
    simp only [flipsC, Option.bind_eq_bind, Option.bind_eq_some_iff] at h ⊢
    obtain ⟨r1, h1, r2, h2, h3⟩ := h
    exact ⟨r1, flipC_mono' hk h1, r2, flipsC_mono' hk h2, h3⟩

/-- without the count it is `flip` -/
theorem flipC_fst : ∀ k m a, (flipC k m a).map Prod.fst = flip k m a := by
  intro k
  induction k with
  | zero => intro m a; rfl
  | succ k ih =>
    intro m a
    rw [flipC, CE.Cdt.flip]
    split
    · rfl
    split
    · rfl
    simp only
    split
    · split
      · cases hd : m.doFlip a with
        | none => rfl
        | some m1 =>
          simp only [Option.bind_eq_bind, Option.bind_some, ← ih]
          cases flipC k m1 a with
          | none => rfl
          | some r1 =>
            simp only [Option.bind_some, Option.map_some]
            cases flipC k r1.1 (nx a) with
            | none => rfl
            | some r2 =>
              simp only [Option.bind_some, Option.map_some]
              cases flipC k r2.1 (m.e a) with
              | none => rfl
              | some r3 =>
                simp only [Option.bind_some, Option.map_some]
                cases flipC k r3.1 (nx (m.e a)) with
                | none => rfl
                | some r4 => rfl
      · rfl
    · rfl

theorem flipsC_fst (k : Nat) : ∀ (as : List Nat) m, (flipsC k m as).map Prod.fst = runFlips k m as
  | [], _ => rfl
  | a :: as, m => by
    simp only [flipsC, runFlips, ← flipC_fst, Option.bind_eq_bind]
    cases flipC k m a with
    | none => rfl
    | some r1 =>
      simp only [Option.bind_some, Option.map_some, ← flipsC_fst k as r1.1]
      cases flipsC k r1.1 as with
      | none => rfl
      | some r2 => rfl

/-- without the count it is `insert_point_at_node` -/
theorem insertAtC_fst (limit k : Nat) (m : Mesh) (px py : Int) (n : Nat) :
    (insertAtC limit k m px py n).map (fun r => (r.1, r.2.1)) = insertAt limit k m px py n := by
  have key : ∀ (m : Mesh) as r, (((flipsC k m as).bind fun x => some (x.1, r, x.2)).map fun r : Mesh × Nat × Nat => (r.1, r.2.1)) =
      (runFlips k m as).bind fun m => some (m, r) := by
    intro m as r
    rw [← flipsC_fst]
    cases flipsC k m as <;> rfl
  unfold insertAtC placeAt insertAt
  by_cases hn : n = 0
  · rw [if_pos hn, if_pos hn]; rfl
  rw [if_neg hn, if_neg hn]
  dsimp only
  by_cases hi : (m.edge (n / 4 * 4) && m.inFace px py (n / 4 * 4)) = true
  swap
  · rw [if_pos hi, if_pos hi]; rfl
  rw [if_neg (not_not.2 hi), if_neg (not_not.2 hi)]
  generalize m.code px py (n / 4 * 4) = e
  by_cases e0 : e = 0
  · rw [if_pos e0, if_pos e0]; rfl
  rw [if_neg e0, if_neg e0]
  by_cases e1 : e = 1 ∨ e = 2 ∨ e = 4
  · rw [if_pos e1, if_pos e1]; rfl
  rw [if_neg e1, if_neg e1]
  by_cases hl : m.size ≥ limit
  · rw [if_pos hl, if_pos hl]; rfl
  rw [if_neg hl, if_neg hl]
  generalize n / 4 * 4 + (if e = 3 then 2 else if e = 5 then 1 else if e = 6 then 0 else 3) = ue
  by_cases e7 : e = 7
  · rw [if_pos e7, if_pos e7]
    simp only [Option.bind_eq_bind, Option.bind_some, key, runFlips, Option.bind_assoc]
  rw [if_neg e7, if_neg e7]
  by_cases hv : m.e ue = 0
  · rw [if_pos hv, if_pos hv]; rfl
  rw [if_neg hv, if_neg hv]
  by_cases ht : (m.edge (m.e ue) && m.e (m.e ue) == ue) = true
  · rw [if_pos ht, if_pos ht]
    simp only [Option.bind_eq_bind, Option.bind_some, key, runFlips, Option.bind_assoc]
  · rw [if_neg ht, if_neg ht]; rfl

theorem flipC_grown : ∀ (k : Nat) m, Inv m → Star m n → ∀ a, IsE m.size a → Has m n (a / 4) → ∀ N,
    (∀ m'', Flips m m'' → m''.deg n ≤ N) → N < k + m.deg n → ∃ m' c, flipC k m a = some (m', c) ∧ Grown m m' n c := by
  intro k
  induction k with
  | zero => intro m h s a ha hf N hN hk; have := hN m (.refl m); omega
  | succ k ih =>
    intro m h s a ha hf N hN hk
    rw [flipC, if_neg ha.2.2]
    have stop : Grown m m n 0 := ⟨.refl m, s, rfl, fun _ _ hh => hh⟩
    by_cases hc : m.c a = 0
    · rw [if_neg (by simp [hc])]
      obtain ⟨m1, hfl, P, S⟩ := flip_one h ha hc
      simp only [(edge_iff _ _).2 P.ia, (edge_iff _ _).2 P.ib, P.ba, Bool.true_and, beq_self_eq_true, if_true]
      by_cases hin : m.incircle (a / 4) (m.p (m.e a)) = true
      · have hd : m.det a < 0 := (incircle_iff h ha (h.pl _ P.ib)).1 hin
        rw [if_pos hin, hfl]
        have hi1 := S.inv h P (P.convex h hd).1 (P.convex h hd).2
        obtain ⟨st, dg, kp, hA, hB⟩ := s.flip h P hd hf S
        have F1 : Flips m m1 := .step P hc hd S (.refl _)
        have g1 : Grown m m1 n 1 := ⟨F1, st, dg, kp⟩
        have N1 : ∀ {m2}, Flips m m2 → ∀ m'', Flips m2 m'' → m''.deg n ≤ N := fun F m'' F' => hN _ (F.trans F')
        have fa := face_mem P.ia
        have fb := face_mem P.ib
        obtain ⟨m2, c2, e2, g2⟩ := ih m1 hi1 st a (F1.isE P.ia) hA N (N1 F1) (by omega)
        have G2 := g1.trans g2
        obtain ⟨m3, c3, e3, g3⟩ := ih m2 (G2.flips.inv h) G2.star (nx a) (G2.flips.isE P.ia.nx)
          (by rw [P.ia.nx_div]; exact G2.keep _ fa hf) N (N1 G2.flips) (by have := G2.deg; omega)
        have G3 := G2.trans g3
        have sz1 := F1.size.1
        obtain ⟨m4, c4, e4, g4⟩ := ih m3 (G3.flips.inv h) G3.star (m.e a) (G3.flips.isE P.ib)
          ((g2.trans g3).keep _ (by rw [sz1]; exact fb) hB) N (N1 G3.flips) (by have := G3.deg; omega)
        have G4 := G3.trans g4
        obtain ⟨m5, c5, e5, g5⟩ := ih m4 (G4.flips.inv h) G4.star (nx (m.e a)) (G4.flips.isE P.ib.nx)
          (by rw [P.ib.nx_div]; exact ((g2.trans g3).trans g4).keep _ (by rw [sz1]; exact fb) hB) N (N1 G4.flips)
          (by have := G4.deg; omega)
        refine ⟨m5, c2 + c3 + c4 + c5 + 1, ?_, ?_⟩
        · simp only [Option.bind_eq_bind, Option.bind_some]
          rw [e2]; simp only [Option.bind_some]
          rw [e3]; simp only [Option.bind_some]
          rw [e4]; simp only [Option.bind_some]
          rw [e5]; simp only [Option.bind_some]
        · have := G4.trans g5
          rwa [show 1 + c2 + c3 + c4 + c5 = c2 + c3 + c4 + c5 + 1 by omega] at this
      · rw [if_neg hin]; exact ⟨m, 0, rfl, stop⟩
    · rw [if_pos hc]; exact ⟨m, 0, rfl, stop⟩

theorem flipsC_grown (k : Nat) : ∀ (as : List Nat) m, Inv m → Star m n → (∀ a ∈ as, IsE m.size a ∧ Has m n (a / 4)) → ∀ N,
    (∀ m'', Flips m m'' → m''.deg n ≤ N) → N < k + m.deg n → ∃ m' c, flipsC k m as = some (m', c) ∧ Grown m m' n c := by
  intro as
  induction as with
  | nil => intro m h s _ N _ _; exact ⟨m, 0, rfl, .refl m, s, rfl, fun _ _ hh => hh⟩
  | cons a as ih =>
    intro m h s ha N hN hk
    obtain ⟨i1, h1⟩ := ha a (by simp)
    obtain ⟨m1, c1, e1, g1⟩ := flipC_grown k m h s a i1 h1 N hN hk
    obtain ⟨m2, c2, e2, g2⟩ := ih m1 (g1.flips.inv h) g1.star (fun b hb => by
      obtain ⟨i2, h2⟩ := ha b (by simp [hb])
      exact ⟨g1.flips.isE i2, g1.keep _ (face_mem i2) h2⟩) N (fun m'' F => hN _ (g1.flips.trans F)) (by have := g1.deg; omega)
    refine ⟨m2, c1 + c2, ?_, g1.trans g2⟩
    simp only [flipsC, Option.bind_eq_bind, e1, Option.bind_some, e2]

end CE.Cdt
