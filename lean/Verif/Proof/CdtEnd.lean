import Verif.Model.CdtBy
import Verif.Proof.CdtRoute
import Verif.Proof.CdtPoints
import Mathlib.Dynamics.PeriodicPts.Defs
import Mathlib.Order.Monotone.Basic
/-! `insert_edge` ends unless a search for a face does not. -/
namespace CE.Cdt

open CE.Vec

variable {m m' : Mesh} {px py : Int}

/-! ### turning around a vertex -/

/-- vectors that go around always in the same direction and come back pass every direction -/
theorem pass_around (wx wy : ℕ → ℤ) (N : ℕ) (hN : 0 < N) (px : ∀ n, wx (n + N) = wx n) (py : ∀ n, wy (n + N) = wy n)
    (turn : ∀ n, 0 < wx n * wy (n + 1) - wy n * wx (n + 1)) (q1 q2 : ℤ) :
    ∃ n, wx (n + 1) * q2 - wy (n + 1) * q1 < 0 ∧ 0 ≤ wx n * q2 - wy n * q1 ∨ (q1 = 0 ∧ q2 = 0) := by
  by_contra hc
  push Not at hc
  have hq : ¬ (q1 = 0 ∧ q2 = 0) := fun h => (hc 0).2 h.1 h.2
  set c : ℕ → ℤ := fun n => wx n * q2 - wy n * q1 with hcdef
  set d : ℕ → ℤ := fun n => wx n * q1 + wy n * q2 with hddef
  have step : ∀ n, 0 ≤ c n → 0 ≤ c (n + 1) := by
    intro n h
    by_contra h'
    push Not at h'
    exact absurd h (not_le.2 ((hc n).1 h'))
  have per : ∀ n, c (n + N) = c n := fun n => by simp only [hcdef, px, py]
  have perd : ∀ n, d (n + N) = d n := fun n => by simp only [hddef, px, py]
  have qpos : 0 < q1 * q1 + q2 * q2 := by
    rcases not_and_or.1 hq with h | h
    · have := mul_self_pos.2 h; nlinarith [mul_self_nonneg q2]
    · have := mul_self_pos.2 h; nlinarith [mul_self_nonneg q1]
  have id : ∀ n, 0 < c n * d (n + 1) - d n * c (n + 1) := by
    intro n
    have : c n * d (n + 1) - d n * c (n + 1) = (wx n * wy (n + 1) - wy n * wx (n + 1)) * (q1 * q1 + q2 * q2) := by
      simp only [hcdef, hddef]; ring
    rw [this]; exact mul_pos (turn n) qpos
  -- all on the one side or all on the other
  have sgn : (∀ n, 0 < c n) ∨ (∀ n, c n < 0) := by
    by_cases h0 : ∃ n, 0 ≤ c n
    · left
      obtain ⟨n0, h0⟩ := h0
      have up : ∀ k, 0 ≤ c (n0 + k) := by
        intro k
        induction k with
        | zero => exact h0
        | succ k ih => exact step _ ih
      have perk : ∀ k n, c (n + k * N) = c n := by
        intro k
        induction k with
        | zero => intro n; simp
        | succ k ih => intro n; rw [show n + (k + 1) * N = (n + k * N) + N by ring, per, ih]
      have all : ∀ n, 0 ≤ c n := by
        intro n
        rw [← perk (n0 + 1) n]
        have : n0 ≤ n + (n0 + 1) * N := by nlinarith
        obtain ⟨j, hj⟩ := Nat.exists_eq_add_of_le this
        rw [hj]; exact up j
      intro n
      rcases lt_or_eq_of_le (all n) with h | h
      · exact h
      exfalso
      obtain ⟨j, hj⟩ : ∃ j, n + N = j + 1 := ⟨n + N - 1, by omega⟩
      have e1 := id j
      have e2 := id (j + 1)
      have z : c (j + 1) = 0 := by rw [← hj, per, ← h]
      rw [z] at e1 e2
      have a1 := all j
      have a2 := all (j + 1 + 1)
      have d1 : 0 < d (j + 1) := by
        by_contra hd; push Not at hd; nlinarith
      nlinarith
    · right
      push Not at h0
      exact h0
  have mono : ∀ n, (d n : ℚ) / c n < d (n + 1) / c (n + 1) := by
    intro n
    have i := id n
    have iq : (0 : ℚ) < c n * d (n + 1) - d n * c (n + 1) := by exact_mod_cast i
    have pos : (0 : ℚ) < c n * c (n + 1) := by
      rcases sgn with s | s
      · exact_mod_cast mul_pos (s n) (s (n + 1))
      · exact_mod_cast mul_pos_of_neg_of_neg (s n) (s (n + 1))
    have n1 : (c n : ℚ) ≠ 0 := left_ne_zero_of_mul pos.ne'
    have n2 : (c (n + 1) : ℚ) ≠ 0 := right_ne_zero_of_mul pos.ne'
    have : (d (n + 1) : ℚ) / c (n + 1) - d n / c n = (c n * d (n + 1) - d n * c (n + 1)) / (c n * c (n + 1)) := by
      field_simp
    have := div_pos iq pos
    linarith
  have := strictMono_nat_of_lt_succ (f := fun n => (d n : ℚ) / c n) mono hN
  have e1 := per 0
  have e2 := perd 0
  rw [zero_add] at e1 e2
  simp only [e1, e2] at this
  exact lt_irrefl _ this

/-- the next corner at the same vertex -/
def Mesh.turn (m : Mesh) (i : Nat) : Nat := pv (m.e (pv i))

/-- an inner vertex is on no outer edge -/
theorem Sound.closed (g : Sound m) {i} (hi : IsE m.size i) (h4 : 4 ≤ m.p i) : m.e (pv i) ≠ 0 := by
  intro e
  have := g.rim.mem (pv i) ⟨hi.pv, e⟩
  unfold Mesh.ends at this
  rw [hi.nx_pv] at this
  simp only [sides, List.mem_cons, Prod.mk.injEq, List.not_mem_nil, or_false] at this
  omega

theorem Sound.turn_spec (g : Sound m) {i} (hi : IsE m.size i) (h4 : 4 ≤ m.p i) :
    IsE m.size (m.turn i) ∧ m.p (m.turn i) = m.p i ∧ m.p (pv (m.turn i)) = m.p (nx i) ∧ nx (m.e (nx (m.turn i))) = i ∧
      m.turn i / 4 = m.e (pv i) / 4 := by
  obtain ⟨t1, t2, -, t4, t5⟩ := g.inv.tw _ hi.pv (g.closed hi h4)
  refine ⟨t1.pv, ?_, ?_, ?_, t1.pv_div⟩
  · unfold Mesh.turn; rw [t5, hi.nx_pv]
  · unfold Mesh.turn; rw [t1.pv_pv, t4, hi.pv_pv]
  · unfold Mesh.turn; rw [t1.nx_pv, t2, hi.nx_pv]

/-- the corner `i` looks towards `q` -/
def Mesh.Faces (m : Mesh) (px py : Int) (q : V2) (i : Nat) : Prop :=
  (m.x (m.p (nx i)) - px) * q.y - (m.y (m.p (nx i)) - py) * q.x < 0 ∧ 0 ≤ (m.x (m.p (pv i)) - px) * q.y - (m.y (m.p (pv i)) - py) * q.x

theorem Sound.turns (g : Sound m) {i} (hi : IsE m.size i) (h4 : 4 ≤ m.p i) (n : Nat) :
    IsE m.size (m.turn^[n] i) ∧ m.p (m.turn^[n] i) = m.p i := by
  induction n with
  | zero => exact ⟨hi, rfl⟩
  | succ n ih =>
    rw [Function.iterate_succ_apply']
    have := g.turn_spec ih.1 (by rw [ih.2]; exact h4)
    exact ⟨this.1, this.2.1.trans ih.2⟩

/-- turning comes back -/
theorem Sound.back (g : Sound m) {i} (hi : IsE m.size i) (h4 : 4 ≤ m.p i) : ∃ N, 0 < N ∧ m.turn^[N] i = i := by
  let S := {j : Nat // j ∈ m.es ∧ m.p j = m.p i}
  have : Finite S := Finite.of_injective (β := m.es) (fun s => ⟨s.1, s.2.1⟩) (by
    intro a b h; simp only [Subtype.mk.injEq] at h; exact Subtype.ext h)
  let f : S → S := fun s => ⟨m.turn s.1, by
    have := g.turn_spec (mem_es.1 s.2.1) (by rw [s.2.2]; exact h4)
    exact ⟨mem_es.2 this.1, this.2.1.trans s.2.2⟩⟩
  have inj : Function.Injective f := by
    intro a b h
    have ha := g.turn_spec (mem_es.1 a.2.1) (by rw [a.2.2]; exact h4)
    have hb := g.turn_spec (mem_es.1 b.2.1) (by rw [b.2.2]; exact h4)
    have e : m.turn a.1 = m.turn b.1 := congrArg Subtype.val h
    apply Subtype.ext
    rw [← ha.2.2.2.1, ← hb.2.2.2.1, e]
  let s0 : S := ⟨i, mem_es.2 hi, rfl⟩
  obtain ⟨N, hN, hp⟩ := inj.mem_periodicPts s0
  refine ⟨N, hN, ?_⟩
  have it : ∀ n, (f^[n] s0).1 = m.turn^[n] i := by
    intro n
    induction n with
    | zero => rfl
    | succ n ih => rw [Function.iterate_succ_apply', Function.iterate_succ_apply', ← ih]
  rw [← it, show f^[N] s0 = s0 from hp]

/-- turning around an inner vertex comes to a corner that looks towards the other end -/
theorem Sound.faces (g : Sound m) {i} (hi : IsE m.size i) (h4 : 4 ≤ m.p i) (q : V2) (hq : q ≠ ⟨0, 0⟩) :
    ∃ n, m.Faces (m.x (m.p i)) (m.y (m.p i)) q (m.turn^[n] i) := by
  obtain ⟨N, hN, hb⟩ := g.back hi h4
  have per : ∀ n, m.turn^[n + N] i = m.turn^[n] i := fun n => by rw [Function.iterate_add_apply, hb]
  obtain ⟨n, h⟩ := pass_around (fun n => m.x (m.p (nx (m.turn^[n] i))) - m.x (m.p i)) (fun n => m.y (m.p (nx (m.turn^[n] i))) - m.y (m.p i)) N hN
    (fun n => by rw [per]) (fun n => by rw [per]) (fun n => by
      have t := g.turns hi h4 n
      have s := g.turn_spec t.1 (by rw [t.2]; exact h4)
      have cw := g.inv.cw _ s.1
      rw [s.2.1, s.2.2.1, t.2] at cw
      rw [Function.iterate_succ_apply']
      unfold Mesh.cr at cw
      linarith) q.x q.y
  rcases h with h | h
  · refine ⟨n + 1, h.1, ?_⟩
    have t := g.turns hi h4 n
    have s := g.turn_spec t.1 (by rw [t.2]; exact h4)
    rw [Function.iterate_succ_apply', s.2.2.1]
    exact h.2
  · obtain ⟨h1, h2⟩ := h
    exact absurd (by cases q; simp_all) hq

/-! ### boxes and distances -/

/-- `b` is between `a` and `c` -/
def Between (a b c : Int) : Prop := (a ≤ b ∧ b ≤ c) ∨ (c ≤ b ∧ b ≤ a)

/-- steps along the axes from one point to another -/
def dist (px py qx qy : Int) : Nat := (qx - px).natAbs + (qy - py).natAbs

theorem dist_split {px py rx ry qx qy : Int} (hx : Between px rx qx) (hy : Between py ry qy) :
    dist px py rx ry + dist rx ry qx qy = dist px py qx qy := by
  unfold Between at hx hy; unfold dist; omega

theorem dist_pos {px py qx qy : Int} (h : ¬ (px = qx ∧ py = qy)) : 0 < dist px py qx qy := by
  unfold dist; omega

/-- the point is a corner of the square -/
def Corner (x y : Int) : Prop := (x = -32768 ∨ x = 32767) ∧ (y = -32768 ∨ y = 32767)

theorem box_corner {px py rx ry qx qy : Int} (hp : (-32768 < px ∧ px < 32767) ∧ (-32768 < py ∧ py < 32767)) (hqx : Is16 qx) (hqy : Is16 qy)
    (hx : Between px rx qx) (hy : Between py ry qy) (c : Corner rx ry) : rx = qx ∧ ry = qy := by
  unfold Between at hx hy; unfold Corner at c; unfold Is16 at hqx hqy; omega

theorem between_near {r q : Int} {t : ℚ} (h0 : 0 ≤ t) (h1 : t ≤ 1) (h : |(r : ℚ) - t * q| < 1) : Between 0 r q := by
  rw [abs_lt] at h
  rcases le_total 0 q with hq | hq
  · have hq' : (0 : ℚ) ≤ q := by exact_mod_cast hq
    left
    constructor
    · have : (-1 : ℚ) < r := by nlinarith [mul_nonneg h0 hq']
      have : (-1 : ℤ) < r := by exact_mod_cast this
      omega
    · have : (r : ℚ) < q + 1 := by nlinarith [mul_le_mul_of_nonneg_right h1 hq']
      have : r < q + 1 := by exact_mod_cast this
      omega
  · have hq' : (q : ℚ) ≤ 0 := by exact_mod_cast hq
    right
    constructor
    · have : (q : ℚ) - 1 < r := by nlinarith [mul_le_mul_of_nonpos_right h1 hq']
      have : q - 1 < r := by exact_mod_cast this
      omega
    · have : (r : ℚ) < 1 := by nlinarith [mul_nonpos_of_nonneg_of_nonpos h0 hq']
      have : r < 1 := by exact_mod_cast this
      omega

theorem between_part {A B z q : Int} (hA : A ≤ B) (hB : B < 0) (h : z * A = q * B) : Between 0 z q := by
  rcases le_total 0 q with hq | hq
  · left
    constructor
    · by_contra hz; push Not at hz; nlinarith
    · by_contra hz; push Not at hz; nlinarith
  · right
    constructor
    · by_contra hz; push Not at hz; nlinarith
    · by_contra hz; push Not at hz; nlinarith

theorem between_add {a b c p : Int} (h : Between a b c) : Between (p + a) (p + b) (p + c) := by
  unfold Between at *; omega

/-! ### corners of a vertex -/

/-- the slots of a vertex -/
def Mesh.slots (m : Mesh) (u : Nat) : Finset Nat := m.es.filter fun i => m.p i = u

theorem FlipSpec.slots {a b} (S : FlipSpec m m' a b) (h : Inv m) (P : Pair m a b) : (m.slots (m.p a)).card < (m'.slots (m.p a)).card := by
  have hes : m'.es = m.es := by unfold Mesh.es; rw [S.size]
  apply Finset.card_lt_card
  rw [Finset.ssubset_iff_of_subset]
  · refine ⟨nx b, ?_, ?_⟩
    · unfold Mesh.slots
      rw [Finset.mem_filter, hes]
      exact ⟨mem_es.2 P.ib.nx, S.p2⟩
    · unfold Mesh.slots
      rw [Finset.mem_filter, P.n1]
      rintro ⟨-, e⟩
      exact h.ne2 P.ia e.symm
  · intro i hi
    unfold Mesh.slots at *
    rw [Finset.mem_filter] at *
    rw [hes]
    refine ⟨hi.1, ?_⟩
    rw [S.p3 i ?_ ?_, hi.2]
    · rintro rfl
      exact h.ne1 P.ia hi.2.symm
    · rintro rfl
      rw [P.n1] at hi
      exact h.ne2 P.ia hi.2.symm

/-! ### searches -/

/-- what the search has to do: find a face that contains the point when there is one -/
def Right (find : Finder) : Prop := ∀ m x y hint n, Sound m → find m x y hint = some n →
  (n = 0 ∧ ∀ i, IsE m.size i → ¬ m.InClosed x y i) ∨ (IsE m.size n ∧ m.InClosed x y n)

theorem Sound.own (g : Sound m) {i} (hi : IsE m.size i) : m.InClosed (m.x (m.p i)) (m.y (m.p i)) i := by
  have := g.inv.cw _ hi
  unfold Mesh.cr at this
  unfold Mesh.InClosed Mesh.crP
  refine ⟨by ring_nf; omega, by linarith, by ring_nf; omega⟩

theorem Right.vertex {find : Finder} (hf : Right find) (g : Sound m) {u x y hint n} (hu : Pos m u x y) (h : find m x y hint = some n) :
    IsE m.size n ∧ ∃ i, IsE m.size i ∧ i / 4 = n / 4 ∧ m.p i = u := by
  obtain ⟨h1, rfl, rfl⟩ := hu
  rcases hf m _ _ _ _ g h with ⟨-, e⟩ | ⟨hn, hc⟩
  · obtain ⟨i, hi, ei⟩ := g.cover u h1
    exact absurd (ei ▸ g.own hi) (e i hi)
  · refine ⟨hn, ?_⟩
    rcases g.corner_of hn h1 hc with e | e | e
    · exact ⟨n, hn, rfl, e.symm⟩
    · exact ⟨nx n, hn.nx, hn.nx_div, e.symm⟩
    · exact ⟨pv n, hn.pv, hn.pv_div, e.symm⟩

theorem constrainEdge_mono {k k' en m'} (hk : k ≤ k') (h : constrainEdge k m en = some m') : constrainEdge k' m en = some m' := by
  unfold constrainEdge at h ⊢
  split at h
  · rename_i he
    rw [if_pos he]
    simp only [Option.bind_eq_bind, Option.bind_eq_some_iff] at h ⊢
    obtain ⟨m1, e1, m2, e2, m3, e3, e4⟩ := h
    exact ⟨m1, flip_mono' hk e1, m2, flip_mono' hk e2, m3, flip_mono' hk e3, flip_mono' hk e4⟩
  · simp at h

open Classical in
/-- whether the point is no vertex yet -/
noncomputable def absent (m : Mesh) (x y : Int) : Nat := if HasV m x y then 0 else 1

theorem Steps.absent (s : Steps m m') (x y : Int) : absent m' x y ≤ absent m x y := by
  unfold Cdt.absent
  split
  · split <;> omega
  · rename_i h
    rw [if_neg fun h' => h (h'.steps s)]

theorem absent_pos {u x y} (h : Pos m u x y) : absent m x y = 0 := by
  unfold Cdt.absent; rw [if_pos ⟨u, h⟩]

theorem insertAt_absent (g : Sound m) {limit k n r} (hr : insertAt limit k m px py n = some (m', r)) :
    m'.size + absent m' px py ≤ m.size + absent m px py := by
  have A := insertAt_spec g.inv hr
  have new : m'.size = m.size + 1 → m'.x m.size = px → m'.y m.size = py → m'.size + absent m' px py ≤ m.size + absent m px py := by
    intro h1 h2 h3
    have p' : Pos m' m.size px py := ⟨by omega, h2, h3⟩
    rw [absent_pos p']
    have : ¬ HasV m px py := by
      rintro ⟨v, hv⟩
      have := (A.steps.sound g).same (A.steps.pos hv) p'
      have := hv.1
      omega
    unfold Cdt.absent; rw [if_neg this]; omega
  cases insertAt_part g.inv hr with
  | out hn => exact le_refl _
  | vert hi hx hy h0 => exact le_refl _
  | rim hi hf he on h1 h2 => exact le_refl _
  | full hi hl hin hv => exact le_refl _
  | face hl hu hu4 hx hy h0 h1 h2 S F =>
    have c := F.coords
    exact new (by rw [c.1, S.size]) (by rw [c.2.1, S.xn, i16_eq hx]) (by rw [c.2.2, S.yn, i16_eq hy])
  | edge hl E hx hy S F hi =>
    have c := F.coords
    exact new (by rw [c.1, S.size]) (by rw [c.2.1, S.xn, i16_eq hx]) (by rw [c.2.2, S.yn, i16_eq hy])

end CE.Cdt
