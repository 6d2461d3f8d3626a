import Verif.Proof.CdtSteps
import Mathlib.Order.Interval.Finset.Nat
import Mathlib.Data.Finset.Card
/-! Painting. -/
namespace CE.Cdt

variable {m m' m'' : Mesh} {info : Nat}

/-- a face in use -/
def IsF (s f : Nat) : Prop := 6 ≤ f ∧ f < 2 * s

theorem IsF.edges {s f : Nat} (h : IsF s f) : IsE s (4 * f) ∧ IsE s (4 * f + 1) ∧ IsE s (4 * f + 2) := by
  unfold IsF IsE at *; omega
theorem IsE.isF {s i : Nat} (h : IsE s i) : IsF s (i / 4) := by unfold IsF IsE at *; omega

/-- only the painting differs, and only by painting with `info` -/
structure Paint (info : Nat) (m m' : Mesh) : Prop where
  same : m' = { m with fi := m'.fi }
  fi : ∀ g, m'.fi g = m.fi g ∨ m'.fi g = info

theorem Paint.refl (m : Mesh) : Paint info m m := ⟨rfl, fun _ => Or.inl rfl⟩
theorem Paint.trans (h : Paint info m m') (h' : Paint info m' m'') : Paint info m m'' := by
  refine ⟨by rw [h'.same, h.same], fun g => ?_⟩
  rcases h'.fi g with e | e
  · rw [e]; exact h.fi g
  · exact Or.inr e
theorem Paint.c (h : Paint info m m') : m'.c = m.c := by rw [h.same]
theorem Paint.e (h : Paint info m m') : m'.e = m.e := by rw [h.same]
theorem Paint.size (h : Paint info m m') : m'.size = m.size := by rw [h.same]
theorem Paint.mono (h : Paint info m m') {g} (hg : m.fi g = info) : m'.fi g = info := by
  rcases h.fi g with e | e
  · rw [e, hg]
  · exact e
theorem Paint.inv (h : Paint info m m') (hi : Inv m) : Inv m' := by
  rw [h.same]; exact ⟨hi.sz, hi.rng, hi.low, hi.pl, hi.cl, hi.bd, hi.tw, hi.cw⟩
theorem paint_set (m : Mesh) (f : Nat) : Paint info m (m.setFi f info) := by
  refine ⟨rfl, fun g => ?_⟩
  show upd m.fi f info g = _ ∨ upd m.fi f info g = _
  by_cases e : g = f
  · right; rw [upd_eq e]
  · left; rw [upd_ne e]

/-- all the neighbours are painted -/
def Done (info : Nat) (m : Mesh) (f : Nat) : Prop := ∀ j, j / 4 = f → j % 4 ≠ 3 → m.c j = 0 → m.fi (m.e j / 4) = info

theorem Paint.done (h : Paint info m m') {f} (hd : Done info m f) : Done info m' f := by
  intro j h1 h2 h3
  rw [h.c] at h3; rw [h.e]; exact h.mono (hd j h1 h2 h3)

/-- number of faces not painted -/
def Mesh.left (info : Nat) (m : Mesh) : Nat := ((Finset.Ico 6 (2 * m.size)).filter fun f => m.fi f ≠ info).card

theorem Paint.left (h : Paint info m m') : m'.left info ≤ m.left info := by
  unfold Mesh.left
  rw [h.size]
  apply Finset.card_le_card
  intro f hf
  rw [Finset.mem_filter] at hf ⊢
  exact ⟨hf.1, fun e => hf.2 (h.mono e)⟩

theorem left_set (m : Mesh) {f} (hf : IsF m.size f) (hn : m.fi f ≠ info) : (m.setFi f info).left info + 1 = m.left info := by
  unfold Mesh.left
  have hm : f ∈ (Finset.Ico 6 (2 * m.size)).filter fun f => m.fi f ≠ info := by
    rw [Finset.mem_filter, Finset.mem_Ico]; exact ⟨hf, hn⟩
  rw [← Finset.card_erase_add_one hm]
  congr 2
  ext g
  rw [Finset.mem_erase, Finset.mem_filter, Finset.mem_filter]
  show _ ∧ upd m.fi f info g ≠ info ↔ _
  by_cases e : g = f
  · rw [upd_eq e]; simp [e]
  · rw [upd_ne e]; tauto

/-- a legal stack -/
def Stack (s : Nat) (st : List Nat) : Prop := ∀ g ∈ st, IsF s g

structure Push (info : Nat) (m : Mesh) (st : List Nat) (m' : Mesh) (st' : List Nat) : Prop where
  paint : Paint info m m'
  stk : Stack m.size st → Stack m.size st'
  sub : ∀ g ∈ st, g ∈ st'
  new : ∀ g, m'.fi g ≠ m.fi g → g ∈ st'
  cnt : m'.left info + st'.length = m.left info + st.length
  from' : ∀ g ∈ st', g ∈ st ∨ m.fi g ≠ info

theorem Push.trans {st st' st''} (h : Push info m st m' st') (h' : Push info m' st' m'' st'') : Push info m st m'' st'' := by
  refine ⟨h.paint.trans h'.paint, fun s => ?_, fun g hg => h'.sub g (h.sub g hg), fun g hg => ?_, by have := h.cnt; have := h'.cnt; omega,
    fun g hg => ?_⟩
  · have := h'.stk (by rw [h.paint.size]; exact h.stk s); rw [h.paint.size] at this; exact this
  · by_cases e : m'.fi g = m.fi g
    · exact h'.new g (by rw [e]; exact hg)
    · exact h'.sub g (h.new g e)
  · rcases h'.from' g hg with h1 | h1
    · exact h.from' g h1
    · exact Or.inr fun e => h1 (h.paint.mono e)

theorem push1_spec (h : Inv m) {n} (hn : IsE m.size n) (st : List Nat) :
    Push info m st (push1 info n (m, st)).1 (push1 info n (m, st)).2 ∧ (push1 info n (m, st)).2.length ≤ st.length + 1 ∧
    (m.c n = 0 → (push1 info n (m, st)).1.fi (m.e n / 4) = info) := by
  unfold push1
  by_cases hc : m.c n = 0 ∧ m.fi (m.e n / 4) ≠ info
  · have t := (h.tw n hn (h.free hn hc.1)).1
    simp only [hc, ne_eq, not_false_eq_true, and_self, if_true]
    refine ⟨⟨paint_set _ _, fun s g hg => ?_, fun g hg => List.mem_cons_of_mem _ hg, fun g hg => ?_, ?_, fun g hg => ?_⟩,
      by simp, fun _ => upd_eq rfl⟩
    · rcases List.mem_cons.1 hg with e | e
      · rw [e]; exact t.isF
      · exact s g e
    · by_contra hng
      apply hg
      show upd m.fi _ info g = _
      rw [upd_ne]
      rintro rfl; exact hng (List.mem_cons_self ..)
    · have := left_set m t.isF hc.2
      simp only [List.length_cons]; omega
    · rcases List.mem_cons.1 hg with e | e
      · right; rw [e]; exact hc.2
      · exact Or.inl e
  · rw [if_neg hc]
    refine ⟨⟨.refl m, id, fun g hg => hg, fun g hg => absurd rfl hg, rfl, fun g hg => Or.inl hg⟩, by simp, fun h0 => ?_⟩
    by_contra h1
    exact hc ⟨h0, h1⟩

theorem pushes_spec (h : Inv m) {f} (hf : IsF m.size f) (st : List Nat) :
    Push info m st (pushes info f (m, st)).1 (pushes info f (m, st)).2 ∧ (pushes info f (m, st)).2.length ≤ st.length + 3 ∧
    Done info (pushes info f (m, st)).1 f := by
  obtain ⟨i0, i1, i2⟩ := hf.edges
  unfold pushes
  obtain ⟨A1, A2, A3⟩ := push1_spec (info := info) h i0 st
  generalize push1 info (4 * f) (m, st) = s1 at A1 A2 A3 ⊢
  obtain ⟨m1, st1⟩ := s1
  have h1 := A1.paint.inv h
  have z1 := A1.paint.size
  obtain ⟨B1, B2, B3⟩ := push1_spec (info := info) (n := 4 * f + 1) h1 (by rw [z1]; exact i1) st1
  generalize push1 info (4 * f + 1) (m1, st1) = s2 at B1 B2 B3 ⊢
  obtain ⟨m2, st2⟩ := s2
  have h2 := B1.paint.inv h1
  have z2 := B1.paint.size
  obtain ⟨C1, C2, C3⟩ := push1_spec (info := info) (n := 4 * f + 2) h2 (by rw [z2, z1]; exact i2) st2
  generalize push1 info (4 * f + 2) (m2, st2) = s3 at C1 C2 C3 ⊢
  obtain ⟨m3, st3⟩ := s3
  simp only at *
  refine ⟨(A1.trans B1).trans C1, by omega, ?_⟩
  intro j j1 j2 j3
  have P23 := C1.paint
  have P13 := B1.paint.trans P23
  have P03 := A1.paint.trans P13
  rw [P03.c] at j3
  have : j = 4 * f ∨ j = 4 * f + 1 ∨ j = 4 * f + 2 := by omega
  rcases this with e | e | e <;> rw [e] at j3 ⊢
  · rw [P03.e]; exact P13.mono (A3 j3)
  · rw [P13.e]; exact P23.mono (B3 (by rw [A1.paint.c]; exact j3))
  · rw [P23.e]; exact C3 (by rw [B1.paint.c, A1.paint.c]; exact j3)

/-- what painting from `f` with stack `st` achieves -/
structure Painted (info : Nat) (m : Mesh) (f : Nat) (st : List Nat) (m' : Mesh) : Prop where
  paint : Paint info m m'
  here : Done info m' f
  stack : ∀ g ∈ st, Done info m' g
  new : ∀ g, m'.fi g ≠ m.fi g → Done info m' g

/-- what emptying the stack achieves -/
structure Drained (info : Nat) (m : Mesh) (st : List Nat) (m' : Mesh) (st' : List Nat) : Prop where
  paint : Paint info m m'
  stack : ∀ g ∈ st, g ∈ st' ∨ Done info m' g
  new : ∀ g, m'.fi g ≠ m.fi g → Done info m' g
  stk : ∀ g ∈ st', g ∈ st
  len : st'.length ≤ 253
  ne : st ≠ [] → st' ≠ []
  le : st'.length ≤ st.length

theorem fill_total (info : Nat) : ∀ k,
    (∀ m f st, Inv m → IsF m.size f → Stack m.size st → st.length ≤ 253 → 2 * (m.left info + st.length) + 2 ≤ k →
      ∃ m', fillEx info k m f st = some m' ∧ Painted info m f st m') ∧
    (∀ m st, Inv m → Stack m.size st → 2 * (m.left info + st.length) + 1 ≤ k →
      ∃ m' st', drain info k m st = some (m', st') ∧ Drained info m st m' st') := by
  intro k
  induction k with
  | zero => exact ⟨fun m f st _ _ _ _ h => by omega, fun m st _ _ h => by omega⟩
  | succ k ih =>
    obtain ⟨ih1, ih2⟩ := ih
    constructor
    · intro m f st h hf hst hl hk
      rw [fillEx]
      obtain ⟨A1, A2, A3⟩ := pushes_spec (info := info) h hf st
      generalize pushes info f (m, st) = s1 at A1 A2 A3 ⊢
      obtain ⟨m1, st1⟩ := s1
      simp only at *
      have h1 := A1.paint.inv h
      have z1 := A1.paint.size
      have cnt := A1.cnt
      have hst1 : Stack m1.size st1 := by rw [z1]; exact A1.stk hst
      rw [if_neg (by omega)]
      by_cases hnil : st1 = []
      · rw [if_pos hnil]
        refine ⟨m1, rfl, A1.paint, A3, fun g hg => ?_, fun g hg => ?_⟩
        · have := A1.sub g hg; rw [hnil] at this; simp at this
        · have := A1.new g hg; rw [hnil] at this; simp at this
      · rw [if_neg hnil]
        obtain ⟨m2, st2, e2, D⟩ := ih2 m1 st1 h1 hst1 (by omega)
        simp only [Option.bind_eq_bind, e2, Option.bind_some]
        have h2 := D.paint.inv h1
        have z2 := D.paint.size
        have l2 := D.paint.left
        match st2, D with
        | [], D => exact absurd rfl (D.ne hnil)
        | g :: st2, D =>
          have hg : IsF m2.size g := by rw [z2]; exact hst1 g (D.stk g (by simp))
          have hs2 : Stack m2.size st2 := fun x hx => by rw [z2]; exact hst1 x (D.stk x (by simp [hx]))
          have hlen := D.len
          have hle := D.le
          simp only [List.length_cons] at hlen hle
          obtain ⟨m3, e3, P⟩ := ih1 m2 g st2 h2 hg hs2 (by omega) (by omega)
          have fin : ∀ x ∈ st1, Done info m3 x := by
            intro x hx
            rcases D.stack x hx with h | h
            · rcases List.mem_cons.1 h with e | e
              · rw [e]; exact P.here
              · exact P.stack x e
            · exact P.paint.done h
          refine ⟨m3, e3, (A1.paint.trans D.paint).trans P.paint, (D.paint.trans P.paint).done A3, fun x hx => fin x (A1.sub x hx),
            fun x hx => ?_⟩
          by_cases n1 : m1.fi x = m.fi x
          · by_cases n2 : m2.fi x = m1.fi x
            · exact P.new x (by rw [n2, n1]; exact hx)
            · exact P.paint.done (D.new x n2)
          · exact fin x (A1.new x n1)
    · intro m st h hst hk
      rw [drain.eq_def]; dsimp only
      by_cases hl : 253 < st.length
      · rw [if_pos hl]
        match st, hst, hl with
        | g :: st, hst, hl =>
          simp only [List.length_cons] at hl hk
          have hg : IsF m.size g := hst g (by simp)
          have hs : Stack m.size st := fun x hx => hst x (by simp [hx])
          obtain ⟨m1, e1, P⟩ := ih1 m g [] h hg (fun x hx => by simp at hx) (by simp) (by simp only [List.length_nil]; omega)
          have h1 := P.paint.inv h
          have l1 := P.paint.left
          obtain ⟨m2, st2, e2, D⟩ := ih2 m1 st h1 (by rw [P.paint.size]; exact hs) (by omega)
          refine ⟨m2, st2, ?_, P.paint.trans D.paint, fun x hx => ?_, fun x hx => ?_, fun x hx => by simp [D.stk x hx], D.len,
            fun _ => D.ne (by rintro rfl; simp at hl), by have := D.le; simp only [List.length_cons]; omega⟩
          · simp only [Option.bind_eq_bind, e1, Option.bind_some]; exact e2
          · rcases List.mem_cons.1 hx with e | e
            · rw [e]; exact Or.inr (D.paint.done P.here)
            · exact D.stack x e
          · by_cases n1 : m1.fi x = m.fi x
            · exact D.new x (by rw [n1]; exact hx)
            · exact D.paint.done (P.new x n1)
      · rw [if_neg hl]
        exact ⟨m, st, rfl, .refl m, fun g hg => Or.inl hg, fun g hg => absurd rfl hg, fun g hg => hg, by omega, id, le_refl _⟩

/-- more rounds do not change the result -/
theorem fill_mono (info : Nat) : ∀ k,
    (∀ m f st m', fillEx info k m f st = some m' → fillEx info (k + 1) m f st = some m') ∧
    (∀ m st r, drain info k m st = some r → drain info (k + 1) m st = some r) := by
  intro k
  induction k with
  | zero => exact ⟨fun m f st m' h => by simp [fillEx] at h, fun m st r h => by simp [drain] at h⟩
  | succ k ih =>
    obtain ⟨ih1, ih2⟩ := ih
    constructor
    · intro m f st m' h
      rw [fillEx] at h ⊢
      generalize pushes info f (m, st) = s1 at h ⊢
      obtain ⟨m1, st1⟩ := s1
      simp only at h ⊢
      split at h
      · simp at h
      rename_i h1
      rw [if_neg h1]
      split at h
      · rename_i h2; rw [if_pos h2]; exact h
      · rename_i h2
        rw [if_neg h2]
        simp only [Option.bind_eq_bind, Option.bind_eq_some_iff] at h ⊢
        obtain ⟨⟨m2, st2⟩, e2, h⟩ := h
        refine ⟨⟨m2, st2⟩, ih2 _ _ _ e2, ?_⟩
        cases st2 with
        | nil => exact h
        | cons g st2 => exact ih1 _ _ _ _ h
    · intro m st r h
      rw [drain.eq_def] at h ⊢; dsimp only at h ⊢
      split at h
      · rename_i h1
        rw [if_pos h1]
        cases st with
        | nil => exact h
        | cons g st =>
          simp only [Option.bind_eq_bind, Option.bind_eq_some_iff] at h ⊢
          obtain ⟨m1, e1, h⟩ := h
          exact ⟨m1, ih1 _ _ _ _ e1, ih2 _ _ _ h⟩
      · rename_i h1; rw [if_neg h1]; exact h

theorem fillEx_mono {info k k'} (hk : k ≤ k') {m f st m'} (h : fillEx info k m f st = some m') : fillEx info k' m f st = some m' := by
  induction hk with
  | refl => exact h
  | step _ ih => exact (fill_mono info _).1 _ _ _ _ ih

/-! ### nothing else is painted -/

/-- a set of faces that painting cannot leave -/
def Closed (info : Nat) (m : Mesh) (X : Nat → Prop) : Prop :=
  ∀ j, X (j / 4) → j % 4 ≠ 3 → m.c j = 0 → m.fi (m.e j / 4) ≠ info → X (m.e j / 4)

theorem Paint.closed (h : Paint info m m') {X} (hX : Closed info m X) : Closed info m' X := by
  intro j h1 h2 h3 h4
  rw [h.c] at h3; rw [h.e] at h4 ⊢
  exact hX j h1 h2 h3 fun e => h4 (h.mono e)

/-- state of painting inside `X` -/
structure Within (info : Nat) (X : Nat → Prop) (m m' : Mesh) (st : List Nat) : Prop where
  paint : Paint info m m'
  new : ∀ g, m'.fi g ≠ m.fi g → X g
  stk : ∀ g ∈ st, X g

theorem Within.trans {X st st'} (h : Within info X m m' st) (h' : Within info X m' m'' st') : Within info X m m'' st' := by
  refine ⟨h.paint.trans h'.paint, fun g hg => ?_, h'.stk⟩
  by_cases e : m'.fi g = m.fi g
  · exact h'.new g (by rw [e]; exact hg)
  · exact h.new g e

theorem push1_within {X} (hX : Closed info m X) {n} (hn : X (n / 4)) (h3 : n % 4 ≠ 3) {st : List Nat} (hs : ∀ g ∈ st, X g) :
    Within info X m (push1 info n (m, st)).1 (push1 info n (m, st)).2 := by
  unfold push1
  by_cases hc : m.c n = 0 ∧ m.fi (m.e n / 4) ≠ info
  · have hx := hX n hn h3 hc.1 hc.2
    simp only [hc, ne_eq, not_false_eq_true, and_self, if_true]
    refine ⟨paint_set _ _, fun g hg => ?_, fun g hg => ?_⟩
    · by_cases e : g = m.e n / 4
      · rw [e]; exact hx
      · exact absurd (upd_ne e) hg
    · rcases List.mem_cons.1 hg with e | e
      · rw [e]; exact hx
      · exact hs g e
  · rw [if_neg hc]; exact ⟨.refl m, fun g hg => absurd rfl hg, hs⟩

theorem pushes_within {X} (hX : Closed info m X) {f} (hf : X f) {st : List Nat} (hs : ∀ g ∈ st, X g) :
    Within info X m (pushes info f (m, st)).1 (pushes info f (m, st)).2 := by
  unfold pushes
  have A := push1_within (n := 4 * f) hX (by rw [show 4 * f / 4 = f by omega]; exact hf) (by omega) hs
  generalize push1 info (4 * f) (m, st) = s1 at A ⊢
  obtain ⟨m1, st1⟩ := s1
  have X1 := A.paint.closed hX
  have B := push1_within (n := 4 * f + 1) X1 (by rw [show (4 * f + 1) / 4 = f by omega]; exact hf) (by omega) A.stk
  generalize push1 info (4 * f + 1) (m1, st1) = s2 at B ⊢
  obtain ⟨m2, st2⟩ := s2
  have X2 := B.paint.closed X1
  exact (A.trans B).trans (push1_within (n := 4 * f + 2) X2 (by rw [show (4 * f + 2) / 4 = f by omega]; exact hf) (by omega) B.stk)

theorem fill_within (info : Nat) (X : Nat → Prop) : ∀ k,
    (∀ m f st m', Closed info m X → X f → (∀ g ∈ st, X g) → fillEx info k m f st = some m' → Within info X m m' []) ∧
    (∀ m st m' st', Closed info m X → (∀ g ∈ st, X g) → drain info k m st = some (m', st') → Within info X m m' st') := by
  intro k
  induction k with
  | zero => exact ⟨fun m f st m' _ _ _ h => by simp [fillEx] at h, fun m st m' st' _ _ h => by simp [drain] at h⟩
  | succ k ih =>
    obtain ⟨ih1, ih2⟩ := ih
    constructor
    · intro m f st m' hX hf hst h
      rw [fillEx] at h
      have A := pushes_within hX hf hst
      generalize pushes info f (m, st) = s1 at A h
      obtain ⟨m1, st1⟩ := s1
      have X1 := A.paint.closed hX
      simp only at h A
      split at h
      · simp at h
      split at h
      · simp only [Option.some.injEq] at h; rw [← h]; exact ⟨A.paint, A.new, by simp⟩
      · simp only [Option.bind_eq_bind, Option.bind_eq_some_iff] at h
        obtain ⟨⟨m2, st2⟩, e2, h⟩ := h
        have D := ih2 _ _ _ _ X1 A.stk e2
        cases st2 with
        | nil => simp at h
        | cons g st2 =>
          exact (A.trans D).trans (ih1 _ _ _ _ (D.paint.closed X1) (D.stk g (by simp)) (fun x hx => D.stk x (by simp [hx])) h)
    · intro m st m' st' hX hst h
      rw [drain.eq_def] at h; dsimp only at h
      split at h
      · cases st with
        | nil => simp at h
        | cons g st =>
          simp only [Option.bind_eq_bind, Option.bind_eq_some_iff] at h
          obtain ⟨m1, e1, h⟩ := h
          have D := ih1 _ _ _ _ hX (hst g (by simp)) (by simp) e1
          exact D.trans (ih2 _ _ _ _ (D.paint.closed hX) (fun x hx => hst x (by simp [hx])) h)
      · simp only [Option.some.injEq, Prod.mk.injEq] at h
        obtain ⟨rfl, rfl⟩ := h
        exact ⟨.refl m, fun g hg => absurd rfl hg, hst⟩

end CE.Cdt
