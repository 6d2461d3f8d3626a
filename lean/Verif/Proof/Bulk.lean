import Verif.Spec.Bulk
namespace CE.Bulk

variable {α : Type} (t : Traits α) (N : Nat)

/-- the live slots are exactly `[0, n)` -/
def LiveBelow (s : Slots α) (n : Nat) : Prop := ∀ i, s.live i = decide (i < n)

/-- `b` holds exactly `xs` -/
structure Rep (b : Bulk α) (xs : List α) : Prop where
  size : b.size = xs.length
  cap : xs.length ≤ N
  live : LiveBelow b.slots b.size
  val : ∀ i (h : i < xs.length), b.slots.val i = xs[i]

theorem ext_live (s : Slots α) (n : Nat) (h : s.live = fun i => decide (i < n)) : LiveBelow s n :=
  fun i => by rw [h]

theorem constructDefault_eq (hc : t.constructible = true) (s : Slots α) (n : Nat) (hs : LiveBelow s n)
    (hn : n < N) : ∃ s', constructDefault t N s n = some s' ∧ LiveBelow s' (n + 1) ∧
      (∀ i, i < n → s'.val i = s.val i) ∧ (t.trivialCtor = false → s'.val n = t.dflt) := by
  have hd : s.live n = false := by rw [hs n]; simp
  have hl : ∀ i, upd s.live n true i = decide (i < n + 1) := by
    intro i; unfold upd
    by_cases h : i = n
    · subst h; simp
    · rw [if_neg h, hs i]
      by_cases h' : i < n
      · simp [h', Nat.lt_succ_of_lt h']
      · simp [h', show ¬ i < n + 1 by omega]
  unfold constructDefault
  by_cases ht : t.trivialCtor = true
  · rw [if_pos ht, if_pos ⟨hn, hd⟩]
    exact ⟨_, rfl, hl, fun _ _ => rfl, fun h => by rw [h] at ht; cases ht⟩
  · rw [if_neg ht, if_pos hc]
    unfold construct
    rw [if_pos ⟨hn, hd⟩]
    refine ⟨_, rfl, hl, fun i hi => ?_, fun _ => ?_⟩
    · show upd s.val n t.dflt i = _
      unfold upd; rw [if_neg (by omega)]
    · show upd s.val n t.dflt n = _
      unfold upd; rw [if_pos rfl]

theorem constructAt_eq (hc : t.constructible = true) (left n : Nat) (s : Slots α)
    (hs : LiveBelow s n) (hn : n + left ≤ N) :
    ∃ s', constructAt t N left n s = some s' ∧ LiveBelow s' (n + left) ∧
      (∀ i, i < n → s'.val i = s.val i) ∧
      (t.trivialCtor = false → ∀ i, n ≤ i → i < n + left → s'.val i = t.dflt) := by
  induction left generalizing n s with
  | zero => exact ⟨s, rfl, hs, fun _ _ => rfl, fun _ i h1 h2 => by omega⟩
  | succ left ih =>
    obtain ⟨s1, e1, e2, e3, e4⟩ := constructDefault_eq t N hc s n hs (by omega)
    obtain ⟨s2, f1, f2, f3, f4⟩ := ih (n + 1) s1 e2 (by omega)
    refine ⟨s2, ?_, ?_, ?_, ?_⟩
    · simp only [constructAt, e1, Option.bind_eq_bind, Option.bind_some]; exact f1
    · rw [show n + (left + 1) = n + 1 + left by omega]; exact f2
    · intro i hi; rw [f3 i (by omega), e3 i hi]
    · intro ht i h1 h2
      by_cases h : i = n
      · subst h; rw [f3 _ (by omega)]; exact e4 ht
      · exact f4 ht i (by omega) (by omega)

theorem destroy_eq (s : Slots α) (n : Nat) (hs : LiveBelow s (n + 1)) (hn : n < N) :
    ∃ s', destroy N s n = some s' ∧ LiveBelow s' n ∧ s'.val = s.val := by
  unfold destroy
  rw [if_pos ⟨hn, by rw [hs n]; simp⟩]
  refine ⟨_, rfl, fun i => ?_, rfl⟩
  show upd s.live n false i = _
  unfold upd
  by_cases h : i = n
  · subst h; simp
  · rw [if_neg h, hs i]
    by_cases h' : i < n
    · simp [h', Nat.lt_succ_of_lt h']
    · simp [h', show ¬ i < n + 1 by omega]

theorem destroyAt_eq (head left : Nat) (s : Slots α) (hs : LiveBelow s (head + left))
    (hn : head + left ≤ N) :
    ∃ s', destroyAt N head left s = some s' ∧ LiveBelow s' head ∧ s'.val = s.val := by
  induction left generalizing s with
  | zero => exact ⟨s, rfl, hs, rfl⟩
  | succ left ih =>
    obtain ⟨s1, e1, e2, e3⟩ := destroy_eq N s (head + left) hs (by omega)
    obtain ⟨s2, f1, f2, f3⟩ := ih s1 e2 (by omega)
    refine ⟨s2, ?_, f2, by rw [f3, e3]⟩
    simp only [destroyAt, e1, Option.bind_eq_bind, Option.bind_some]; exact f1

theorem read_eq (s : Slots α) (n i : Nat) (hs : LiveBelow s n) (hn : n ≤ N) (hi : i < n) :
    read N s i = some (s.val i) := by
  unfold read; rw [if_pos ⟨by omega, by rw [hs i]; simpa using hi⟩]

theorem assign_eq (s : Slots α) (n i : Nat) (x : α) (hs : LiveBelow s n) (hn : n ≤ N) (hi : i < n) :
    ∃ s', assign t N s i x = some s' ∧ LiveBelow s' n ∧ s'.val = upd s.val i x := by
  unfold assign
  have hl : s.live i = true := by rw [hs i]; simpa using hi
  rw [if_pos ⟨by omega, .inl hl⟩]
  refine ⟨_, rfl, fun j => ?_, rfl⟩
  show upd s.live i true j = _
  unfold upd
  by_cases h : j = i
  · subst h; simp [hi]
  · rw [if_neg h, hs j]

theorem assignLoop_eq (src : Slots α) (ns : Nat) (hsrc : LiveBelow src ns) (hns : ns ≤ N)
    (left i : Nat) (s : Slots α) (n : Nat) (hs : LiveBelow s n) (hn : n ≤ N)
    (h1 : i + left ≤ ns) (h2 : i + left ≤ n) :
    ∃ s', assignLoop t N src left i s = some s' ∧ LiveBelow s' n ∧
      (∀ j, s'.val j = if i ≤ j ∧ j < i + left then src.val j else s.val j) := by
  induction left generalizing i s with
  | zero => exact ⟨s, rfl, hs, fun j => by rw [if_neg (by omega)]⟩
  | succ left ih =>
    obtain ⟨s1, e1, e2, e3⟩ := assign_eq t N s n i (src.val i) hs hn (by omega)
    obtain ⟨s2, f1, f2, f3⟩ := ih (i + 1) s1 e2 (by omega) (by omega)
    refine ⟨s2, ?_, f2, fun j => ?_⟩
    · simp only [assignLoop, read_eq N src ns i hsrc hns (by omega), e1, Option.bind_eq_bind,
        Option.bind_some]
      exact f1
    · rw [f3 j, e3]
      by_cases hj : j = i
      · subst hj; rw [if_neg (by omega), if_pos (by omega)]; simp [upd]
      · by_cases h : i + 1 ≤ j ∧ j < i + 1 + left
        · rw [if_pos h, if_pos (by omega)]
        · rw [if_neg h, if_neg (by omega)]; unfold upd; rw [if_neg hj]

theorem constructCopy_eq (hc : t.constructible = true ∨ t.implicitLife = true) (s : Slots α) (n : Nat)
    (x : α) (hs : LiveBelow s n) (hn : n < N) :
    ∃ s', constructCopy t N s n x = some s' ∧ LiveBelow s' (n + 1) ∧
      (∀ i, i < n → s'.val i = s.val i) ∧ s'.val n = x := by
  unfold constructCopy
  by_cases h : t.constructible = true
  · rw [if_pos h]
    obtain ⟨s1, e1, e2, e3, _⟩ := constructDefault_eq t N h s n hs hn
    obtain ⟨s2, f1, f2, f3⟩ := assign_eq t N s1 (n + 1) n x e2 (by omega) (by omega)
    refine ⟨s2, by rw [e1]; exact f1, f2, ?_, by rw [f3]; simp [upd]⟩
    intro i hi; rw [f3, ← e3 i hi]; unfold upd; rw [if_neg (by omega)]
  · rw [if_neg h]
    have hi := hc.resolve_left h
    unfold assign
    rw [if_pos ⟨hn, .inr hi⟩]
    refine ⟨_, rfl, fun i => ?_, fun i hi => ?_, ?_⟩
    · show upd s.live n true i = _
      unfold upd
      by_cases h : i = n
      · subst h; simp
      · rw [if_neg h, hs i]
        by_cases h' : i < n
        · simp [h', Nat.lt_succ_of_lt h']
        · simp [h', show ¬ i < n + 1 by omega]
    · show upd s.val n x i = _
      unfold upd; rw [if_neg (by omega)]
    · show upd s.val n x n = _
      unfold upd; rw [if_pos rfl]

theorem copyLoop_eq (hc : t.constructible = true ∨ t.implicitLife = true) (src : Slots α) (ns : Nat)
    (hsrc : LiveBelow src ns) (hns : ns ≤ N) (left i : Nat) (s : Slots α) (hs : LiveBelow s i)
    (h1 : i + left ≤ ns) :
    ∃ s', copyLoop t N src left i s = some s' ∧ LiveBelow s' (i + left) ∧
      (∀ j, j < i + left → s'.val j = if j < i then s.val j else src.val j) := by
  induction left generalizing i s with
  | zero => exact ⟨s, rfl, hs, fun j hj => by rw [if_pos (by omega)]⟩
  | succ left ih =>
    obtain ⟨s1, e1, e2, e3, e4⟩ := constructCopy_eq t N hc s i (src.val i) hs (by omega)
    obtain ⟨s2, f1, f2, f3⟩ := ih (i + 1) s1 e2 (by omega)
    refine ⟨s2, ?_, ?_, fun j hj => ?_⟩
    · simp only [copyLoop, read_eq N src ns i hsrc hns (by omega), e1, Option.bind_eq_bind,
        Option.bind_some]
      exact f1
    · rw [show i + (left + 1) = i + 1 + left by omega]; exact f2
    · rw [f3 j (by omega)]
      by_cases hj : j = i
      · subst hj; rw [if_pos (by omega), if_neg (by omega), e4]
      · by_cases h : j < i
        · rw [if_pos (by omega), if_pos h, e3 j h]
        · rw [if_neg (by omega), if_neg h]

theorem put_eq (b : Bulk α) (xs : List α) (h : Rep N b xs) (i : Nat) (x : α) (hi : i < xs.length) :
    ∃ c, put t N b i x = some c ∧ Rep N c (xs.set i x) := by
  have hs := h.size
  have hcap := h.cap
  obtain ⟨s, e1, e2, e3⟩ := assign_eq t N b.slots b.size i x h.live (by omega) (by omega)
  refine ⟨⟨b.size, s⟩, by simp [put, e1], ⟨by simpa using hs, by simpa using hcap, e2, fun j hj => ?_⟩⟩
  show s.val j = _
  rw [e3, List.getElem_set]
  rw [List.length_set] at hj
  unfold upd
  by_cases hij : i = j
  · rw [if_pos hij.symm, if_pos hij]
  · rw [if_neg (fun e => hij e.symm), if_neg hij]; exact h.val j hj

theorem readFrom_eq (s : Slots α) (n : Nat) (hs : LiveBelow s n) (hn : n ≤ N) (k i : Nat) (xs : List α)
    (hk : i + k = n) (hx : xs.length = k) (hv : ∀ j (h : j < xs.length), s.val (i + j) = xs[j]) :
    readFrom N s k i = some xs := by
  induction k generalizing i xs with
  | zero => rw [List.eq_nil_of_length_eq_zero hx]; rfl
  | succ k ih =>
    cases xs with
    | nil => simp at hx
    | cons x xs =>
      have h0 := hv 0 (by simp)
      have h1 := ih (i + 1) xs (by omega) (by simpa using hx) (fun j hj => by
        have := hv (j + 1) (by simpa using hj)
        rw [show i + 1 + j = i + (j + 1) by omega, this]; rfl)
      simp only [Nat.add_zero, List.getElem_cons_zero] at h0
      simp only [readFrom, read_eq N s n i hs hn (by omega), h0, h1, Option.bind_eq_bind, Option.bind_some]; rfl

theorem items_eq (b : Bulk α) (xs : List α) (h : Rep N b xs) : items N b = some xs := by
  have hs := h.size
  have hcap := h.cap
  exact readFrom_eq N b.slots b.size h.live (by omega) b.size 0 xs (by omega) hs.symm
    (fun j hj => by rw [Nat.zero_add]; exact h.val j hj)

theorem rep_of (b : Bulk α) (hl : LiveBelow b.slots b.size) (hN : b.size ≤ N) (xs : List α)
    (hs : b.size = xs.length) (hv : ∀ i (h : i < xs.length), b.slots.val i = xs[i]) : Rep N b xs :=
  ⟨hs, hs ▸ hN, hl, hv⟩

theorem new_rep (junk : Nat → α) : Rep N (new junk) [] :=
  ⟨rfl, Nat.zero_le _, fun i => by simp [new], fun i h => by simp at h⟩

theorem dtor_eq (b : Bulk α) (xs : List α) (h : Rep N b xs) :
    ∃ s, dtor N b = some s ∧ ∀ i, s.live i = false := by
  have hs := h.size
  have hcap := h.cap
  obtain ⟨s, e1, e2, e3⟩ := destroyAt_eq N 0 b.size b.slots (by rw [Nat.zero_add]; exact h.live)
    (by omega)
  exact ⟨s, e1, fun i => by rw [e2 i]; simp⟩

theorem clear_eq (b : Bulk α) (xs : List α) (h : Rep N b xs) :
    ∃ b', clear N b = some b' ∧ Rep N b' [] := by
  have hs := h.size
  have hcap := h.cap
  obtain ⟨s, e1, e2, e3⟩ := destroyAt_eq N 0 b.size b.slots (by rw [Nat.zero_add]; exact h.live)
    (by omega)
  exact ⟨⟨0, s⟩, by simp [clear, e1], ⟨rfl, Nat.zero_le _, e2, fun i h => by simp at h⟩⟩

theorem copy_eq (hc : t.constructible = true ∨ t.implicitLife = true) (junk : Nat → α) (b : Bulk α)
    (xs : List α) (h : Rep N b xs) : ∃ b', copy t N junk b = some b' ∧ Rep N b' xs := by
  have hs := h.size
  have hcap := h.cap
  obtain ⟨s, e1, e2, e3⟩ := copyLoop_eq t N hc b.slots b.size h.live (by omega) b.size 0
    (new junk).slots (new_rep N junk).live (by omega)
  rw [Nat.zero_add] at e2 e3
  have hle : b.size ≤ N := by omega
  refine ⟨⟨b.size, s⟩, by simp [copy, check, hle, e1], ⟨hs, hcap, e2, fun i hi => ?_⟩⟩
  show s.val i = _
  rw [e3 i (by omega), if_neg (by omega)]; exact h.val i hi

theorem assignBulk_eq (hc : t.constructible = true ∨ t.implicitLife = true) (a b : Bulk α)
    (xs ys : List α) (ha : Rep N a xs) (hb : Rep N b ys) :
    ∃ c, assignBulk t N a b = some c ∧ Rep N c ys := by
  have ha1 := ha.size; have ha2 := ha.cap
  have hb1 := hb.size; have hb2 := hb.cap
  have hla : a.size ≤ N := by omega
  have hlb : b.size ≤ N := by omega
  unfold assignBulk assignItems
  by_cases hlt : a.size < b.size
  · rw [if_pos hlt]
    obtain ⟨s1, e1, e2, e3⟩ := assignLoop_eq t N b.slots b.size hb.live (by omega) a.size 0 a.slots
      a.size ha.live (by omega) (by omega) (by omega)
    obtain ⟨s2, f1, f2, f3⟩ := copyLoop_eq t N hc b.slots b.size hb.live (by omega)
      (b.size - a.size) a.size s1 e2 (by omega)
    rw [show a.size + (b.size - a.size) = b.size by omega] at f2 f3
    refine ⟨⟨b.size, s2⟩, by simp [check, hla, hlb, e1, f1], ⟨hb1, hb2, f2, fun i hi => ?_⟩⟩
    show s2.val i = _
    rw [f3 i (by omega), ← hb.val i hi]
    split
    · rw [e3 i, if_pos (by omega)]
    · rfl
  · rw [if_neg hlt]
    obtain ⟨s1, e1, e2, e3⟩ := assignLoop_eq t N b.slots b.size hb.live (by omega) b.size 0 a.slots
      a.size ha.live (by omega) (by omega) (by omega)
    obtain ⟨s2, f1, f2, f3⟩ := destroyAt_eq N b.size (a.size - b.size) s1
      (by rw [show b.size + (a.size - b.size) = a.size by omega]; exact e2) (by omega)
    refine ⟨⟨b.size, s2⟩, by simp [check, hla, hlb, e1, f1], ⟨hb1, hb2, f2, fun i hi => ?_⟩⟩
    show s2.val i = _
    rw [f3, e3 i, if_pos (by omega)]; exact hb.val i hi

theorem shrink_rep (b : Bulk α) (xs : List α) (h : Rep N b xs) (n : Nat) (hn : n ≤ b.size)
    (s : Slots α) (hl : LiveBelow s n) (hv : s.val = b.slots.val) : Rep N ⟨n, s⟩ (xs.take n) := by
  have hs := h.size
  have hcap := h.cap
  refine ⟨by simp; omega, by simp; omega, hl, fun i hi => ?_⟩
  simp at hi
  show s.val i = _
  rw [hv, h.val i (by omega)]; simp

theorem grow_rep (b : Bulk α) (xs : List α) (h : Rep N b xs) (k : Nat) (hk : b.size + k ≤ N)
    (s : Slots α) (hl : LiveBelow s (b.size + k)) (hv : ∀ i, i < b.size → s.val i = b.slots.val i)
    (hd : t.trivialCtor = false → ∀ i, b.size ≤ i → i < b.size + k → s.val i = t.dflt) :
    ∃ ys, ys.length = k ∧ Grown t ys ∧ Rep N ⟨b.size + k, s⟩ (xs ++ ys) := by
  have hs := h.size
  refine ⟨(List.range k).map fun i => s.val (b.size + i), by simp, ?_, ?_⟩
  · intro ht y hy
    simp only [List.mem_map, List.mem_range] at hy
    obtain ⟨i, hi, rfl⟩ := hy
    exact hd ht _ (by omega) (by omega)
  · refine ⟨by simp; omega, by simp; omega, hl, fun i hi => ?_⟩
    show s.val i = _
    rw [List.getElem_append]
    split
    · next h' => rw [hv i (by omega), h.val i h']
    · next h' =>
      simp only [List.getElem_map, List.getElem_range]
      congr 1; omega

theorem append_eq (b : Bulk α) (xs : List α) (h : Rep N b xs) (x : α) (hx : b.size < N) :
    ∃ b', append N b x = some (true, b') ∧ Rep N b' (xs ++ [x]) := by
  have hs := h.size
  unfold append construct
  rw [if_pos hx, if_pos ⟨hx, by rw [h.live]; simp⟩]
  refine ⟨_, rfl, ⟨by simp [hs], by simp; omega, fun i => ?_, fun i hi => ?_⟩⟩
  · show upd b.slots.live b.size true i = decide (i < b.size + 1)
    unfold upd
    by_cases h' : i = b.size
    · subst h'; simp
    · rw [if_neg h', h.live i]
      by_cases h'' : i < b.size
      · simp [h'', Nat.lt_succ_of_lt h'']
      · simp [h'', show ¬ i < b.size + 1 by omega]
  · show upd b.slots.val b.size x i = _
    unfold upd
    simp at hi
    by_cases h' : i = b.size
    · rw [if_pos h']; simp [h', hs]
    · rw [if_neg h', h.val i (by omega), List.getElem_append_left (by omega)]

theorem moveAssign_eq (s : Slots α) (n i j : Nat) (hs : LiveBelow s n) (hn : n ≤ N) (hi : i < n)
    (hj : j < n) : ∃ s', moveAssign t N s i j = some s' ∧ LiveBelow s' n ∧
      s'.val = upd (upd s.val j (t.moved (s.val j))) i (s.val j) := by
  unfold moveAssign
  rw [read_eq N s n j hs hn hj]
  obtain ⟨s', e1, e2, e3⟩ := assign_eq t N { s with val := upd s.val j (t.moved (s.val j)) } n i
    (s.val j) hs hn hi
  exact ⟨s', by simp [e1], e2, e3⟩

theorem shiftLoop_eq (left i : Nat) (s : Slots α) (hs : LiveBelow s (i + left + 1))
    (hn : i + left + 1 ≤ N) :
    ∃ s', shiftLoop t N left i s = some s' ∧ LiveBelow s' (i + left + 1) ∧
      ∀ j, j < i + left → s'.val j = if j < i then s.val j else s.val (j + 1) := by
  induction left generalizing i s with
  | zero => exact ⟨s, rfl, hs, fun j hj => by rw [if_pos (by omega)]⟩
  | succ left ih =>
    obtain ⟨s1, e1, e2, e3⟩ := moveAssign_eq t N s (i + (left + 1) + 1) i (i + 1) hs hn (by omega)
      (by omega)
    obtain ⟨s2, f1, f2, f3⟩ := ih (i + 1) s1
      (by rw [show i + 1 + left + 1 = i + (left + 1) + 1 by omega]; exact e2) (by omega)
    refine ⟨s2, ?_, ?_, fun j hj => ?_⟩
    · simp only [shiftLoop, e1, Option.bind_eq_bind, Option.bind_some]; exact f1
    · rw [show i + (left + 1) + 1 = i + 1 + left + 1 by omega]; exact f2
    · rw [f3 j (by omega), e3]
      unfold upd
      by_cases h : j < i
      · rw [if_pos (by omega), if_pos h, if_neg (by omega), if_neg (by omega)]
      · rw [if_neg h]
        by_cases h' : j = i
        · subst h'; rw [if_pos (by omega), if_pos rfl]
        · rw [if_neg (by omega), if_neg (by omega), if_neg (by omega)]

theorem removeAt_eq (o : Bool) (b : Bulk α) (xs : List α) (h : Rep N b xs) (i : Nat)
    (hi : i < xs.length) :
    ∃ b', removeAt t N o b i = some (true, b') ∧
      Rep N b' (if o then xs.eraseIdx i else (xs.set i (xs[xs.length - 1])).dropLast) := by
  have hs := h.size
  have hcap := h.cap
  have hlive : LiveBelow b.slots (b.size - 1 + 1) := by
    rw [show b.size - 1 + 1 = b.size by omega]; exact h.live
  unfold removeAt
  rw [if_neg (by omega)]
  cases o with
  | true =>
    obtain ⟨s1, e1, e2, e3⟩ := shiftLoop_eq t N (b.size - 1 - i) i b.slots
      (by rw [show i + (b.size - 1 - i) + 1 = b.size by omega]; exact h.live) (by omega)
    rw [show i + (b.size - 1 - i) = b.size - 1 by omega] at e2 e3
    obtain ⟨s2, f1, f2, f3⟩ := destroy_eq N s1 (b.size - 1) e2 (by omega)
    refine ⟨⟨b.size - 1, s2⟩, by simp [e1, f1], ?_⟩
    rw [if_pos rfl]
    refine ⟨?_, ?_, f2, fun j hj => ?_⟩
    · simp only [List.length_eraseIdx, if_pos hi]; omega
    · simp only [List.length_eraseIdx, if_pos hi]; omega
    · simp only [List.length_eraseIdx, if_pos hi] at hj
      show s2.val j = _
      rw [f3, e3 j (by omega), List.getElem_eraseIdx]
      split
      · exact h.val j (by omega)
      · exact h.val (j + 1) (by omega)
  | false =>
    by_cases hl : i < b.size - 1
    · obtain ⟨s1, e1, e2, e3⟩ := moveAssign_eq t N b.slots (b.size - 1 + 1) i (b.size - 1) hlive
        (by omega) (by omega) (by omega)
      obtain ⟨s2, f1, f2, f3⟩ := destroy_eq N s1 (b.size - 1) e2 (by omega)
      refine ⟨⟨b.size - 1, s2⟩, by simp [hl, e1, f1], ?_⟩
      rw [if_neg (by simp)]
      refine ⟨by simp; omega, by simp; omega, f2, fun j hj => ?_⟩
      simp at hj
      show s2.val j = _
      rw [f3, e3]
      unfold upd
      simp only [List.getElem_dropLast, List.getElem_set]
      by_cases hj' : j = i
      · subst hj'; rw [if_pos rfl, if_pos rfl, ← h.val _ (by omega), hs]
      · rw [if_neg hj', if_neg (by omega), if_neg (by omega), h.val j (by omega)]
    · obtain ⟨s2, f1, f2, f3⟩ := destroy_eq N b.slots (b.size - 1) hlive (by omega)
      refine ⟨⟨b.size - 1, s2⟩, by simp [hl, f1], ?_⟩
      rw [if_neg (by simp)]
      refine ⟨by simp; omega, by simp; omega, f2, fun j hj => ?_⟩
      simp at hj
      show s2.val j = _
      rw [f3]
      simp only [List.getElem_dropLast, List.getElem_set]
      rw [if_neg (by omega), h.val j (by omega)]

/-- the variables hold the lists -/
def Related (σ : Store α) (τ : Lists α) : Prop :=
  ∀ k, match σ k, τ k with
    | none, none => True
    | some b, some xs => Rep N b xs
    | _, _ => False

theorem Related.upd {σ : Store α} {τ : Lists α} (h : Related N σ τ) (k : Nat) (b : Bulk α)
    (xs : List α) (hb : Rep N b xs) : Related N (upd σ k (some b)) (upd τ k (some xs)) := by
  intro j
  unfold CE.upd
  by_cases hj : j = k
  · simp [hj, hb]
  · simp only [if_neg hj]; exact h j

theorem Related.upd_none {σ : Store α} {τ : Lists α} (h : Related N σ τ) (k : Nat) :
    Related N (CE.upd σ k none) (CE.upd τ k none) := by
  intro j
  unfold CE.upd
  by_cases hj : j = k
  · simp [hj]
  · simp only [if_neg hj]; exact h j

theorem Related.get {σ : Store α} {τ : Lists α} (h : Related N σ τ) (k : Nat) (xs : List α)
    (hk : τ k = some xs) : ∃ b, σ k = some b ∧ Rep N b xs := by
  have := h k
  rw [hk] at this
  cases hb : σ k with
  | none => rw [hb] at this; exact this.elim
  | some b => rw [hb] at this; exact ⟨b, rfl, this⟩

theorem Related.none {σ : Store α} {τ : Lists α} (h : Related N σ τ) (k : Nat) (hk : τ k = none) :
    σ k = none := by
  have := h k
  rw [hk] at this
  cases hb : σ k with
  | none => rfl
  | some b => rw [hb] at this; exact this.elim

theorem upd_self {β : Type} (f : Nat → β) (k : Nat) (x : β) (h : f k = x) : CE.upd f k x = f := by
  funext j; unfold CE.upd; split
  · next h' => subst h'; exact h.symm
  · rfl

/-- number of elements of each variable -/
def shape (τ : Lists α) : Nat → Option Nat := fun k => (τ k).map List.length

theorem shape_upd (τ : Lists α) (k : Nat) (xs : List α) :
    shape (upd τ k (some xs)) = upd (shape τ) k (some xs.length) := by
  funext j; unfold shape CE.upd; split <;> rfl

theorem shape_upd_none (τ : Lists α) (k : Nat) : shape (upd τ k none) = upd (shape τ) k none := by
  funext j; unfold shape CE.upd; split <;> rfl

theorem shape_some {τ : Lists α} {k c : Nat} (h : shape τ k = some c) :
    ∃ xs, τ k = some xs ∧ xs.length = c := by
  unfold shape at h
  cases hx : τ k with
  | none => rw [hx] at h; cases h
  | some xs => rw [hx] at h; simp at h; exact ⟨xs, rfl, h⟩

theorem shape_isSome {τ : Lists α} {k : Nat} (h : (shape τ k).isSome) : ∃ xs, τ k = some xs := by
  unfold shape at h
  cases hx : τ k with
  | none => rw [hx] at h; cases h
  | some xs => exact ⟨xs, rfl⟩

theorem shape_none {τ : Lists α} {k : Nat} (h : shape τ k = none) : τ k = none := by
  unfold shape at h
  cases hx : τ k with
  | none => rfl
  | some xs => rw [hx] at h; cases h

/-- one call -/
theorem step_sim (hc : t.constructible = true) (σ : Store α) (τ : Lists α) (h : Related N σ τ)
    (op : Op α) (ops : List (Op α)) (ha : admissible N (shape τ) (op :: ops)) :
    ∃ r σ' τ', step t N σ op = some (r, σ') ∧ SpecStep t N τ op r τ' ∧ Related N σ' τ' ∧
      admissible N (shape τ') ops := by
  cases op with
  | new k junk =>
    obtain ⟨h1, h2⟩ := ha
    have hk := shape_none h1
    refine ⟨_, _, _, ?_, .new k junk hk, h.upd N k _ _ (new_rep N junk), ?_⟩
    · simp only [step, h.none N k hk]; rfl
    · rw [shape_upd]; exact h2
  | drop k =>
    obtain ⟨h1, h2⟩ := ha
    obtain ⟨xs, hk⟩ := shape_isSome h1
    obtain ⟨b, hb, hr⟩ := h.get N k xs hk
    obtain ⟨s, e1, _⟩ := dtor_eq N b xs hr
    refine ⟨_, _, _, ?_, .drop k (by rw [hk]; rfl), h.upd_none N k, ?_⟩
    · simp only [step, hb, e1, Option.bind_eq_bind, Option.bind_some]; rfl
    · rw [shape_upd_none]; exact h2
  | copy k j junk =>
    obtain ⟨h1, h2, h3⟩ := ha
    have hk := shape_none h1
    obtain ⟨xs, hj⟩ := shape_isSome h2
    obtain ⟨b, hb, hr⟩ := h.get N j xs hj
    obtain ⟨c, e1, e2⟩ := copy_eq t N (.inl hc) junk b xs hr
    refine ⟨_, _, _, ?_, .copy k j junk xs hk hj, h.upd N k c xs e2, ?_⟩
    · simp only [step, hb, h.none N k hk, e1, Option.bind_eq_bind, Option.bind_some]; rfl
    · rw [shape_upd]
      have : shape τ j = some xs.length := by simp [shape, hj]
      rw [this] at h3; exact h3
  | assign k j =>
    obtain ⟨h1, h2, h3⟩ := ha
    obtain ⟨ys, hk⟩ := shape_isSome h1
    obtain ⟨xs, hj⟩ := shape_isSome h2
    obtain ⟨a, ha', hra⟩ := h.get N k ys hk
    obtain ⟨b, hb, hr⟩ := h.get N j xs hj
    obtain ⟨c, e1, e2⟩ := assignBulk_eq t N (.inl hc) a b ys xs hra hr
    refine ⟨_, _, _, ?_, .assign k j xs (by rw [hk]; rfl) hj, h.upd N k c xs e2, ?_⟩
    · simp only [step, hb, ha', e1, Option.bind_eq_bind, Option.bind_some]; rfl
    · rw [shape_upd]
      have : shape τ j = some xs.length := by simp [shape, hj]
      rw [this] at h3; exact h3
  | clear k =>
    obtain ⟨h1, h2⟩ := ha
    obtain ⟨xs, hk⟩ := shape_isSome h1
    obtain ⟨b, hb, hr⟩ := h.get N k xs hk
    obtain ⟨c, e1, e2⟩ := clear_eq N b xs hr
    refine ⟨_, _, _, ?_, .clear k (by rw [hk]; rfl), h.upd N k c [] e2, ?_⟩
    · simp only [step, hb, e1, Option.bind_eq_bind, Option.bind_some]; rfl
    · rw [shape_upd]; exact h2
  | resize k n =>
    obtain ⟨c, h1, h2⟩ := ha
    obtain ⟨xs, hk, rfl⟩ := shape_some h1
    obtain ⟨b, hb, hr⟩ := h.get N k xs hk
    have hs := hr.size
    by_cases hn : n > N
    · refine ⟨_, _, _, ?_, .resizeFail k n xs hk hn, h, ?_⟩
      · simp only [step, hb, resize, if_pos hn, Option.bind_eq_bind, Option.bind_some]
        rw [upd_self σ k _ hb]; rfl
      · rw [if_neg (by omega), upd_self _ _ _ h1] at h2; exact h2
    · rw [if_pos (by omega)] at h2
      by_cases hle : n ≤ b.size
      · have hcap := hr.cap
        obtain ⟨s, e1, e2, e3⟩ := destroyAt_eq N n (b.size - n) b.slots
          (by rw [show n + (b.size - n) = b.size by omega]; exact hr.live) (by omega)
        refine ⟨_, _, _, ?_, .shrink k n xs hk (by omega) (by omega),
          h.upd N k _ _ (shrink_rep N b xs hr n hle s e2 e3), ?_⟩
        · simp only [step, hb, resize, if_neg hn, if_pos hle, e1, Option.bind_eq_bind,
            Option.bind_some]; rfl
        · rw [shape_upd, List.length_take, Nat.min_eq_left (by omega)]; exact h2
      · obtain ⟨s, e1, e2, e3, e4⟩ := constructAt_eq t N hc (n - b.size) b.size b.slots hr.live
          (by omega)
        obtain ⟨ys, f1, f2, f3⟩ := grow_rep t N b xs hr (n - b.size) (by omega) s e2 e3 e4
        rw [show b.size + (n - b.size) = n by omega] at f3
        refine ⟨_, _, _, ?_, .grow k n xs ys hk (by omega) (by omega) f2, h.upd N k _ _ f3, ?_⟩
        · simp only [step, hb, resize, if_neg hn, if_neg hle, e1, Option.bind_eq_bind,
            Option.bind_some]; rfl
        · rw [shape_upd, List.length_append, show xs.length + ys.length = n by omega]; exact h2
  | appendN k n =>
    obtain ⟨c, h1, h2⟩ := ha
    obtain ⟨xs, hk, rfl⟩ := shape_some h1
    obtain ⟨b, hb, hr⟩ := h.get N k xs hk
    have hs := hr.size
    have hcap := hr.cap
    by_cases hn : N - b.size < n
    · refine ⟨_, _, _, ?_, .appendNFail k n xs hk (by omega), h, ?_⟩
      · simp only [step, hb, appendN, if_pos hn, Option.bind_eq_bind, Option.bind_some]
        rw [upd_self σ k _ hb]; rfl
      · rw [if_neg (by omega), upd_self _ _ _ h1] at h2; exact h2
    · rw [if_pos (by omega)] at h2
      obtain ⟨s, e1, e2, e3, e4⟩ := constructAt_eq t N hc n b.size b.slots hr.live (by omega)
      obtain ⟨ys, f1, f2, f3⟩ := grow_rep t N b xs hr n (by omega) s e2 e3 e4
      refine ⟨_, _, _, ?_, .appendN k n xs ys hk (by omega) f1 f2, h.upd N k _ _ f3, ?_⟩
      · simp only [step, hb, appendN, if_neg hn, e1, Option.bind_eq_bind, Option.bind_some]; rfl
      · rw [shape_upd, List.length_append, f1]; exact h2
  | append k x =>
    obtain ⟨c, h1, h2⟩ := ha
    obtain ⟨xs, hk, rfl⟩ := shape_some h1
    obtain ⟨b, hb, hr⟩ := h.get N k xs hk
    have hs := hr.size
    have hcap := hr.cap
    by_cases hn : b.size < N
    · obtain ⟨c, e1, e2⟩ := append_eq N b xs hr x hn
      rw [if_pos (by omega)] at h2
      refine ⟨_, _, _, ?_, .append k x xs hk (by omega), h.upd N k _ _ e2, ?_⟩
      · simp only [step, hb, e1, Option.bind_eq_bind, Option.bind_some]; rfl
      · rw [shape_upd, List.length_append]; exact h2
    · refine ⟨_, _, _, ?_, .appendFail k x xs hk (by omega), h, ?_⟩
      · simp only [step, hb, append, if_neg hn, Option.bind_eq_bind, Option.bind_some]
        rw [upd_self σ k _ hb]; rfl
      · rw [if_neg (by omega), upd_self _ _ _ h1] at h2; exact h2
  | remove o k i =>
    obtain ⟨c, h1, h2⟩ := ha
    obtain ⟨xs, hk, rfl⟩ := shape_some h1
    obtain ⟨b, hb, hr⟩ := h.get N k xs hk
    have hs := hr.size
    by_cases hi : i < xs.length
    · obtain ⟨c, e1, e2⟩ := removeAt_eq t N o b xs hr i hi
      rw [if_pos hi] at h2
      cases o with
      | true =>
        rw [if_pos rfl] at e2
        refine ⟨_, _, _, ?_, .removeOrdered k i xs hk hi, h.upd N k _ _ e2, ?_⟩
        · simp only [step, hb, e1, Option.bind_eq_bind, Option.bind_some]; rfl
        · rw [shape_upd, List.length_eraseIdx, if_pos hi]; exact h2
      | false =>
        rw [if_neg (by simp)] at e2
        refine ⟨_, _, _, ?_, .removeUnordered k i xs hk hi, h.upd N k _ _ e2, ?_⟩
        · simp only [step, hb, e1, Option.bind_eq_bind, Option.bind_some]; rfl
        · rw [shape_upd, List.length_dropLast, List.length_set]; exact h2
    · refine ⟨_, _, _, ?_, .removeFail o k i xs hk (by omega), h, ?_⟩
      · simp only [step, hb, removeAt, if_pos (show i ≥ b.size by omega), Option.bind_eq_bind,
          Option.bind_some]
        rw [upd_self σ k _ hb]; rfl
      · rw [if_neg (by omega), upd_self _ _ _ h1] at h2; exact h2
  | get k i =>
    obtain ⟨⟨c, h1, hi⟩, h2⟩ := ha
    obtain ⟨xs, hk, rfl⟩ := shape_some h1
    obtain ⟨b, hb, hr⟩ := h.get N k xs hk
    have hs := hr.size
    have hcap := hr.cap
    refine ⟨_, _, _, ?_, .get k i xs hk hi, h, h2⟩
    simp only [step, hb, get, read_eq N b.slots b.size i hr.live (by omega) (by omega),
      hr.val i hi, Option.bind_eq_bind, Option.bind_some]; rfl
  | put k i x =>
    obtain ⟨⟨c, h1, hi⟩, h2⟩ := ha
    obtain ⟨xs, hk, rfl⟩ := shape_some h1
    obtain ⟨b, hb, hr⟩ := h.get N k xs hk
    obtain ⟨c, e1, e2⟩ := put_eq t N b xs hr i x hi
    refine ⟨_, _, _, ?_, .put k i x xs hk hi, h.upd N k _ _ e2, ?_⟩
    · simp only [step, hb, e1, Option.bind_eq_bind, Option.bind_some]; rfl
    · rw [shape_upd, List.length_set, upd_self _ _ _ h1]; exact h2
  | items k =>
    obtain ⟨h1, h2⟩ := ha
    obtain ⟨xs, hk⟩ := shape_isSome h1
    obtain ⟨b, hb, hr⟩ := h.get N k xs hk
    refine ⟨_, _, _, ?_, .items k xs hk, h, h2⟩
    simp only [step, hb, items_eq N b xs hr, Option.bind_eq_bind, Option.bind_some]; rfl
  | back k =>
    obtain ⟨⟨c, h1, hi⟩, h2⟩ := ha
    obtain ⟨xs, hk, rfl⟩ := shape_some h1
    obtain ⟨b, hb, hr⟩ := h.get N k xs hk
    have hs := hr.size
    have hcap := hr.cap
    have hb' : back N b = some (xs[xs.length - 1]) := by
      unfold back
      rw [if_pos (show b.size > 0 by omega),
        read_eq N b.slots b.size (b.size - 1) hr.live (by omega) (by omega),
        hr.val (b.size - 1) (by omega)]
      congr 2; rw [hs]
    refine ⟨_, _, _, ?_, .back k xs hk (by intro h; simp [h] at hi), h, h2⟩
    simp only [step, hb, hb', Option.bind_eq_bind, Option.bind_some, List.getLast_eq_getElem]; rfl
  | room k =>
    obtain ⟨h1, h2⟩ := ha
    obtain ⟨xs, hk⟩ := shape_isSome h1
    obtain ⟨b, hb, hr⟩ := h.get N k xs hk
    have hs := hr.size
    have hcap := hr.cap
    refine ⟨_, _, _, ?_, .room k xs (N - b.size) hk (by omega), h, h2⟩
    simp only [step, hb, room, Option.bind_eq_bind, Option.bind_some]; rfl

theorem run_sim (hc : t.constructible = true) (ops : List (Op α)) (σ : Store α) (τ : Lists α)
    (h : Related N σ τ) (ha : admissible N (shape τ) ops) :
    ∃ rs σ' τ', run t N σ ops = some (rs, σ') ∧ SpecRun t N τ ops rs τ' ∧ Related N σ' τ' := by
  induction ops generalizing σ τ with
  | nil => exact ⟨[], σ, τ, rfl, .nil _, h⟩
  | cons op ops ih =>
    obtain ⟨r, σ1, τ1, e1, e2, e3, e4⟩ := step_sim t N hc σ τ h op ops ha
    obtain ⟨rs, σ2, τ2, f1, f2, f3⟩ := ih σ1 τ1 e3 e4
    exact ⟨r :: rs, σ2, τ2, by simp [run, e1, f1], .cons e2 f2, f3⟩

end CE.Bulk
