import Verif.Model.Names
import Verif.Spec.Names
import Mathlib.Data.List.Forall2
namespace CE.Names

/-- remove characters at the end -/
def rstrip (p : U8 → Bool) (s : List U8) : List U8 := (s.reverse.dropWhile p).reverse

theorem rstrip_nil (p : U8 → Bool) : rstrip p [] = [] := rfl

theorem rstrip_cons (p : U8 → Bool) (c : U8) (s : List U8) :
    rstrip p (c :: s) = if rstrip p s = [] then (if p c then [] else [c]) else c :: rstrip p s := by
  unfold rstrip
  rw [List.reverse_cons, List.dropWhile_append]
  by_cases h : s.reverse.dropWhile p = []
  · simp only [h, List.isEmpty_nil, if_true, List.reverse_nil]
    by_cases hc : p c <;> simp [hc]
  · have h' : (s.reverse.dropWhile p).isEmpty = false := by simpa [List.isEmpty_iff] using h
    simp [h', h]

theorem rstrip_prefix (p : U8 → Bool) (s : List U8) : rstrip p s <+: s := by
  unfold rstrip
  rw [← List.reverse_suffix, List.reverse_reverse]
  exact List.dropWhile_suffix _

theorem rstrip_length (p : U8 → Bool) (s : List U8) : (rstrip p s).length ≤ s.length :=
  (rstrip_prefix p s).length_le

/-- where the copy loop stops -/
def cut : List U8 → Int → U8 → Bool → List U8 × List U8
  | [], _, _, _ => ([], [])
  | c :: src, b, q, e =>
    match track src c b q e with
    | none => ([], c :: src)
    | some (b, q, e) => (c :: (cut src b q e).1, (cut src b q e).2)

theorem cut_append (src : List U8) (b : Int) (q : U8) (e : Bool) :
    (cut src b q e).1 ++ (cut src b q e).2 = src := by
  induction src generalizing b q e with
  | nil => rfl
  | cons c src ih =>
    unfold cut
    split
    · rfl
    · simp [ih]

/-- store a list -/
def storeAll (text : Nat → U8) (i : Nat) (t : List U8) : Nat → U8 :=
  fun j => if i ≤ j then t.getD (j - i) (text j) else text j

theorem storeAll_nil (text : Nat → U8) (i : Nat) : storeAll text i [] = text := by
  funext j; simp [storeAll]

theorem storeAll_cons (text : Nat → U8) (i : Nat) (c : U8) (t : List U8) :
    storeAll (upd text i c) (i + 1) t = storeAll text i (c :: t) := by
  funext j
  unfold storeAll upd
  by_cases h1 : i + 1 ≤ j
  · rw [if_pos h1, if_pos (show i ≤ j by omega), if_neg (show ¬ j = i by omega), show j - i = (j - (i + 1)) + 1 by omega,
      List.getD_cons_succ]
  · rw [if_neg h1]
    by_cases h2 : i ≤ j
    · have : j = i := by omega
      subst this
      simp
    · rw [if_neg h2, if_neg (by omega)]

theorem storeAll_before (text : Nat → U8) (i : Nat) (t : List U8) (j : Nat) (h : j < i) :
    storeAll text i t j = text j := by simp [storeAll]; omega

theorem storeAll_at (text : Nat → U8) (i : Nat) (t : List U8) (j : Nat) (h : j < t.length) :
    storeAll text i t (i + j) = t[j] := by
  unfold storeAll
  rw [if_pos (by omega), Nat.add_sub_cancel_left, List.getD_eq_getElem?_getD,
    List.getElem?_eq_getElem h]; rfl

theorem copyKey_eq (sg : Bool) (N : Nat) (src : List U8) (b : Int) (q : U8) (e : Bool)
    (text : Nat → U8) (i trim : Nat) (hN : i + src.length < N) :
    copyKey sg N src b q e text i trim = some (storeAll text i (cut src b q e).1,
      (if rstrip (blank sg) (cut src b q e).1 = [] then trim
        else i + (rstrip (blank sg) (cut src b q e).1).length), (cut src b q e).2) := by
  induction src generalizing b q e text i trim with
  | nil => simp [copyKey, cut, storeAll_nil, rstrip_nil]
  | cons c src ih =>
    simp only [List.length_cons] at hN
    unfold copyKey cut
    cases ht : track src c b q e with
    | none => simp [storeAll_nil, rstrip_nil]
    | some r =>
      obtain ⟨b', q', e'⟩ := r
      dsimp only
      have hw : (Obj.mk 0 N).wr text i c = some (upd text i c) := by
        simp [Obj.wr]; omega
      simp only [hw, Option.bind_eq_bind, Option.bind_some]
      rw [ih _ _ _ _ _ _ (by omega), storeAll_cons]
      congr 2
      congr 1
      rw [rstrip_cons]
      by_cases h1 : rstrip (blank sg) (cut src b' q' e').1 = []
      · simp only [h1, if_true]
        by_cases h2 : blank sg c <;> simp [h2]
      · simp only [h1, if_false, List.cons_ne_nil, List.length_cons]; omega

/-- the key of a round and the rest after it -/
def keyOf (sg last : Bool) (src : List U8) : List U8 :=
  rstrip (blank sg) (cut (src.dropWhile (blank sg)) (if last then 1 else 0) 0 false).1
def restOf (sg last : Bool) (src : List U8) : List U8 :=
  (cut (src.dropWhile (blank sg)) (if last then 1 else 0) 0 false).2

theorem keyOf_restOf_length (sg last : Bool) (src : List U8) :
    (keyOf sg last src).length + (restOf sg last src).length ≤ src.length := by
  have h1 := rstrip_length (blank sg) (cut (src.dropWhile (blank sg)) (if last then 1 else 0) 0 false).1
  have h2 := congrArg List.length (cut_append (src.dropWhile (blank sg)) (if last then 1 else 0) 0 false)
  have h3 : (src.dropWhile (blank sg)).length ≤ src.length := (List.dropWhile_suffix _).length_le
  rw [List.length_append] at h2
  unfold keyOf restOf
  omega

theorem keyOf_subset (sg last : Bool) (src : List U8) : ∀ c ∈ keyOf sg last src, c ∈ src := by
  intro c hc
  have h1 := (rstrip_prefix _ _).subset hc
  have h2 := cut_append (src.dropWhile (blank sg)) (if last then 1 else 0) 0 false
  have h3 : c ∈ src.dropWhile (blank sg) := by rw [← h2]; exact List.mem_append_left _ h1
  exact (List.dropWhile_suffix _).subset h3

theorem restOf_subset (sg last : Bool) (src : List U8) : ∀ c ∈ restOf sg last src, c ∈ src := by
  intro c hc
  have h2 := cut_append (src.dropWhile (blank sg)) (if last then 1 else 0) 0 false
  have h3 : c ∈ src.dropWhile (blank sg) := by rw [← h2]; exact List.mem_append_right _ hc
  exact (List.dropWhile_suffix _).subset h3

theorem round_eq (sg : Bool) (N : Nat) (last : Bool) (src : List U8) (text : Nat → U8) (i : Nat)
    (hN : i + src.length < N) (h0 : (0 : U8) ∉ src) :
    ∃ text', round sg N last src text i =
        some (text', i + (keyOf sg last src).length + (if restOf sg last src = [] then 0 else 1),
          (restOf sg last src).tail) ∧
      CStr N text' i (keyOf sg last src) ∧ ∀ j, j < i → text' j = text j := by
  have hlen := keyOf_restOf_length sg last src
  have h3 : (src.dropWhile (blank sg)).length ≤ src.length := (List.dropWhile_suffix _).length_le
  unfold round
  dsimp only
  rw [copyKey_eq _ _ _ _ _ _ _ _ _ (by omega)]
  simp only [Option.bind_eq_bind, Option.bind_some]
  have hk : (if rstrip (blank sg) (cut (src.dropWhile (blank sg)) (if last then 1 else 0) 0 false).1 = []
      then i else i + (rstrip (blank sg) (cut (src.dropWhile (blank sg)) (if last then 1 else 0) 0
        false).1).length) = i + (keyOf sg last src).length := by
    unfold keyOf
    by_cases h : rstrip (blank sg) (cut (src.dropWhile (blank sg)) (if last then 1 else 0) 0 false).1 = []
    · rw [if_pos h, h]; rfl
    · rw [if_neg h]
  rw [hk]
  have hw : ∀ t : Nat → U8, (Obj.mk 0 N).wr t (i + (keyOf sg last src).length) nul =
      some (upd t (i + (keyOf sg last src).length) nul) := by
    intro t; simp [Obj.wr]; omega
  rw [hw]
  simp only [Option.bind_some]
  refine ⟨upd (storeAll text i (cut (src.dropWhile (blank sg)) (if last then 1 else 0) 0 false).1)
    (i + (keyOf sg last src).length) nul, ?_, ⟨by omega, ?_, ?_, ?_⟩, ?_⟩
  · show (match restOf sg last src with | [] => _ | _ :: src => _) = _
    cases hr : restOf sg last src <;> simp
  · intro j hj
    rw [upd, if_neg (by omega)]
    have hp := rstrip_prefix (blank sg) (cut (src.dropWhile (blank sg)) (if last then 1 else 0) 0 false).1
    have hj' : j < (cut (src.dropWhile (blank sg)) (if last then 1 else 0) 0 false).1.length :=
      Nat.lt_of_lt_of_le hj hp.length_le
    rw [storeAll_at _ _ _ _ hj']
    exact (hp.getElem hj).symm
  · simp [upd, nul]
  · intro hc; exact h0 (keyOf_subset sg last src 0 hc)
  · intro j hj
    rw [upd, if_neg (by omega), storeAll_before _ _ _ _ hj]

theorem CStr.congr {N : Nat} {t t' : Nat → U8} {s : Nat} {k : List U8} (h : CStr N t s k)
    (he : ∀ j, j ≤ s + k.length → t' j = t j) : CStr N t' s k :=
  ⟨h.1, fun j hj => by rw [he _ (by omega)]; exact h.2.1 j hj, by rw [he _ (by omega)]; exact h.2.2.1,
    h.2.2.2⟩

/-- keys of all rounds -/
def keysOf (sg withLast : Bool) : Nat → List U8 → List (List U8)
  | 0, _ => []
  | left + 1, src => keyOf sg (withLast && left == 0) src ::
      keysOf sg withLast left (restOf sg (withLast && left == 0) src).tail

theorem rounds_eq (sg : Bool) (N : Nat) (withLast : Bool) (left : Nat) (src : List U8)
    (text : Nat → U8) (i : Nat) (hN : i + src.length < N) (h0 : (0 : U8) ∉ src) :
    ∃ text' starts, rounds sg N withLast left src text i = some (text', starts) ∧
      List.Forall₂ (CStr N text') starts (keysOf sg withLast left src) ∧
      (∀ j, j < i → text' j = text j) ∧ (src = [] → text i = 0 → text' i = 0) := by
  induction left generalizing src text i with
  | zero => exact ⟨text, [], rfl, .nil, fun _ _ => rfl, fun _ h => h⟩
  | succ left ih =>
    generalize hl : (withLast && left == 0) = last
    obtain ⟨t1, e1, e2, e3⟩ := round_eq sg N last src text i hN h0
    have hlen := keyOf_restOf_length sg last src
    have hrest := restOf_subset sg last src
    generalize hi' : i + (keyOf sg last src).length + (if restOf sg last src = [] then 0 else 1) = i' at e1
    have hi2 : i' + (restOf sg last src).tail.length < N ∧
        (restOf sg last src ≠ [] → i' = i + (keyOf sg last src).length + 1) ∧
        (restOf sg last src = [] → i' = i + (keyOf sg last src).length) := by
      cases hr : restOf sg last src with
      | nil => rw [hr] at hi' hlen; simp at hi' hlen ⊢; omega
      | cons c r => rw [hr] at hi' hlen; simp at hi' hlen ⊢; omega
    obtain ⟨t2, ss, f1, f2, f3, f4⟩ := ih (restOf sg last src).tail t1 i' hi2.1
      (fun hc => h0 (hrest 0 (List.mem_of_mem_tail hc)))
    have hii : i + (keyOf sg last src).length ≤ i' := by
      by_cases hr : restOf sg last src = []
      · have := hi2.2.2 hr; omega
      · have := hi2.2.1 hr; omega
    have hend : t2 (i + (keyOf sg last src).length) = 0 := by
      by_cases hr : restOf sg last src = []
      · have := hi2.2.2 hr
        rw [← this]
        exact f4 (by rw [hr]; rfl) (by rw [this]; exact e2.2.2.1)
      · have := hi2.2.1 hr
        rw [f3 _ (by omega)]; exact e2.2.2.1
    refine ⟨t2, i :: ss, ?_, ?_, ?_, ?_⟩
    · unfold rounds
      rw [hl, e1]
      simp only [Option.bind_eq_bind, Option.bind_some, f1]
      rfl
    · unfold keysOf
      rw [hl]
      refine .cons ⟨e2.1, fun j hj => ?_, hend, e2.2.2.2⟩ f2
      rw [f3 _ (by omega)]; exact e2.2.1 j hj
    · intro j hj
      rw [f3 j (by omega), e3 j hj]
    · intro hs _
      have hk : (keyOf sg last src).length = 0 := by
        simp only [hs, List.length_nil] at hlen
        rw [hs]; omega
      rw [hk] at hend; exact hend

/-! ### balanced texts -/

theorem cut_some (src : List U8) (c : U8) (b b' : Int) (q q' : U8) (e e' : Bool)
    (h : track src c b q e = some (b', q', e')) :
    cut (c :: src) b q e = (c :: (cut src b' q' e').1, (cut src b' q' e').2) := by
  rw [cut, h]

theorem track_in_quote (src : List U8) (c : U8) (b : Int) (q : U8) (e : Bool) (hq : q ≠ 0) :
    track src c b q e = if e then some (b, q, false) else if c = backslash then some (b, q, true)
      else if c = q then some (b, 0, e) else some (b, q, e) := by
  unfold track
  rw [if_neg hq]

theorem cut_quoted (q : U8) (hq : q = 0x22 ∨ q = 0x27) (t : List U8) (ht : Quoted q t)
    (rest : List U8) (b : Int) : cut (t ++ q :: rest) b q false =
      (t ++ q :: (cut rest b 0 false).1, (cut rest b 0 false).2) := by
  have h0 : q ≠ 0 := by rcases hq with rfl | rfl <;> decide
  have hb : q ≠ backslash := by rcases hq with rfl | rfl <;> decide
  induction ht with
  | nil =>
    rw [List.nil_append, cut_some _ _ _ _ _ _ _ _ (by
      rw [track_in_quote _ _ _ _ _ h0, if_neg (by simp), if_neg hb, if_pos rfl])]
    rfl
  | char c s h hbs hs ih =>
    rw [List.cons_append, cut_some _ _ _ _ _ _ _ _ (by
      rw [track_in_quote _ _ _ _ _ h0, if_neg (by simp), if_neg (show ¬ c = backslash from hbs), if_neg h]), ih]
    rfl
  | esc c s hs ih =>
    rw [List.cons_append, List.cons_append, cut_some _ _ _ _ _ _ _ _ (by
      rw [track_in_quote _ _ _ _ _ h0, if_neg (by simp), if_pos (by rfl)]),
      cut_some _ _ _ _ _ _ _ _ (by rw [track_in_quote _ _ _ _ _ h0, if_pos rfl]), ih]
    rfl

theorem track_plain (src : List U8) (c : U8) (b : Int) (h : c ∉ special) :
    track src c b 0 false = some (b, 0, false) := by
  simp only [special, List.mem_cons, List.not_mem_nil, or_false, not_or] at h
  obtain ⟨h1, h2, h3, h4, h5, h6, h7, h8, h9⟩ := h
  unfold track
  rw [if_pos rfl, if_neg (fun hc => h9 hc.1), if_neg (by rintro (hc | hc); exact h1 hc; exact h2 hc),
    if_neg (by simp [opens]; exact ⟨⟨h3, h5⟩, h7⟩),
    if_neg (by simp [closes]; exact ⟨⟨h4, h6⟩, h8⟩)]

theorem track_open (src : List U8) (o c : U8) (b : Int) (h : (o, c) ∈ pairs) :
    track src o b 0 false = some (b + 1, 0, false) := by
  simp only [pairs, List.mem_cons, List.not_mem_nil, or_false, Prod.mk.injEq] at h
  rcases h with ⟨rfl, _⟩ | ⟨rfl, _⟩ | ⟨rfl, _⟩ <;> rfl

theorem track_close (src : List U8) (o c : U8) (b : Int) (h : (o, c) ∈ pairs) :
    track src c b 0 false = some (b - 1, 0, false) := by
  simp only [pairs, List.mem_cons, List.not_mem_nil, or_false, Prod.mk.injEq] at h
  rcases h with ⟨_, rfl⟩ | ⟨_, rfl⟩ | ⟨_, rfl⟩ <;> rfl

theorem track_open_quote (src : List U8) (q : U8) (b : Int) (h : q = 0x22 ∨ q = 0x27) :
    track src q b 0 false = some (b, q, false) := by
  rcases h with rfl | rfl <;> rfl

theorem track_comma (src : List U8) (b : Int) (h : b ≠ 0) (hs : src ≠ []) :
    track src 0x2c b 0 false = some (b, 0, false) := by
  unfold track
  rw [if_pos rfl, if_neg (by rintro ⟨_, hc | hc⟩; exact h hc; exact hs hc)]
  rfl

/-- balanced text is copied as a whole -/
theorem cut_balanced (m : Bool) (a : List U8) (ha : Balanced m a) (rest : List U8) (b : Int)
    (hb : 0 ≤ b) (hm : m = true → 1 ≤ b ∧ (rest ≠ [] ∨ a.getLast? ≠ some 0x2c)) :
    cut (a ++ rest) b 0 false = (a ++ (cut rest b 0 false).1, (cut rest b 0 false).2) := by
  induction ha generalizing rest b with
  | nil => rfl
  | plain m c s h hs ih =>
    rw [List.cons_append, cut_some _ _ _ _ _ _ _ _ (track_plain _ c b h), ih rest b hb ?_]
    · rfl
    · intro hm'
      refine ⟨(hm hm').1, ?_⟩
      rcases (hm hm').2 with h' | h'
      · exact .inl h'
      · cases s with
        | nil => right; simp
        | cons x s => right; rw [List.getLast?_cons_cons] at h'; exact h'
  | comma s hs ih =>
    obtain ⟨h1, h2⟩ := hm rfl
    rw [List.cons_append, cut_some _ _ _ _ _ _ _ _ (track_comma _ b (by omega) ?_), ih rest b hb ?_]
    · rfl
    · intro _
      refine ⟨h1, ?_⟩
      rcases h2 with h' | h'
      · exact .inl h'
      · cases s with
        | nil => simp at h'
        | cons x s => right; rw [List.getLast?_cons_cons] at h'; exact h'
    · intro hc
      simp only [List.append_eq_nil_iff] at hc
      rw [hc.1, hc.2] at h2
      simp at h2
  | quoted m q t s hq ht hs ih =>
    rw [List.cons_append, List.append_assoc, List.cons_append,
      cut_some _ _ _ _ _ _ _ _ (track_open_quote _ q b hq), cut_quoted q hq t ht, ih rest b hb ?_]
    · simp
    · intro hm'
      refine ⟨(hm hm').1, ?_⟩
      rcases (hm hm').2 with h' | h'
      · exact .inl h'
      · cases s with
        | nil => right; simp
        | cons x s => right; rw [← List.cons_append, List.getLast?_append_cons,
            List.getLast?_cons_cons] at h'; exact h'
  | group m o c t s hp ht hs iht ih =>
    rw [List.cons_append, List.append_assoc, List.cons_append,
      cut_some _ _ _ _ _ _ _ _ (track_open _ o c b hp),
      iht (c :: (s ++ rest)) (b + 1) (by omega) (fun _ => ⟨by omega, .inl (by simp)⟩),
      cut_some _ _ _ _ _ _ _ _ (track_close _ o c (b + 1) hp), Int.add_sub_cancel, ih rest b hb ?_]
    · simp
    · intro hm'
      refine ⟨(hm hm').1, ?_⟩
      rcases (hm hm').2 with h' | h'
      · exact .inl h'
      · cases s with
        | nil => right; simp
        | cons x s => right; rw [← List.cons_append, List.getLast?_append_cons,
            List.getLast?_cons_cons] at h'; exact h'

theorem special_not_blank (sg : Bool) (c : U8) (h : c ∈ special) : blank sg c = false := by
  simp only [special, List.mem_cons, List.not_mem_nil, or_false] at h
  rcases h with rfl | rfl | rfl | rfl | rfl | rfl | rfl | rfl | rfl <;> cases sg <;> decide

theorem balanced_dropWhile (sg : Bool) (m : Bool) (a : List U8) (ha : Balanced m a) :
    Balanced m (a.dropWhile (blank sg)) := by
  induction ha with
  | nil => exact .nil _
  | plain m c s h hs ih =>
    by_cases hc : blank sg c
    · rw [List.dropWhile_cons_of_pos hc]; exact ih
    · rw [List.dropWhile_cons_of_neg hc]; exact .plain m c s h hs
  | comma s hs ih =>
    rw [List.dropWhile_cons_of_neg (by rw [special_not_blank sg _ (by decide)]; simp)]
    exact .comma s hs
  | quoted m q t s hq ht hs ih =>
    rw [List.dropWhile_cons_of_neg (by
      rw [special_not_blank sg _ (by rcases hq with rfl | rfl <;> decide)]; simp)]
    exact .quoted m q t s hq ht hs
  | group m o c t s hp ht hs iht ih =>
    rw [List.dropWhile_cons_of_neg (by
      rw [special_not_blank sg _ (by
        simp only [pairs, List.mem_cons, List.not_mem_nil, or_false, Prod.mk.injEq] at hp
        rcases hp with ⟨rfl, _⟩ | ⟨rfl, _⟩ | ⟨rfl, _⟩ <;> decide)]; simp)]
    exact .group m o c t s hp ht hs

theorem dropWhile_comma (sg : Bool) (a r : List U8) :
    (a ++ 0x2c :: r).dropWhile (blank sg) = a.dropWhile (blank sg) ++ 0x2c :: r := by
  induction a with
  | nil =>
    rw [List.nil_append, List.dropWhile_cons_of_neg (by rw [special_not_blank sg _ (by decide)]; simp)]
    rfl
  | cons c a ih =>
    by_cases hc : blank sg c
    · rw [List.cons_append, List.dropWhile_cons_of_pos hc, ih, List.dropWhile_cons_of_pos hc]
    · rw [List.cons_append, List.dropWhile_cons_of_neg hc, List.dropWhile_cons_of_neg hc]; rfl

theorem cut_comma_zero (r : List U8) : cut (0x2c :: r) 0 0 false = ([], 0x2c :: r) := by
  have : track r 0x2c 0 0 false = none := by
    unfold track; rw [if_pos rfl, if_pos ⟨rfl, .inl rfl⟩]
  rw [cut, this]

theorem cut_comma_end (b : Int) : cut [0x2c] b 0 false = ([], [0x2c]) := by
  have : track [] 0x2c b 0 false = none := by
    unfold track; rw [if_pos rfl, if_pos ⟨rfl, .inr rfl⟩]
  rw [cut, this]

/-- an argument that is not the last -/
theorem round_arg (sg : Bool) (a r : List U8) (ha : Balanced false a) :
    keyOf sg false (a ++ 0x2c :: r) = strip (blank sg) a ∧ restOf sg false (a ++ 0x2c :: r) = 0x2c :: r := by
  unfold keyOf restOf
  rw [dropWhile_comma]
  have := cut_balanced false _ (balanced_dropWhile sg false a ha) (0x2c :: r) 0 (by omega) (by simp)
  simp only [Bool.false_eq_true, if_false]
  rw [this, cut_comma_zero]
  simp [strip, rstrip]

theorem dropWhile_getLast (p : U8 → Bool) (a : List U8) (h : a.getLast? ≠ some 0x2c) :
    (a.dropWhile p).getLast? ≠ some 0x2c := by
  intro hc
  obtain ⟨t, ht⟩ := List.dropWhile_suffix p (l := a)
  rw [← ht, List.getLast?_append, hc] at h
  simp at h

/-- the last argument, possibly followed by a comma -/
theorem round_last (sg : Bool) (a r : List U8) (ha : Balanced true a) (hl : a.getLast? ≠ some 0x2c)
    (hr : r = [] ∨ r = [0x2c]) :
    keyOf sg true (a ++ r) = strip (blank sg) a := by
  have hd : (a ++ r).dropWhile (blank sg) = a.dropWhile (blank sg) ++ r := by
    rcases hr with rfl | rfl
    · simp
    · exact dropWhile_comma sg a []
  unfold keyOf
  rw [hd]
  simp only [if_true]
  rw [cut_balanced true _ (balanced_dropWhile sg true a ha) r 1 (by omega)
    (fun _ => ⟨by omega, .inr (dropWhile_getLast _ _ hl)⟩)]
  have : (cut r 1 0 false).1 = [] := by
    rcases hr with rfl | rfl
    · rfl
    · rw [cut_comma_end]
  rw [this]
  simp [strip, rstrip]

theorem keysOf_args (sg : Bool) (args : List (List U8)) (hne : args ≠ [])
    (hb : ∀ a ∈ args.dropLast, Balanced false a)
    (hl : ∀ a, args.getLast? = some a → Balanced true a ∧ a.getLast? ≠ some 0x2c)
    (r : List U8) (hr : r = [] ∨ r = [0x2c]) :
    keysOf sg true args.length (joined args ++ r) = args.map (strip (blank sg)) := by
  induction args with
  | nil => exact absurd rfl hne
  | cons a args ih =>
    cases args with
    | nil =>
      have := hl a rfl
      simp only [joined, List.length_cons, List.length_nil, keysOf, List.map_cons, List.map_nil]
      rw [show (true && (0 : Nat) == 0) = true by rfl, round_last sg a r this.1 this.2 hr]
    | cons a2 args =>
      have h1 := round_arg sg a (joined (a2 :: args) ++ r) (hb a (by simp))
      have h2 := ih (by simp) (fun x hx => hb x (by simp [hx])) (fun x hx => hl x (by
        rw [List.getLast?_cons_cons]; exact hx))
      rw [joined, List.append_assoc, List.cons_append, List.length_cons, keysOf]
      have hz : (true && (a2 :: args).length == 0) = false := by simp
      rw [hz, h1.1, h1.2, List.tail_cons, h2]
      rfl

/-! ### `names_t` -/

/-- characters of a member name -/
def inName (sg : Bool) (c : U8) : Bool := !blank sg c && c != comma

theorem copyMember_eq (sg : Bool) (N : Nat) (s : List U8) (text : Nat → U8) (j : Nat)
    (h : j + (s.takeWhile (inName sg)).length ≤ N) :
    copyMember sg N s text j = some (storeAll text j (s.takeWhile (inName sg)),
      j + (s.takeWhile (inName sg)).length, s.dropWhile (inName sg)) := by
  induction s generalizing text j with
  | nil => simp [copyMember, storeAll_nil]
  | cons c s ih =>
    unfold copyMember
    by_cases hc : inName sg c
    · have hc' := hc
      unfold inName at hc'
      rw [List.takeWhile_cons_of_pos hc] at h ⊢
      rw [List.dropWhile_cons_of_pos hc]
      simp only [List.length_cons] at h ⊢
      have hw : (Obj.mk 0 N).wr text j c = some (upd text j c) := by simp [Obj.wr]; omega
      rw [if_pos hc', hw]
      simp only [Option.bind_eq_bind, Option.bind_some]
      rw [ih _ _ (by omega), storeAll_cons]
      congr 3; omega
    · have hc' := hc
      unfold inName at hc'
      rw [List.takeWhile_cons_of_neg hc, List.dropWhile_cons_of_neg hc, if_neg hc']
      simp [storeAll_nil]

/-- after a name: skip one comma -/
def skipComma : List U8 → List U8
  | [] => []
  | c :: s => if c = comma then s else c :: s

/-- the names found -/
def membersOf (sg : Bool) : Nat → List U8 → List (List U8)
  | 0, _ => []
  | left + 1, s => (s.dropWhile (blank sg)).takeWhile (inName sg) ::
      membersOf sg left (skipComma ((s.dropWhile (blank sg)).dropWhile (inName sg)))

/-- number of characters that are not commas -/
def others (s : List U8) : Nat := (s.filter (· != comma)).length

theorem others_append (a b : List U8) : others (a ++ b) = others a + others b := by simp [others]

theorem others_dropWhile (p : U8 → Bool) (s : List U8) : others (s.dropWhile p) ≤ others s := by
  obtain ⟨t, ht⟩ := List.dropWhile_suffix p (l := s)
  conv => rhs; rw [← ht]
  rw [others_append]; omega

theorem others_takeWhile (sg : Bool) (s : List U8) :
    (s.takeWhile (inName sg)).length + others (s.dropWhile (inName sg)) = others s := by
  conv => rhs; rw [← List.takeWhile_append_dropWhile (p := inName sg) (l := s)]
  rw [others_append]
  congr 1
  unfold others
  rw [List.filter_eq_self.mpr]
  intro c hc
  have hall : ∀ l : List U8, ∀ c ∈ l.takeWhile (inName sg), inName sg c = true := by
    intro l
    induction l with
    | nil => simp
    | cons a l ih =>
      intro c hc
      by_cases ha : inName sg a
      · rw [List.takeWhile_cons_of_pos ha] at hc
        rcases List.mem_cons.mp hc with rfl | h
        · exact ha
        · exact ih c h
      · rw [List.takeWhile_cons_of_neg ha] at hc; simp at hc
  have := hall s c hc
  simp only [inName, Bool.and_eq_true] at this
  exact this.2

theorem others_skipComma (s : List U8) : others (skipComma s) ≤ others s := by
  cases s with
  | nil => exact Nat.le_refl _
  | cons c s =>
    rw [skipComma]
    by_cases hc : c = comma
    · rw [if_pos hc]; simp only [others, List.filter_cons]; split <;> simp
    · rw [if_neg hc]; exact Nat.le_refl _

theorem members_eq (sg : Bool) (N left : Nat) (s : List U8) (text : Nat → U8) (j : Nat)
    (h : j + others s + left ≤ N) (h0 : (0 : U8) ∉ s) :
    ∃ text' j' ns, members sg N left s text j = some (text', j', ns) ∧
      (∀ t : Nat → U8, (∀ k, k < j' → t k = text' k) →
        List.Forall₂ (CStr N t) ns (membersOf sg left s)) ∧
      (∀ k, k < j → text' k = text k) ∧ j ≤ j' ∧ j' ≤ N := by
  induction left generalizing s text j with
  | zero => exact ⟨text, j, [], rfl, fun _ _ => .nil, fun _ _ => rfl, Nat.le_refl _, by omega⟩
  | succ left ih =>
    generalize hs1 : s.dropWhile (blank sg) = s1
    have o1 := others_dropWhile (blank sg) s
    have o2 := others_takeWhile sg s1
    have o3 := others_skipComma (s1.dropWhile (inName sg))
    rw [hs1] at o1
    have hsub1 : ∀ c ∈ s1, c ∈ s := by
      rw [← hs1]; exact fun c hc => (List.dropWhile_suffix _).subset hc
    have hsub2 : ∀ c ∈ s1.takeWhile (inName sg), c ∈ s1 :=
      fun c hc => (List.takeWhile_prefix _).subset hc
    have hsub3 : ∀ c ∈ skipComma (s1.dropWhile (inName sg)), c ∈ s1 := by
      intro c hc
      have : c ∈ s1.dropWhile (inName sg) := by
        unfold skipComma at hc
        split at hc
        · simp at hc
        · rename_i heq
          rw [heq]
          split at hc
          · exact List.mem_cons_of_mem _ hc
          · exact hc
      exact (List.dropWhile_suffix _).subset this
    generalize hk : s1.takeWhile (inName sg) = key at *
    obtain ⟨t2, j2, ns, e1, e2, e3, e4, e5⟩ := ih (skipComma (s1.dropWhile (inName sg)))
      (upd (storeAll text j key) (j + key.length) nul) (j + key.length + 1) (by omega)
      (fun hc => h0 (hsub1 0 (hsub3 0 hc)))
    refine ⟨t2, j2, j :: ns, ?_, ?_, ?_, by omega, e5⟩
    · unfold members
      rw [hs1, copyMember_eq sg N s1 text j (by rw [hk]; omega), hk]
      simp only [Option.bind_eq_bind, Option.bind_some]
      have hw : (Obj.mk 0 N).wr (storeAll text j key) (j + key.length) nul =
          some (upd (storeAll text j key) (j + key.length) nul) := by simp [Obj.wr]; omega
      rw [hw]
      simp only [Option.bind_some]
      change ((members sg N left (skipComma (s1.dropWhile (inName sg))) _ _).bind _) = _
      rw [e1]; rfl
    · intro t ht
      unfold membersOf
      rw [hs1, hk]
      refine .cons ⟨by omega, fun k hkk => ?_, ?_, fun hc => h0 (hsub1 0 (hsub2 0 hc))⟩ (e2 t ht)
      · rw [ht _ (by omega), e3 _ (by omega), upd, if_neg (by omega), storeAll_at _ _ _ _ hkk]
      · rw [ht _ (by omega), e3 _ (by omega)]; simp [upd, nul]
    · intro k hkj
      rw [e3 k (by omega), upd, if_neg (by omega), storeAll_before _ _ _ _ hkj]

/-- a member: blanks, then a name -/
theorem member_arg (sg : Bool) (bl name rest : List U8) (hb : ∀ c ∈ bl, blank sg c = true)
    (hn : ∀ c ∈ name, inName sg c = true)
    (hr : (∀ c r, rest = c :: r → blank sg c = true) → name ≠ [] ∨ rest = [])
    (hr2 : ∀ c r, rest = c :: r → inName sg c = false) :
    ((bl ++ name ++ rest).dropWhile (blank sg)).takeWhile (inName sg) = name ∧
      ((bl ++ name ++ rest).dropWhile (blank sg)).dropWhile (inName sg) = rest := by
  have hd : (bl ++ name ++ rest).dropWhile (blank sg) = name ++ rest := by
    rw [List.append_assoc, List.dropWhile_append_of_pos hb]
    cases name with
    | nil =>
      cases rest with
      | nil => rfl
      | cons c r =>
        by_cases hc : blank sg c = true
        · have := hr (fun c' r' h => by simp at h; rw [← h.1]; exact hc)
          simp at this
        · rw [List.nil_append, List.dropWhile_cons_of_neg hc]
    | cons c name =>
      have := hn c (by simp)
      rw [List.cons_append, List.dropWhile_cons_of_neg]
      simp only [inName, Bool.and_eq_true, Bool.not_eq_true'] at this
      simp [this.1]
  rw [hd]
  constructor
  · rw [List.takeWhile_append_of_pos hn]
    cases rest with
    | nil => simp
    | cons c r => rw [List.takeWhile_cons_of_neg (by rw [hr2 c r rfl]; simp)]; simp
  · rw [List.dropWhile_append_of_pos hn]
    cases rest with
    | nil => rfl
    | cons c r => rw [List.dropWhile_cons_of_neg (by rw [hr2 c r rfl]; simp)]

end CE.Names
