import Verif.Spec.Nameof
/-!
# nameof / as_enum
-/
namespace CE.Nameof

theorem same_prefix {p : List Nat} (hp : ∀ x ∈ p, x ≠ 0) {a b : List Nat} {k : Nat} (h : same a b = some k) :
    same (p ++ a) (p ++ b) = some (p.length + k) := by
  induction p with
  | nil => simpa using h
  | cons x p ih =>
    have hx : x ≠ 0 := hp x (List.mem_cons_self ..)
    rw [List.cons_append, List.cons_append, same, if_neg (by simp [hx]), ih (fun y hy => hp y (List.mem_cons_of_mem _ hy))]
    simp only [Option.map_some, List.length_cons, Option.some.injEq]
    omega

variable {c : Compiler} {path : List (List Nat)} {id : Nat → Option (List Nat)}

theorem skipItem_eq (h : Writes c path id) : c.skipItem = some c.pre.length := by
  obtain ⟨x, r, hs, hx⟩ := h.suf_head
  unfold Compiler.skipItem Compiler.pretty
  have e1 : c.pre ++ [48] ++ c.suf ++ [0] = c.pre ++ (48 :: (c.suf ++ [0])) := by simp
  have e2 : c.pre ++ [] ++ c.suf ++ [0] = c.pre ++ (x :: (r ++ [0])) := by simp [hs]
  rw [e1, e2]
  exact same_prefix h.pre_nz (k := 0) (by rw [same, if_pos (Or.inl (fun h => hx h.symm))])

theorem nameItem_eq (h : Writes c path id) (v : Nat) : c.nameItem v = some (c.item v ++ [0]) := by
  obtain ⟨x, r, hs, hx⟩ := h.suf_head
  unfold Compiler.nameItem
  rw [skipItem_eq h]
  show constText _ _ = _
  have hl : (c.pretty (c.item v)).length - (c.pretty []).length = (c.item v).length := by
    simp only [Compiler.pretty, List.length_append, List.length_nil, List.length_singleton]; omega
  have hd : (c.pretty (c.item v)).drop c.pre.length = c.item v ++ (c.suf ++ [0]) := by
    unfold Compiler.pretty
    rw [List.append_assoc, List.append_assoc, List.drop_left]
  rw [hl, hd]
  unfold constText
  rw [if_pos (by simp only [List.length_append, List.length_singleton]; omega), List.take_left]

theorem constText_self (t : List Nat) : constText t.length (t ++ [0]) = some (t ++ [0]) := by
  unfold constText
  rw [if_pos (by simp), List.take_left]

theorem skip_plain {what : Nat} {s rest : List Nat} (hs : ∀ x ∈ s, x ≠ 0 ∧ x ≠ what) (n : Nat) :
    skipLoop what n (s ++ rest) = skipLoop what (n + s.length) rest := by
  induction s generalizing n with
  | nil => rfl
  | cons x s ih =>
    have hx := hs x (List.mem_cons_self ..)
    rw [List.cons_append, skipLoop.eq_def]
    dsimp only
    rw [if_neg hx.1, if_neg hx.2, ih (fun y hy => hs y (List.mem_cons_of_mem _ hy)), List.length_cons]
    congr 1; omega

theorem skip_none {what : Nat} {s : List Nat} (hs : ∀ x ∈ s, x ≠ 0 ∧ x ≠ what) : skip what (s ++ [0]) = some 0 := by
  unfold skip
  rw [skip_plain hs, skipLoop.eq_def]
  simp

theorem skip_colons {s rest : List Nat} {x : Nat} (hs : ∀ y ∈ s, y ≠ 0 ∧ y ≠ 58) (hx : x ≠ 58) :
    skip 58 (s ++ (58 :: 58 :: x :: rest)) = some (s.length + 2) := by
  unfold skip
  rw [skip_plain hs, skipLoop.eq_def]
  dsimp only
  rw [if_neg (by decide), if_pos rfl, if_neg (by simp), skipLoop.eq_def]
  dsimp only
  rw [if_neg (by decide), if_pos rfl, if_pos hx]
  congr 1; omega

theorem qualified_cons {s : List Nat} {t : List (List Nat)} (ht : t ≠ []) :
    qualified (s :: t) = s ++ (58 :: 58 :: qualified t) := by
  cases t with
  | nil => exact absurd rfl ht
  | cons u t => rw [qualified]; · simp
                exact fun h => by cases h

theorem qualified_head {t : List (List Nat)} (ht : t ≠ []) (h : ∀ s ∈ t, Ident s) :
    ∃ x r, qualified t = x :: r ∧ x ≠ 58 ∧ x ≠ 40 := by
  cases t with
  | nil => exact absurd rfl ht
  | cons s t =>
    have hs := h s (List.mem_cons_self ..)
    cases s with
    | nil => exact absurd rfl hs.1
    | cons x s =>
      have hx := hs.2 x (List.mem_cons_self ..)
      cases t with
      | nil => exact ⟨x, s, rfl, hx.2.2, hx.2.1⟩
      | cons u t =>
        rw [qualified_cons (by simp)]
        exact ⟨x, _, rfl, hx.2.2, hx.2.1⟩

theorem qualified_nz {t : List (List Nat)} (h : ∀ s ∈ t, Ident s) : ∀ x ∈ qualified t, x ≠ 0 := by
  induction t with
  | nil => intro x hx; cases hx
  | cons s t ih =>
    intro x hx
    cases t with
    | nil => exact ((h s (List.mem_cons_self ..)).2 x hx).1
    | cons u t =>
      rw [qualified_cons (by simp)] at hx
      rcases List.mem_append.1 hx with hx | hx
      · exact ((h s (List.mem_cons_self ..)).2 x hx).1
      · rcases List.mem_cons.1 hx with rfl | hx
        · decide
        · rcases List.mem_cons.1 hx with rfl | hx
          · decide
          · exact ih (fun s hs => h s (List.mem_cons_of_mem _ hs)) x hx

theorem idents (h : Writes c path id) {v : Nat} {s : List Nat} (hv : id v = some s) : ∀ q ∈ path ++ [s], Ident q := by
  intro q hq
  rcases List.mem_append.1 hq with hq | hq
  · exact h.path_ok q hq
  · rw [List.mem_singleton.1 hq]; exact h.id_ok v s hv

theorem entry_named (h : Writes c path id) {v : Nat} {s : List Nat} (hv : id v = some s) :
    c.entry v = some (true, shown path s ++ [0]) := by
  have hid := idents h hv
  unfold Compiler.entry
  rw [nameItem_eq h, h.named v s hv]
  obtain ⟨x, r, hx, h58, h40⟩ := qualified_head (t := path ++ [s]) (by simp) hid
  have hhead : (qualified (path ++ [s]) ++ [0]).head? = some x := by rw [hx]; rfl
  show (do
    let d0 ← (qualified (path ++ [s]) ++ [0]).head?
    _) = _
  rw [hhead]
  show (if x ≠ 40 then _ else _) = _
  rw [if_pos h40]
  clear hx hhead
  cases path with
  | nil =>
    have hs := (h.id_ok v s hv)
    show (do
      let k ← skip 58 (s ++ [0])
      _) = _
    rw [skip_none (fun y hy => ⟨(hs.2 y hy).1, (hs.2 y hy).2.2⟩)]
    show (do
      let text ← constText ((s ++ [0]).length - 1 - 0) ((s ++ [0]).drop 0)
      _) = _
    have e3 : (s ++ [0]).length - 1 - 0 = s.length := by simp
    rw [e3, List.drop_zero, constText_self]
    rfl
  | cons q path =>
    have hq := hid q (List.mem_cons_self ..)
    have ht : ∀ u ∈ path ++ [s], Ident u := fun u hu => hid u (List.mem_cons_of_mem _ hu)
    obtain ⟨y, r', hy, hy58, -⟩ := qualified_head (t := path ++ [s]) (by simp) ht
    have e : qualified (q :: path ++ [s]) ++ [0] = q ++ (58 :: 58 :: y :: (r' ++ [0])) := by
      rw [List.cons_append, qualified_cons (by simp), hy]; simp
    have e2 : (q ++ (58 :: 58 :: y :: (r' ++ [0]))).drop (q.length + 2) = qualified (path ++ [s]) ++ [0] := by
      rw [← List.drop_drop, List.drop_left, hy]; rfl
    have e3 : (q ++ (58 :: 58 :: y :: (r' ++ [0]))).length - 1 - (q.length + 2) = (qualified (path ++ [s])).length := by
      rw [hy]; simp only [List.length_append, List.length_cons, List.length_nil]; omega
    rw [e]
    show (do
      let k ← skip 58 (q ++ (58 :: 58 :: y :: (r' ++ [0])))
      _) = _
    rw [skip_colons (fun z hz => ⟨(hq.2 z hz).1, (hq.2 z hz).2.2⟩) hy58]
    show (do
      let text ← constText ((q ++ (58 :: 58 :: y :: (r' ++ [0]))).length - 1 - (q.length + 2))
        ((q ++ (58 :: 58 :: y :: (r' ++ [0]))).drop (q.length + 2))
      _) = _
    rw [e2, e3, constText_self]
    rfl

theorem entry_unnamed (h : Writes c path id) {v : Nat} (hv : id v = none) :
    c.entry v = some (false, [63, 63, 63, 0]) := by
  obtain ⟨r, hr, -⟩ := h.unnamed v hv
  unfold Compiler.entry
  rw [nameItem_eq h, hr]
  rfl

theorem nameofEnum_eq (h : Writes c path id) (n : Int) (k : Nat) : ∀ l hi, hi - l ≤ k →
    c.nameofEnum n l hi = some (if l ≤ uns n ∧ uns n < hi then
      (match id (uns n) with | some s => shown path s ++ [0] | none => [63, 63, 63, 0]) else [63, 63, 63, 0]) := by
  induction k with
  | zero =>
    intro l hi hk
    rw [Compiler.nameofEnum, if_neg (by omega), if_neg (by omega), if_neg (by omega)]
  | succ k ih =>
    intro l hi hk
    rw [Compiler.nameofEnum]
    by_cases h64 : hi - l > 64
    · rw [if_pos h64]
      dsimp only
      by_cases hm : uns n < l + (hi - l) / 2
      · rw [if_pos hm, ih _ _ (by omega)]
        by_cases hl : l ≤ uns n
        · rw [if_pos ⟨hl, hm⟩, if_pos ⟨hl, by omega⟩]
        · rw [if_neg (by omega), if_neg (by omega)]
      · rw [if_neg hm, ih _ _ (by omega)]
        by_cases hl : uns n < hi
        · rw [if_pos ⟨by omega, hl⟩, if_pos ⟨by omega, hl⟩]
        · rw [if_neg (by omega), if_neg (by omega)]
    · rw [if_neg h64]
      by_cases hlt : l < hi
      · rw [if_pos hlt]
        by_cases he : uns n = l
        · rw [if_pos he, if_pos ⟨by omega, by omega⟩, he]
          cases hid : id l with
          | none => rw [entry_unnamed h hid]; rfl
          | some s => rw [entry_named h hid]; rfl
        · rw [if_neg he, ih _ _ (by omega)]
          by_cases hl : l ≤ uns n ∧ uns n < hi
          · rw [if_pos hl, if_pos ⟨by omega, hl.2⟩]
          · rw [if_neg hl, if_neg (by omega)]
      · rw [if_neg hlt, if_neg (by omega)]

/-- comparing two texts -/
theorem same_texts {a b : List Nat} (ha : ∀ x ∈ a, x ≠ 0) (hb : ∀ x ∈ b, x ≠ 0) :
    ∃ k, same (a ++ [0]) (b ++ [0]) = some k ∧
      ((k = a.length ∧ ∃ z, (b ++ [0])[k]? = some z ∧ (z = 0 ↔ a = b)) ∨ (k ≠ a.length ∧ a ≠ b)) := by
  induction a generalizing b with
  | nil =>
    cases b with
    | nil => exact ⟨0, rfl, Or.inl ⟨rfl, 0, rfl, by simp⟩⟩
    | cons y b =>
      refine ⟨0, ?_, Or.inl ⟨rfl, y, rfl, ?_⟩⟩
      · rw [List.nil_append, List.cons_append, same]; simp
      · have := hb y (List.mem_cons_self ..)
        simp [this]
  | cons x a ih =>
    have hx := ha x (List.mem_cons_self ..)
    cases b with
    | nil =>
      refine ⟨0, ?_, Or.inr ⟨by simp, by simp⟩⟩
      rw [List.nil_append, List.cons_append, same, if_pos (Or.inl hx)]
    | cons y b =>
      rw [List.cons_append, List.cons_append, same]
      by_cases hxy : x = y
      · rw [if_neg (by simp [hxy, hxy ▸ hx])]
        obtain ⟨k, hk, hc⟩ := ih (b := b) (fun z hz => ha z (List.mem_cons_of_mem _ hz)) (fun z hz => hb z (List.mem_cons_of_mem _ hz))
        refine ⟨k + 1, by rw [hk]; rfl, ?_⟩
        rcases hc with ⟨h1, z, h2, h3⟩ | ⟨h1, h2⟩
        · exact Or.inl ⟨by simp [h1], z, by simpa using h2, by rw [h3]; simp [hxy]⟩
        · exact Or.inr ⟨by simpa using h1, by simp [hxy, h2]⟩
      · rw [if_pos (Or.inl hxy)]
        exact ⟨0, rfl, Or.inr ⟨by simp, by simp [hxy]⟩⟩

theorem shown_nz (h : Writes c path id) {v : Nat} {s : List Nat} (hv : id v = some s) : ∀ x ∈ shown path s, x ≠ 0 := by
  apply qualified_nz
  intro q hq
  rcases List.mem_append.1 hq with hq | hq
  · exact h.path_ok q (List.mem_of_mem_tail hq)
  · rw [List.mem_singleton.1 hq]; exact h.id_ok v s hv

/-- the first value of the range shown as `t` -/
theorem asEnumRange_eq (h : Writes c path id) {t : List Nat} (ht : ∀ x ∈ t, x ≠ 0) (k : Nat) : ∀ l hi, hi - l ≤ k →
    ∃ r, c.asEnumRange (t ++ [0]) l hi = some r ∧
      (∀ v, r = some v → l ≤ v ∧ v < hi ∧ ∃ s, id v = some s ∧ shown path s = t) ∧
      (r = none → ∀ v s, l ≤ v → v < hi → id v = some s → shown path s ≠ t) := by
  induction k with
  | zero =>
    intro l hi hk
    refine ⟨none, ?_, fun v hv => (by cases hv), fun _ v s h1 h2 => by omega⟩
    rw [Compiler.asEnumRange, if_neg (by omega), if_neg (by omega)]
  | succ k ih =>
    intro l hi hk
    rw [Compiler.asEnumRange]
    by_cases h64 : hi - l > 64
    · rw [if_pos h64]
      dsimp only
      obtain ⟨r1, e1, g1, b1⟩ := ih l (l + (hi - l) / 2) (by omega)
      obtain ⟨r2, e2, g2, b2⟩ := ih (l + (hi - l) / 2) hi (by omega)
      rw [e1]
      cases r1 with
      | some v =>
        refine ⟨some v, rfl, fun w hw => ?_, fun h => (by cases h)⟩
        have := g1 w hw
        exact ⟨this.1, by omega, this.2.2⟩
      | none =>
        refine ⟨r2, e2, fun w hw => ?_, fun h0 v s h1 h2 h3 => ?_⟩
        · have := g2 w hw
          exact ⟨by omega, this.2⟩
        · by_cases hv : v < l + (hi - l) / 2
          · exact b1 rfl v s h1 hv h3
          · exact b2 h0 v s (by omega) h2 h3
    · rw [if_neg h64]
      by_cases hlt : l < hi
      · rw [if_pos hlt]
        obtain ⟨r, e, g, b⟩ := ih (l + 1) hi (by omega)
        -- when the first does not match
        have miss : (∀ s, id l = some s → shown path s ≠ t) →
            (∀ v, r = some v → l ≤ v ∧ v < hi ∧ ∃ s, id v = some s ∧ shown path s = t) ∧
            (r = none → ∀ v s, l ≤ v → v < hi → id v = some s → shown path s ≠ t) := by
          intro hm
          refine ⟨fun v hv => ?_, fun h0 v s h1 h2 h3 => ?_⟩
          · have := g v hv
            exact ⟨by omega, this.2⟩
          · by_cases hv : v = l
            · subst hv; exact hm s h3
            · exact b h0 v s (by omega) h2 h3
        cases hid : id l with
        | none =>
          rw [entry_unnamed h hid]
          exact ⟨r, e, miss (fun s hs => by rw [hid] at hs; cases hs)⟩
        | some s =>
          rw [entry_named h hid]
          obtain ⟨k', hk', hc⟩ := same_texts (shown_nz h hid) ht
          show ∃ r, (do
            let k ← same (shown path s ++ [0]) (t ++ [0])
            _) = some r ∧ _
          rw [hk']
          show ∃ r, (if k' = (shown path s ++ [0]).length - 1 then _ else _) = some r ∧ _
          have hlen : (shown path s ++ [0]).length - 1 = (shown path s).length := by simp
          rw [hlen]
          rcases hc with ⟨h1, z, h2, h3⟩ | ⟨h1, h2⟩
          · rw [if_pos h1]
            show ∃ r, (do
              let z ← (t ++ [0])[k']?
              _) = some r ∧ _
            rw [h2]
            show ∃ r, (if z = 0 then _ else _) = some r ∧ _
            by_cases hz : z = 0
            · rw [if_pos hz]
              refine ⟨some l, rfl, fun v hv => ?_, fun h => (by cases h)⟩
              cases hv
              exact ⟨Nat.le_refl _, hlt, s, hid, h3.1 hz⟩
            · rw [if_neg hz]
              exact ⟨r, e, miss (fun s' hs' he => by rw [hid] at hs'; cases hs'; exact hz (h3.2 he))⟩
          · rw [if_neg h1]
            exact ⟨r, e, miss (fun s' hs' he => by rw [hid] at hs'; cases hs'; exact h2 he)⟩
      · rw [if_neg hlt]
        exact ⟨none, rfl, fun v hv => (by cases hv), fun _ v s h1 h2 => by omega⟩

theorem qualified_inj {t : List (List Nat)} {a b : List Nat} (h : qualified (t ++ [a]) = qualified (t ++ [b])) : a = b := by
  induction t with
  | nil => exact h
  | cons s t ih =>
    rw [List.cons_append, List.cons_append, qualified_cons (by simp), qualified_cons (by simp)] at h
    have := List.append_cancel_left h
    injection this with _ this
    injection this with _ this
    exact ih this

end CE.Nameof
