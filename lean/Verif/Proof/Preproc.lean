import Verif.Model.Preproc
/-! Macro expansion with symbolic arguments. -/
namespace CE.Preproc

variable {env : String → Option Macro}

/-! ### expansion without counting steps -/

/-- the tokens expand to these -/
def E (env : String → Option Macro) (ts out : List Tok) : Prop := ∃ f, expand env f ts = some out

theorem mapAll_mono {F G : List Tok → Option (List Tok)} (h : ∀ a b, F a = some b → G a = some b) :
    ∀ {as bs}, mapAll F as = some bs → mapAll G as = some bs := by
  intro as
  induction as with
  | nil => intro bs hb; exact hb
  | cons a as ih =>
    intro bs hb
    unfold mapAll at hb ⊢
    rw [Option.bind_eq_some_iff] at hb ⊢
    obtain ⟨b, h1, h2⟩ := hb
    rw [Option.map_eq_some_iff] at h2
    obtain ⟨cs, h3, h4⟩ := h2
    exact ⟨b, h a b h1, by rw [ih h3]; exact congrArg some h4⟩

theorem expand_succ : ∀ {f ts out}, expand env f ts = some out → expand env (f + 1) ts = some out := by
  intro f
  induction f with
  | zero => intro ts out h; cases h
  | succ f ih =>
    intro ts out h
    cases ts with
    | nil => exact h
    | cons t ts =>
      have skip : (expand env f ts).map (t :: ·) = some out → (expand env (f + 1) ts).map (t :: ·) = some out := by
        intro h
        rw [Option.map_eq_some_iff] at h ⊢
        obtain ⟨o, h1, h2⟩ := h
        exact ⟨o, ih h1, h2⟩
      unfold expand at h ⊢
      cases hk : t.kind with
      | id s =>
        rw [hk] at h
        dsimp only at h ⊢
        by_cases hh : t.hide.contains s = true
        · rw [if_pos hh] at h ⊢; exact skip h
        · rw [if_neg hh] at h ⊢
          cases he : env s with
          | none => rw [he] at h; exact skip h
          | some m =>
            rw [he] at h
            dsimp only at h ⊢
            cases hp : m.params with
            | none =>
              rw [hp] at h
              dsimp only at h ⊢
              rw [Option.bind_eq_some_iff] at h ⊢
              obtain ⟨b, h1, h2⟩ := h
              exact ⟨b, h1, ih h2⟩
            | some p =>
              obtain ⟨n, va⟩ := p
              rw [hp] at h
              dsimp only at h ⊢
              split at h
              · next ts' =>
                rw [Option.bind_eq_some_iff] at h ⊢
                obtain ⟨r, h1, h⟩ := h
                refine ⟨r, h1, ?_⟩
                rw [Option.bind_eq_some_iff] at h ⊢
                obtain ⟨raw, h2, h⟩ := h
                refine ⟨raw, h2, ?_⟩
                rw [Option.bind_eq_some_iff] at h ⊢
                obtain ⟨full, h3, h⟩ := h
                refine ⟨full, mapAll_mono (fun a b h => ih h) h3, ?_⟩
                rw [Option.bind_eq_some_iff] at h ⊢
                obtain ⟨b, h4, h⟩ := h
                exact ⟨b, h4, ih h⟩
              · exact skip h
      | lp => rw [hk] at h; exact skip h
      | rp => rw [hk] at h; exact skip h
      | comma => rw [hk] at h; exact skip h
      | op s => rw [hk] at h; exact skip h
      | num s => rw [hk] at h; exact skip h
      | str s => rw [hk] at h; exact skip h
      | text s => rw [hk] at h; exact skip h

theorem expand_mono {f g ts out} (h : expand env f ts = some out) (hle : f ≤ g) : expand env g ts = some out := by
  induction hle with
  | refl => exact h
  | step _ ih => exact expand_succ ih

/-- the expansion is unique -/
theorem E.unique {ts a b} (h1 : E env ts a) (h2 : E env ts b) : a = b := by
  obtain ⟨f, h1⟩ := h1
  obtain ⟨g, h2⟩ := h2
  have h1 := expand_mono h1 (Nat.le_max_left f g)
  have h2 := expand_mono h2 (Nat.le_max_right f g)
  rw [h1] at h2
  injection h2

/-! ### rules -/

theorem E_nil : E env [] [] := ⟨1, rfl⟩

theorem E_tok {k h ts out} (hk : ∀ s, k ≠ .id s) (hE : E env ts out) : E env (⟨k, h⟩ :: ts) (⟨k, h⟩ :: out) := by
  obtain ⟨f, hf⟩ := hE
  refine ⟨f + 1, ?_⟩
  unfold expand
  cases k with
  | id s => exact absurd rfl (hk s)
  | lp => rw [hf]; rfl
  | rp => rw [hf]; rfl
  | comma => rw [hf]; rfl
  | op s => rw [hf]; rfl
  | num s => rw [hf]; rfl
  | str s => rw [hf]; rfl
  | text s => rw [hf]; rfl

theorem E_id {s h ts out} (hs : env s = none) (hE : E env ts out) : E env (⟨.id s, h⟩ :: ts) (⟨.id s, h⟩ :: out) := by
  obtain ⟨f, hf⟩ := hE
  refine ⟨f + 1, ?_⟩
  unfold expand
  dsimp only
  rw [hs, hf]
  split <;> rfl

/-- the name of a function-like macro without arguments -/
theorem E_name {s h ts out m} (hs : env s = some m) (hm : m.params.isSome = true) (hts : ∀ g r, ts ≠ ⟨.lp, g⟩ :: r)
    (hE : E env ts out) : E env (⟨.id s, h⟩ :: ts) (⟨.id s, h⟩ :: out) := by
  obtain ⟨f, hf⟩ := hE
  refine ⟨f + 1, ?_⟩
  unfold expand
  dsimp only
  rw [hs]
  obtain ⟨p, hp⟩ := Option.isSome_iff_exists.1 hm
  obtain ⟨n, va⟩ := p
  split
  · rw [hf]; rfl
  · dsimp only
    rw [hp]
    dsimp only
    split
    · next g r => exact absurd rfl (hts g r)
    · rw [hf]; rfl

theorem E_obj {s h ts out body b} (hs : env s = some ⟨none, body⟩) (hh : h.contains s = false)
    (hb : subst [] [] body = some b) (hE : E env (hideAll (s :: h) b ++ ts) out) : E env (⟨.id s, h⟩ :: ts) out := by
  obtain ⟨f, hf⟩ := hE
  refine ⟨f + 1, ?_⟩
  unfold expand
  dsimp only
  rw [hs, hh]
  dsimp only
  rw [hb]
  exact hf

/-- the arguments expand to these -/
inductive All2 (env : String → Option Macro) : List (List Tok) → List (List Tok) → Prop
  | nil : All2 env [] []
  | cons {a b as bs} (h : E env a b) (hs : All2 env as bs) : All2 env (a :: as) (b :: bs)

theorem mapAll_E {raw full : List (List Tok)} (h : All2 env raw full) :
    ∃ f, mapAll (expand env f) raw = some full := by
  induction h with
  | nil => exact ⟨0, rfl⟩
  | @cons a b as bs h1 _ ih =>
    obtain ⟨f, h1⟩ := h1
    obtain ⟨g, h2⟩ := ih
    refine ⟨max f g, ?_⟩
    unfold mapAll
    rw [expand_mono h1 (Nat.le_max_left f g), mapAll_mono (fun a b h => expand_mono h (Nat.le_max_right f g)) h2]
    rfl

theorem E_call {s h g ts out n va body inner close rest raw full b h2}
    (hs : env s = some ⟨some (n, va), body⟩) (hh : h.contains s = false)
    (hg : gather 0 ts = some (inner, close, rest)) (ha : actuals n va inner = some raw)
    (hf : All2 env raw full) (hb : subst raw full body = some b) (hi : h.filter (close.hide.contains ·) = h2)
    (hE : E env (hideAll (s :: h2) b ++ rest) out) :
    E env (⟨.id s, h⟩ :: ⟨.lp, g⟩ :: ts) out := by
  obtain ⟨f, hf⟩ := mapAll_E hf
  obtain ⟨f', hE⟩ := hE
  refine ⟨max f f' + 1, ?_⟩
  unfold expand
  dsimp only
  rw [hs, hh]
  dsimp only
  rw [hg]
  dsimp only [Option.bind_some]
  rw [ha]
  dsimp only [Option.bind_some]
  rw [mapAll_mono (fun a b h => expand_mono h (Nat.le_max_left f f')) hf]
  dsimp only [Option.bind_some]
  rw [hb]
  dsimp only [Option.bind_some]
  rw [hi]
  exact expand_mono hE (Nat.le_max_right f f')

/-! ### segments written by the user -/

/-- tokens that are not macros -/
def Plain (env : String → Option Macro) (a : List Tok) : Prop := ∀ t ∈ a, ∀ s, t.kind = .id s → env s = none

/-- how many parentheses are open behind the tokens, `none` if one closes too many -/
def depth : Nat → List Tok → Option Nat
  | d, [] => some d
  | d, t :: ts =>
    match t.kind with
    | .lp => depth (d + 1) ts
    | .rp => match d with
      | 0 => none
      | d + 1 => depth d ts
    | _ => depth d ts

/-- every parenthesis is closed -/
def Balanced (a : List Tok) : Prop := depth 0 a = some 0

theorem E_seg {a ts out} (ha : Plain env a) (hE : E env ts out) : E env (a ++ ts) (a ++ out) := by
  induction a with
  | nil => exact hE
  | cons t a ih =>
    obtain ⟨k, h⟩ := t
    have ih := ih (fun t ht => ha t (List.mem_cons_of_mem _ ht))
    cases k with
    | id s => exact E_id (ha _ List.mem_cons_self s rfl) ih
    | lp => exact E_tok (fun s hs => (by cases hs)) ih
    | rp => exact E_tok (fun s hs => (by cases hs)) ih
    | comma => exact E_tok (fun s hs => (by cases hs)) ih
    | op s => exact E_tok (fun s hs => (by cases hs)) ih
    | num s => exact E_tok (fun s hs => (by cases hs)) ih
    | str s => exact E_tok (fun s hs => (by cases hs)) ih
    | text s => exact E_tok (fun s hs => (by cases hs)) ih

theorem E_seg' {a} (ha : Plain env a) : E env a a := by
  have := E_seg ha E_nil
  simpa using this

theorem hideAll_plain {h a} (ha : Plain env a) : Plain env (hideAll h a) := by
  intro t ht s hs
  unfold hideAll at ht
  rw [List.mem_map] at ht
  obtain ⟨u, hu, rfl⟩ := ht
  exact ha u hu s hs

theorem hideAll_depth {h} : ∀ {d a}, depth d (hideAll h a) = depth d a := by
  intro d a
  induction a generalizing d with
  | nil => rfl
  | cons t a ih =>
    unfold hideAll at ih ⊢
    rw [List.map_cons]
    unfold depth
    dsimp only
    cases t.kind with
    | rp => cases d with
      | zero => rfl
      | succ d => exact ih
    | _ => exact ih

theorem hideAll_balanced {h a} (ha : Balanced a) : Balanced (hideAll h a) := by
  unfold Balanced; rw [hideAll_depth]; exact ha

theorem gather_cons (d : Nat) (t : Tok) (ts : List Tok) : gather d (t :: ts) =
    match t.kind with
    | .rp => match d with
      | 0 => some ([], t, ts)
      | d + 1 => (gather d ts).map fun r => (t :: r.1, r.2)
    | .lp => (gather (d + 1) ts).map fun r => (t :: r.1, r.2)
    | _ => (gather d ts).map fun r => (t :: r.1, r.2) := by rw [gather.eq_def]; rfl

theorem cut_cons (d : Nat) (t : Tok) (ts : List Tok) : cut d (t :: ts) =
    match t.kind with
    | .comma => match d with
      | 0 => some ([], ts)
      | d + 1 => (cut (d + 1) ts).map fun r => (t :: r.1, r.2)
    | .lp => (cut (d + 1) ts).map fun r => (t :: r.1, r.2)
    | .rp => (cut (d - 1) ts).map fun r => (t :: r.1, r.2)
    | _ => (cut d ts).map fun r => (t :: r.1, r.2) := by rw [cut.eq_def]; rfl

theorem gather_seg {a r} : ∀ {d e e'}, depth d a = some e → gather (d + e') (a ++ r) = (gather (e + e') r).map fun x => (a ++ x.1, x.2) := by
  induction a with
  | nil =>
    intro d e e' h
    injection h with h
    subst h
    simp
  | cons t a ih =>
    intro d e e' h
    unfold depth at h
    have skip : ∀ {d'}, depth d' a = some e → (gather (d' + e') (a ++ r)).map (fun x => (t :: x.1, x.2)) =
        (gather (e + e') r).map fun x => (t :: a ++ x.1, x.2) := by
      intro d' h'
      rw [ih h', Option.map_map]
      rfl
    rw [List.cons_append, gather_cons]
    cases hk : t.kind with
    | rp =>
      rw [hk] at h
      dsimp only at h ⊢
      cases d with
      | zero => cases h
      | succ d =>
        rw [show d + 1 + e' = (d + e') + 1 by omega]
        exact skip h
    | lp =>
      rw [hk] at h
      dsimp only at h ⊢
      rw [show d + e' + 1 = (d + 1) + e' by omega]
      exact skip h
    | _ =>
      rw [hk] at h
      dsimp only at h ⊢
      exact skip h

theorem gather_bal {a r d} (ha : Balanced a) : gather d (a ++ r) = (gather d r).map fun x => (a ++ x.1, x.2) := by
  have := gather_seg (r := r) (e' := d) ha
  simpa using this

/-- no comma outside parentheses -/
def Single (a : List Tok) : Prop := Balanced a ∧ cut 0 a = none

theorem cut_seg {a r} : ∀ {d e}, depth d a = some e → cut d a = none → cut d (a ++ r) = (cut e r).map fun x => (a ++ x.1, x.2) := by
  induction a with
  | nil =>
    intro d e h _
    injection h with h
    subst h
    simp
  | cons t a ih =>
    intro d e h hc
    unfold depth at h
    rw [cut_cons] at hc
    have skip : ∀ {d'}, depth d' a = some e → (cut d' a).map (fun x => (t :: x.1, x.2)) = none →
        (cut d' (a ++ r)).map (fun x => (t :: x.1, x.2)) = (cut e r).map fun x => (t :: a ++ x.1, x.2) := by
      intro d' h' hc'
      rw [Option.map_eq_none_iff] at hc'
      rw [ih h' hc', Option.map_map]
      rfl
    rw [List.cons_append, cut_cons]
    cases hk : t.kind with
    | rp =>
      rw [hk] at h hc
      dsimp only at h hc ⊢
      cases d with
      | zero => cases h
      | succ d => exact skip h hc
    | comma =>
      rw [hk] at h hc
      dsimp only at h hc ⊢
      cases d with
      | zero => cases hc
      | succ d => exact skip h hc
    | _ =>
      rw [hk] at h hc
      dsimp only at h hc ⊢
      exact skip h hc

theorem cut_single {a r} (ha : Single a) : cut 0 (a ++ r) = (cut 0 r).map fun x => (a ++ x.1, x.2) := cut_seg ha.1 ha.2

theorem hideAll_cut {h} : ∀ {d a}, cut d (hideAll h a) = (cut d a).map fun x => (hideAll h x.1, hideAll h x.2) := by
  intro d a
  induction a generalizing d with
  | nil => rfl
  | cons t a ih =>
    obtain ⟨k, h0⟩ := t
    unfold hideAll at ih ⊢
    rw [List.map_cons, cut_cons, cut_cons]
    dsimp only
    cases k with
    | comma => cases d with
      | zero => rfl
      | succ d => dsimp only; rw [ih, Option.map_map, Option.map_map]; rfl
    | _ => dsimp only; rw [ih, Option.map_map, Option.map_map]; rfl

theorem hideAll_single {h a} (ha : Single a) : Single (hideAll h a) := by
  refine ⟨hideAll_balanced ha.1, ?_⟩
  rw [hideAll_cut, ha.2]; rfl

/-! ### normal forms -/

theorem hideAll_nil (h : List String) : hideAll h [] = [] := rfl
theorem hideAll_cons (h : List String) (k : Kind) (g : List String) (ts : List Tok) :
    hideAll h (⟨k, g⟩ :: ts) = ⟨k, h ++ g⟩ :: hideAll h ts := rfl
theorem hideAll_append (h : List String) (a b : List Tok) : hideAll h (a ++ b) = hideAll h a ++ hideAll h b := List.map_append
theorem hideAll_kind (h : List String) (a : List Tok) : (hideAll h a).map (·.kind) = a.map (·.kind) := by
  unfold hideAll; rw [List.map_map]; rfl
theorem hideAll_spell (h : List String) (a : List Tok) : (hideAll h a).map (·.kind.spell) = a.map (·.kind.spell) := by
  unfold hideAll; rw [List.map_map]; rfl

/-- the arguments behind a comma, or nothing if there are none -/
def commaThen (h : List String) (a : List Tok) : List Tok := if a.isEmpty then [] else ⟨.comma, h⟩ :: a

theorem hideAll_isEmpty (h : List String) (a : List Tok) : (hideAll h a).isEmpty = a.isEmpty := by
  cases a <;> rfl

theorem hideAll_comma (h g : List String) (a : List Tok) : hideAll h (commaThen g a) = commaThen (h ++ g) (hideAll h a) := by
  unfold commaThen
  rw [hideAll_isEmpty]
  split
  · rfl
  · rfl

theorem comma_plain {h a} (ha : Plain env a) : Plain env (commaThen h a) := by
  unfold commaThen
  split
  · intro t ht; cases ht
  · intro t ht s hs
    rcases List.mem_cons.1 ht with rfl | ht
    · cases hs
    · exact ha t ht s hs

theorem comma_balanced {h a} (ha : Balanced a) : Balanced (commaThen h a) := by
  unfold commaThen
  split
  · rfl
  · exact ha

theorem comma_kind {h a} : (commaThen h a).map (·.kind) = if a.isEmpty then [] else .comma :: a.map (·.kind) := by
  unfold commaThen
  split <;> rfl

/-- a first argument and others -/
theorem actuals_one {x h a} (hx : Single x) : actuals 1 true (x ++ commaThen h a) = some [x, a] := by
  unfold commaThen
  cases a with
  | nil =>
    simp only [List.isEmpty_nil, if_true, List.append_nil]
    unfold actuals
    rw [hx.2]
    rfl
  | cons t a =>
    simp only [List.isEmpty_cons, Bool.false_eq_true, if_false]
    unfold actuals
    rw [cut_single hx, cut_cons]
    simp [actuals]

theorem single_one {k h} (h1 : k ≠ .lp) (h2 : k ≠ .rp) (h3 : k ≠ .comma) : Single [⟨k, h⟩] := by
  refine ⟨?_, ?_⟩
  · cases k <;> first | rfl | contradiction
  · cases k <;> first | rfl | contradiction

/-- an argument of one token before others -/
theorem actuals_tok {k h g x n} (h1 : k ≠ .lp) (h2 : k ≠ .rp) (h3 : k ≠ .comma) :
    actuals (n + 2) true (⟨k, h⟩ :: ⟨.comma, g⟩ :: x) = (actuals (n + 1) true x).map ([⟨k, h⟩] :: ·) := by
  rw [actuals.eq_def]
  dsimp only
  rw [show (⟨k, h⟩ :: ⟨.comma, g⟩ :: x : List Tok) = [⟨k, h⟩] ++ ⟨.comma, g⟩ :: x from rfl, cut_single (single_one h1 h2 h3), cut_cons]
  simp

theorem actuals_last {k h g a} (h1 : k ≠ .lp) (h2 : k ≠ .rp) (h3 : k ≠ .comma) :
    actuals 1 true (⟨k, h⟩ :: commaThen g a) = some [[⟨k, h⟩], a] := actuals_one (single_one h1 h2 h3)

theorem actuals_va {a} : actuals 0 true a = some [a] := rfl

theorem actuals_two {x h g g' a s} (hx : Single x) :
    actuals 2 true (⟨.str s, h⟩ :: ⟨.comma, g⟩ :: (x ++ commaThen g' a)) = some [[⟨.str s, h⟩], x, a] := by
  rw [actuals_tok (n := 0) (by simp) (by simp) (by simp), actuals_one hx]
  rfl

theorem actuals_text {h g g' i a s l} :
    actuals 2 true (⟨.str s, h⟩ :: ⟨.comma, g⟩ :: ⟨.text l, i⟩ :: commaThen g' a) = some [[⟨.str s, h⟩], [⟨.text l, i⟩], a] :=
  actuals_two (single_one (by simp) (by simp) (by simp))

theorem actuals_str {h g g' i a s t} :
    actuals 2 true (⟨.str s, h⟩ :: ⟨.comma, g⟩ :: ⟨.str t, i⟩ :: commaThen g' a) = some [[⟨.str s, h⟩], [⟨.str t, i⟩], a] :=
  actuals_two (single_one (by simp) (by simp) (by simp))

theorem actuals_step {n va ts x r l} (hc : cut 0 ts = some (x, r)) (hn : ¬(n = 0 ∧ va = false)) (hr : actuals n va r = some l) :
    actuals (n + 1) va ts = some (x :: l) := by
  rw [actuals.eq_def]
  dsimp only
  rw [hc]
  dsimp only
  rw [if_neg hn, hr]
  rfl

theorem actuals_only {ts} (hc : cut 0 ts = none) : actuals 1 false ts = some [ts] := by
  rw [actuals.eq_def]
  dsimp only
  rw [hc]
  rfl

theorem actuals_none {ts} (hc : cut 0 ts = none) : actuals 1 true ts = some [ts, []] := by
  rw [actuals.eq_def]
  dsimp only
  rw [hc]
  rfl

theorem cut_bal_aux {a r} : ∀ {d e e'}, depth d a = some e → cut (d + (e' + 1)) (a ++ r) = (cut (e + (e' + 1)) r).map fun x => (a ++ x.1, x.2) := by
  induction a with
  | nil =>
    intro d e e' h
    injection h with h
    subst h
    simp
  | cons t a ih =>
    intro d e e' h
    unfold depth at h
    have skip : ∀ {d'}, depth d' a = some e → (cut (d' + (e' + 1)) (a ++ r)).map (fun x => (t :: x.1, x.2)) =
        (cut (e + (e' + 1)) r).map fun x => (t :: a ++ x.1, x.2) := by
      intro d' h'
      rw [ih h', Option.map_map]
      rfl
    rw [List.cons_append, cut_cons]
    cases hk : t.kind with
    | rp =>
      rw [hk] at h
      dsimp only at h ⊢
      cases d with
      | zero => cases h
      | succ d =>
        rw [show d + 1 + (e' + 1) - 1 = d + (e' + 1) by omega]
        exact skip h
    | lp =>
      rw [hk] at h
      dsimp only at h ⊢
      rw [show d + (e' + 1) + 1 = (d + 1) + (e' + 1) by omega]
      exact skip h
    | comma =>
      rw [hk] at h
      dsimp only at h ⊢
      exact skip h
    | _ =>
      rw [hk] at h
      dsimp only at h ⊢
      exact skip h

/-- inside parentheses commas do not separate -/
theorem cut_bal {a r d} (ha : Balanced a) : cut (d + 1) (a ++ r) = (cut (d + 1) r).map fun x => (a ++ x.1, x.2) := by
  have := cut_bal_aux (r := r) (e' := d) ha
  simpa using this

theorem hideAll_hideAll (h g : List String) (a : List Tok) : hideAll h (hideAll g a) = hideAll (h ++ g) a := by
  unfold hideAll
  rw [List.map_map]
  congr 1
  funext t
  simp [List.append_assoc]

theorem substComma (a : List Tok) : (if a.isEmpty then [] else ⟨.comma, []⟩ :: a : List Tok) = commaThen [] a := rfl

end CE.Preproc
