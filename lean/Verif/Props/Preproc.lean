import Verif.Proof.PreprocUse
/-! C104: the macros for checks and logging. -/
namespace CE.Preproc
set_option maxRecDepth 4000

/-! ### selecting arguments -/

theorem sep_cons {x xs} (h : xs ≠ []) : sep (x :: xs) = x ++ .comma :: sep xs := by
  cases xs with
  | nil => exact absurd rfl h
  | cons y ys => rfl

theorem depth_cons (d : Nat) (t : Tok) (ts : List Tok) : depth d (t :: ts) =
    match t.kind with
    | .lp => depth (d + 1) ts
    | .rp => match d with
      | 0 => none
      | d + 1 => depth d ts
    | _ => depth d ts := by rw [depth.eq_def]; rfl

theorem depth_append {a b} : ∀ {d e}, depth d a = some e → depth d (a ++ b) = depth e b := by
  induction a with
  | nil => intro d e h; injection h with h; subst h; rfl
  | cons t a ih =>
    intro d e h
    rw [List.cons_append, depth_cons]
    rw [depth_cons] at h
    cases hk : t.kind with
    | rp =>
      rw [hk] at h
      cases d with
      | zero => cases h
      | succ d => exact ih h
    | _ => rw [hk] at h; exact ih h

theorem sep_balanced {xs : List (List Kind)} (h : ∀ x ∈ xs, OneArg x) : Balanced ((sep xs).map tok) := by
  induction xs with
  | nil => rfl
  | cons x xs ih =>
    by_cases hx : xs = []
    · subst hx
      exact closed_balanced (h x List.mem_cons_self).1
    · rw [sep_cons hx, List.map_append]
      unfold Balanced
      rw [depth_append (closed_balanced (h x List.mem_cons_self).1)]
      exact ih fun y hy => h y (List.mem_cons_of_mem _ hy)

theorem sep_ordinary {c : Config} {xs : List (List Kind)} (h : ∀ x ∈ xs, Ordinary c x) : Ordinary c (sep xs) := by
  induction xs with
  | nil => intro s hs; cases hs
  | cons x xs ih =>
    by_cases hx : xs = []
    · subst hx
      exact h x List.mem_cons_self
    · rw [sep_cons hx]
      intro s hs
      rcases List.mem_append.1 hs with hs | hs
      · exact h x List.mem_cons_self s hs
      · rcases List.mem_cons.1 hs with hs | hs
        · cases hs
        · exact ih (fun y hy => h y (List.mem_cons_of_mem _ hy)) s hs

theorem actuals_sep {xs : List (List Kind)} : ∀ {n}, n + 1 ≤ xs.length → (∀ x ∈ xs, OneArg x) →
    actuals (n + 1) true ((sep xs).map tok) =
      some ((xs.take (n + 1)).map (·.map tok) ++ [(sep (xs.drop (n + 1))).map tok]) := by
  induction xs with
  | nil => intro n hn; simp at hn
  | cons x xs ih =>
    intro n hn h
    have h1 := oneArg_single (h x List.mem_cons_self)
    by_cases hx : xs = []
    · subst hx
      have : n = 0 := by simp at hn; omega
      subst this
      exact actuals_none h1.2
    · rw [sep_cons hx, List.map_append, List.map_cons]
      have hc : cut 0 (x.map tok ++ tok .comma :: (sep xs).map tok) = some (x.map tok, (sep xs).map tok) := by
        rw [cut_single h1, cut_cons]
        simp [tok]
      cases n with
      | zero =>
        rw [actuals_step hc (by simp) actuals_va]
        simp
      | succ n =>
        have hl : n + 1 ≤ xs.length := by simp at hn; omega
        rw [actuals_step hc (by simp) (ih hl fun y hy => h y (List.mem_cons_of_mem _ hy))]
        simp

theorem all2_plain {env : String → Option Macro} : ∀ {l : List (List Tok)}, (∀ a ∈ l, Plain env a) → All2 env l l := by
  intro l
  induction l with
  | nil => intro _; exact .nil
  | cons a l ih => intro h; exact .cons (E_seg' (h a List.mem_cons_self)) (ih fun b hb => h b (List.mem_cons_of_mem _ hb))

theorem sep_all2 {c : Config} {xs : List (List Kind)} (h : ∀ x ∈ xs, Ordinary c x) (n : Nat) :
    All2 (macros c) ((xs.take n).map (·.map tok) ++ [(sep (xs.drop n)).map tok])
      ((xs.take n).map (·.map tok) ++ [(sep (xs.drop n)).map tok]) := by
  apply all2_plain
  intro a ha
  rcases List.mem_append.1 ha with ha | ha
  · obtain ⟨x, hx, rfl⟩ := List.mem_map.1 ha
    exact ordinary_plain (h x (List.mem_of_mem_take hx))
  · rw [List.mem_singleton] at ha
    subst ha
    exact ordinary_plain (sep_ordinary fun x hx => h x (List.mem_of_mem_drop hx))

theorem gather_use {a : List Tok} (ha : Balanced a) : gather 0 (a ++ [⟨.rp, []⟩]) = some (a, ⟨.rp, []⟩, []) := by
  rw [gather_bal ha, gather_end]
  simp

/-- the names of the macros that select an argument -/
def getName : List String :=
  ["CE_PP_GET_0", "CE_PP_GET_1", "CE_PP_GET_2", "CE_PP_GET_3", "CE_PP_GET_4", "CE_PP_GET_5", "CE_PP_GET_6", "CE_PP_GET_7"]

theorem get_use {c : Config} {s : String} {k : Nat} (hs : macros c s = va (k + 1) [.arg k]) {xs : List (List Kind)}
    (h1 : ∀ x ∈ xs, Ordinary c x) (h2 : ∀ x ∈ xs, OneArg x) (hk : k < xs.length) : Expands c (use s (sep xs)) xs[k] := by
  have hb := sep_balanced h2
  have hp := sep_all2 h1 (k + 1)
  have hx := ordinary_plain (h1 xs[k] (List.getElem_mem hk))
  have hlen : ((xs.take (k + 1)).map (·.map tok) ++ [(sep (xs.drop (k + 1))).map tok])[k]? = some (xs[k].map tok) := by
    rw [List.getElem?_append_left (by simp; omega), List.getElem?_map, List.getElem?_take, if_pos (by omega),
      List.getElem?_eq_getElem hk]
    rfl
  apply expands_of
  case h =>
    simp only [use, List.map_cons, List.map_append, List.map_nil, tok]
    apply E_call
    case hs => exact hs
    case hh => rfl
    case hg => exact gather_use hb
    case ha => exact actuals_sep hk h2
    case hf => exact hp
    case hb =>
      simp only [subst, substItem]
      rw [hlen]
      rfl
    case hi => rfl
    case hE => simp only [List.append_nil]; exact E_seg' (hideAll_plain hx)
  case hk => rw [hideAll_kind, tok_kind]

/-- **C104.** `CE_PP_GET_k` is its argument number `k`. -/
theorem C104_get {c : Config} {k : Nat} (hk : k < 8) {xs : List (List Kind)}
    (h1 : ∀ x ∈ xs, Ordinary c x) (h2 : ∀ x ∈ xs, OneArg x) (hx : k < xs.length) :
    Expands c (use (getName[k]'hk) (sep xs)) xs[k] := by
  refine get_use ?_ h1 h2 hx
  match k, hk with
  | 0, _ => rfl
  | 1, _ => rfl
  | 2, _ => rfl
  | 3, _ => rfl
  | 4, _ => rfl
  | 5, _ => rfl
  | 6, _ => rfl
  | 7, _ => rfl

/-- **C104.** `CE_PP_MAP` applies its first argument to each of the next seven and to all the others together. -/
theorem C104_map {c : Config} {m : String} (hm : macros c m = none) {x0 x1 x2 x3 x4 x5 x6 : List Kind} {xs : List (List Kind)}
    (h1 : ∀ x ∈ [x0, x1, x2, x3, x4, x5, x6] ++ xs, Ordinary c x) (h2 : ∀ x ∈ [x0, x1, x2, x3, x4, x5, x6] ++ xs, OneArg x) :
    Expands c (use "CE_PP_MAP" (sep ([.id m] :: x0 :: x1 :: x2 :: x3 :: x4 :: x5 :: x6 :: xs)))
      (use m x0 ++ use m x1 ++ use m x2 ++ use m x3 ++ use m x4 ++ use m x5 ++ use m x6 ++ use m (sep xs)) := by
  have h1' : ∀ x ∈ [.id m] :: ([x0, x1, x2, x3, x4, x5, x6] ++ xs), Ordinary c x := by
    intro x hx
    rcases List.mem_cons.1 hx with rfl | hx
    · intro s hs
      rw [List.mem_singleton] at hs
      injection hs with hs
      rw [hs, hm]
    · exact h1 x hx
  have h2' : ∀ x ∈ [.id m] :: ([x0, x1, x2, x3, x4, x5, x6] ++ xs), OneArg x := by
    intro x hx
    rcases List.mem_cons.1 hx with rfl | hx
    · refine ⟨rfl, ?_⟩
      intro x y e
      cases x with
      | nil => simp at e
      | cons a x => simp at e
    · exact h2 x hx
  have hb := sep_balanced h2'
  have hp := sep_all2 h1' 8
  have ha := actuals_sep (n := 7) (xs := [.id m] :: ([x0, x1, x2, x3, x4, x5, x6] ++ xs)) (by simp) h2'
  have t0 := ordinary_plain (h1 x0 (by simp))
  have t1 := ordinary_plain (h1 x1 (by simp))
  have t2 := ordinary_plain (h1 x2 (by simp))
  have t3 := ordinary_plain (h1 x3 (by simp))
  have t4 := ordinary_plain (h1 x4 (by simp))
  have t5 := ordinary_plain (h1 x5 (by simp))
  have t6 := ordinary_plain (h1 x6 (by simp))
  have t7 := ordinary_plain (sep_ordinary fun x hx => h1 x (List.mem_append_right _ hx))
  simp only [List.cons_append, List.nil_append, List.take_succ_cons, List.take_zero, List.drop_succ_cons, List.drop_zero,
    List.map_cons, List.map_nil, Nat.reduceAdd] at hb hp ha
  clear h1 h2 h1' h2'
  apply expands_of
  case h =>
    simp only [use, List.map_cons, List.map_append, List.map_nil, tok]
    apply E_call
    case hs => rfl
    case hh => rfl
    case hg => exact gather_use hb
    case ha => exact ha
    case hf => exact hp
    case hb => simp only [tok]; pp_subst; rfl
    case hi => rfl
    case hE => pp_norm; repeat pp
  case hk => simp only [use]; pp_kinds

/-- **C104.** Macro expansion has one result. -/
theorem C104_unique {c : Config} {a ks ks' : List Kind} (h1 : Expands c a ks) (h2 : Expands c a ks') : ks = ks' := by
  obtain ⟨f, out, e, rfl⟩ := h1
  obtain ⟨f', out', e', rfl⟩ := h2
  rw [E.unique (env := macros c) ⟨f, e⟩ ⟨f', e'⟩]

/-- **C104.** `CE_ASSERT`, `CE_VERIFY` and `CE_REJECT` with a test and further arguments. -/
theorem C104_checks_partial {c : Config} (hu : ∀ s ∈ words, c.user s = none) {test a : List Kind} (h1 : Ordinary c test)
    (h2 : OneArg test) (h3 : Ordinary c a) (h4 : Closed a) :
    Expands c (use "CE_ASSERT" (test ++ more a)) ([.lp, i "void", .rp, .lp] ++ check c "CE_ASSERT" test a ++ [.rp]) ∧
    Expands c (use "CE_VERIFY" (test ++ more a)) ([.lp] ++ check c "CE_VERIFY" test a ++ [.rp]) ∧
    Expands c (use "CE_REJECT" (test ++ more a)) ([p "!", .lp, p "!"] ++ check c "CE_REJECT" test a ++ [.rp]) := by
  cases he : c.err with
  | true => exact ⟨assert_on he hu h1 h2 h3 h4, verify_on he hu h1 h2 h3 h4, reject_on he hu h1 h2 h3 h4⟩
  | false => exact ⟨assert_off he hu h1 h2 h3 h4, verify_off he hu h1 h2 h3 h4, reject_off he hu h1 h2 h3 h4⟩

/-- **C104.** `CE_ERROR`. -/
theorem C104_error {c : Config} (hu : ∀ s ∈ words, c.user s = none) {a : List Kind} (h3 : Ordinary c a) (h4 : Closed a) :
    Expands c (use "CE_ERROR" a)
      ([.lp, .lp, i "void", .rp] ++ report c "CE_ERROR" (.str "") a ++ [.comma, i "CE_DEBUG_BREAK", .lp, .rp, .rp]) :=
  error_use hu h3 h4

/-- the eight levels -/
theorem level_known {c : Config} {lv n : String} (h : (lv, n) ∈ levels) :
    macros c ("_CE_LOG_" ++ lv) = obj [o "~", cm, .tok (.num n)] ∧ ("_CE_LOG_" ++ lv == "_CE_LOG_LVL") = false ∧
    ("_CE_LOG_" ++ lv == "CE_LOG") = false ∧ ("_CE_LOG_" ++ lv == "CE_LOG_MSG") = false := by
  simp only [levels, List.mem_cons, Prod.mk.injEq, List.not_mem_nil, or_false] at h
  rcases h with h | h | h | h | h | h | h | h <;> obtain ⟨rfl, rfl⟩ := h <;> exact ⟨rfl, by decide, by decide, by decide⟩

/-- **C104.** `CE_LOG` with one of the levels. -/
theorem C104_log {c : Config} (hu : ∀ s ∈ words, c.user s = none) {lv n : String} (hn : (lv, n) ∈ levels)
    (hv : macros c lv = none) {a : List Kind} (h3 : Ordinary c a) (h4 : Closed a) :
    Expands c (use "CE_LOG" ([.id lv] ++ more a)) (logCall c n [.str "$,", shown a] ([shown [.id lv]] ++ more a)) := by
  obtain ⟨k1, k2, k3, k4⟩ := level_known (c := c) hn
  cases hl : c.log with
  | true => exact log_on_known hl hu hv k1 k2 k3 k4 h3 h4
  | false => exact log_off_known hl hu hv k1 k2 k3 k4 h3 h4

/-- **C104.** `CE_LOG_MSG` with one of the levels. -/
theorem C104_msg {c : Config} (hu : ∀ s ∈ words, c.user s = none) {lv n : String} (hn : (lv, n) ∈ levels)
    (hv : macros c lv = none) {a : List Kind} (h3 : Ordinary c a) (h4 : Closed a) :
    Expands c (use "CE_LOG_MSG" ([.id lv] ++ more a)) (logCall c n [.str "$,$msg"]
      ([shown [.id lv], .comma, i "ce", p "::", i "as_string", p "{"] ++ a ++ [p "}", p ".", i "as"])) := by
  obtain ⟨k1, k2, k3, k4⟩ := level_known (c := c) hn
  cases hl : c.log with
  | true => exact log_msg_on_known hl hu hv k1 k2 k3 k4 h3 h4
  | false => exact log_msg_off_known hl hu hv k1 k2 k3 k4 h3 h4

/-- the names of the macros -/
def macroNames : List String :=
  ["CE_LOG_LEVEL", "__FILE__", "__LINE__", "CE_FILELINE_EX", "CE_FILELINE", "_CE_ERROR", "CE_AFFIRM", "CE_ERROR", "CE_ASSERT",
   "CE_VERIFY", "CE_REJECT", "CE_COUNTOF", "CE_COUNTOF_ARGS", "CE_REF", "CE_PP_JOIN", "CE_PP_PASS", "CE_PP_KILL", "CE_PP_ARGS",
   "CE_PP_CALL", "CE_PP_TEXT", "CE_PP_GET_0", "CE_PP_GET_1", "CE_PP_GET_2", "CE_PP_GET_3", "CE_PP_GET_4", "CE_PP_GET_5",
   "CE_PP_GET_6", "CE_PP_GET_7", "CE_PP_MAP", "CE_PP_WHEN_0", "CE_PP_WHEN_1", "CE_PP_WHEN", "CE_AS_NAMES_EX", "_CE_LOG_fatal",
   "_CE_LOG_error", "_CE_LOG_warn", "_CE_LOG_note", "_CE_LOG_info", "_CE_LOG_debug", "_CE_LOG_spam", "_CE_LOG_more",
   "_CE_LOG_LVL", "CE_LOG_EX", "CE_LOG", "CE_LOG_MSG"]

theorem macros_user {c : Config} {s : String} (h : s ∉ macroNames) : macros c s = c.user s := by
  unfold macros
  split <;> first | rfl | exact absurd (by decide) h

theorem level_name {lv : String} (h : "_CE_LOG_" ++ lv ∈ macroNames) : lv = "LVL" ∨ lv ∈ levels.map (·.1) := by
  have key : ∀ s ∈ macroNames, s.toList.take 8 = "_CE_LOG_".toList →
      s.toList.drop 8 ∈ ("LVL" :: levels.map (·.1)).map (·.toList) := by decide
  have h1 := key _ h
  rw [String.toList_append, List.take_left' (by decide), List.drop_left' (by decide)] at h1
  have h2 := h1 rfl
  rw [List.mem_map] at h2
  obtain ⟨s, hs, e⟩ := h2
  rw [String.toList_inj] at e
  subst e
  exact List.mem_cons.1 hs

/-- **C104.** With any other name the level is 7, as for `more`. -/
theorem C104_other {c : Config} (hu : ∀ s ∈ words, c.user s = none) {lv : String} (hn : lv ∉ levels.map (·.1)) (hL : lv ≠ "LVL")
    (hlv : c.user ("_CE_LOG_" ++ lv) = none) (hv : macros c lv = none) {a : List Kind} (h3 : Ordinary c a) (h4 : Closed a) :
    Expands c (use "CE_LOG" ([.id lv] ++ more a)) (logCall c "7" [.str "$,", shown a] ([shown [.id lv]] ++ more a)) ∧
    Expands c (use "CE_LOG_MSG" ([.id lv] ++ more a)) (logCall c "7" [.str "$,$msg"]
      ([shown [.id lv], .comma, i "ce", p "::", i "as_string", p "{"] ++ a ++ [p "}", p ".", i "as"])) := by
  have hk : macros c ("_CE_LOG_" ++ lv) = none := by
    rw [macros_user, hlv]
    intro h
    rcases level_name h with h | h
    · exact hL h
    · exact hn h
  cases hl : c.log with
  | true => exact ⟨log_on_other (n := "") hl hu hv hk h3 h4, log_msg_on_other (n := "") hl hu hv hk h3 h4⟩
  | false => exact ⟨log_off_other (n := "") hl hu hv hk h3 h4, log_msg_off_other (n := "") hl hu hv hk h3 h4⟩

/-! ### examples -/

/-- checks and logging on, no macros of the program -/
def conf : Config := ⟨true, true, "a.cpp", "7", fun _ => none⟩
/-- the same with `#define MAX 100` -/
def confMax : Config := ⟨true, true, "a.cpp", "7", fun s => if s = "MAX" then obj [.tok (.num "100")] else none⟩

/-- `x < MAX` -/
def lessMax : List Kind := [i "x", p "<", i "MAX"]
/-- `same<a, b>` -/
def same : List Kind := [i "same", p "<", i "a", .comma, i "b", p ">"]

theorem oneArg_of {a : List Kind} (h1 : Closed a) (h2 : Kind.comma ∉ a) : OneArg a :=
  ⟨h1, fun x y e => absurd (by rw [e]; simp) h2⟩

theorem not_shown {c : Config} {a : List Kind} {k : Kind} {f : Nat}
    (h : (expand (macros c) f (a.map tok)).map (fun r => decide (k ∈ r.map (·.kind))) = some false) :
    ¬ ∃ ks, Expands c a ks ∧ k ∈ ks := by
  rintro ⟨ks, h1, h2⟩
  rw [Option.map_eq_some_iff] at h
  obtain ⟨out, e, hk⟩ := h
  rw [decide_eq_false_iff_not] at hk
  exact hk (C104_unique ⟨f, out, e, rfl⟩ h1 ▸ h2)

/-- **C104.** The report of a failed check does not always show the test as it is written: macros in it have been expanded. -/
theorem C104_text_false : ¬ ∀ (c : Config) (test : List Kind), (∀ s ∈ words, c.user s = none) → OneArg test →
    ∃ ks, Expands c (use "CE_ASSERT" test) ks ∧ shown test ∈ ks := by
  intro h
  exact not_shown (f := 99) (by decide +kernel) (h confMax lessMax (by decide) (oneArg_of rfl (by decide)))

/-- **C104.** A test with a comma that is not in parentheses is taken for a test and an argument. -/
theorem C104_comma_false : ¬ ∀ (c : Config) (test : List Kind), (∀ s ∈ words, c.user s = none) → Ordinary c test → Closed test →
    ∃ ks, Expands c (use "CE_ASSERT" test) ks ∧ shown test ∈ ks := by
  intro h
  exact not_shown (f := 99) (by decide +kernel) (h conf same (by decide) (by
    intro s hs
    simp only [same, i, p, List.mem_cons, Kind.id.injEq, reduceCtorEq, List.not_mem_nil, or_false, false_or] at hs
    rcases hs with rfl | rfl | rfl <;> rfl) rfl)

/-- the test is shown if it has no macros -/
example : ∃ ks, Expands conf (use "CE_ASSERT" lessMax) ks ∧ shown lessMax ∈ ks := by
  have h := (C104_checks_partial (c := conf) (test := lessMax) (a := []) (by decide) (by
    intro s hs
    simp only [lessMax, i, p, List.mem_cons, Kind.id.injEq, reduceCtorEq, List.not_mem_nil, or_false, false_or] at hs
    rcases hs with rfl | rfl <;> rfl) (oneArg_of rfl (by decide)) (by intro s hs; cases hs) rfl).1
  exact ⟨_, h, by decide⟩

/-- and by the log even if it has -/
example : (expand (macros confMax) 400 ((use "CE_LOG" ([i "info"] ++ more lessMax)).map tok)).map
    (fun r => decide (shown lessMax ∈ r.map (·.kind))) = some true := by decide +kernel

example : Expands conf (use "CE_LOG" [i "warn", .comma, i "x"]) (logCall conf "2" [.str "$,", .text ["x"]] [.text ["warn"], .comma, i "x"]) :=
  C104_log (c := conf) (lv := "warn") (a := [i "x"]) (by decide) (by decide) rfl
    (by intro s hs; simp only [i, List.mem_singleton, Kind.id.injEq] at hs; subst hs; rfl) rfl

example : Expands conf (use "CE_PP_GET_1" [i "a", .comma, .lp, i "b", .comma, i "c", .rp]) [.lp, i "b", .comma, i "c", .rp] := by
  refine C104_get (k := 1) (by decide) (xs := [[i "a"], [.lp, i "b", .comma, i "c", .rp]]) ?_ ?_ (by decide)
  · intro x hx s hs
    simp only [List.mem_cons, List.not_mem_nil, or_false] at hx
    rcases hx with rfl | rfl
    · simp only [i, List.mem_singleton, Kind.id.injEq] at hs; subst hs; rfl
    · simp only [i, List.mem_cons, Kind.id.injEq, reduceCtorEq, List.not_mem_nil, or_false, false_or] at hs
      rcases hs with rfl | rfl <;> rfl
  · intro x hx
    simp only [List.mem_cons, List.not_mem_nil, or_false] at hx
    rcases hx with rfl | rfl
    · exact oneArg_of rfl (by decide)
    · refine ⟨rfl, ?_⟩
      intro x y e hx
      rcases x with _ | ⟨a, _ | ⟨b, _ | ⟨d, x⟩⟩⟩
      · cases e
      · cases e
      · injection e with e1 e; injection e with e2 e; subst e1 e2; cases hx
      · injection e with e1 e; injection e with e2 e; injection e with e3 e
        subst e1 e2 e3
        rcases x with _ | ⟨a, _ | ⟨b, x⟩⟩
        · cases e
        · cases e
        · simp at e

end CE.Preproc
