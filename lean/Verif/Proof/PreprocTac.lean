import Verif.Proof.Preproc
import Verif.Spec.Preproc
/-! Tactics that expand the library's macros with symbolic arguments. -/
namespace CE.Preproc

theorem word_none {c : Config} (hu : ∀ s ∈ words, c.user s = none) {s : String} (hs : s ∈ words) (hm : macros c s = c.user s) : macros c s = none := hm.trans (hu s hs)

theorem affirm_eq {c : Config} : macros c "CE_AFFIRM" = if c.err then
  va 2 [w "bool", o "{", .arg 1, o "}", o "||", w "_CE_ERROR", lp, .arg 0, cm, .text 1, .commaArg 2, rp, o "&&", lp,
      w "CE_DEBUG_BREAK", lp, rp, cm, w "false", rp] else va 2 [w "bool", o "{", .arg 1, o "}"] := rfl
theorem level_eq {c : Config} : macros c "CE_LOG_LEVEL" = obj [.tok (.num (if c.log then "1" else "0"))] := rfl
theorem affirm_on {c : Config} (h : c.err = true) : macros c "CE_AFFIRM" =
  va 2 [w "bool", o "{", .arg 1, o "}", o "||", w "_CE_ERROR", lp, .arg 0, cm, .text 1, .commaArg 2, rp, o "&&", lp,
      w "CE_DEBUG_BREAK", lp, rp, cm, w "false", rp] := by rw [affirm_eq, h]; rfl
theorem affirm_off {c : Config} (h : c.err = false) : macros c "CE_AFFIRM" = va 2 [w "bool", o "{", .arg 1, o "}"] := by
  rw [affirm_eq, h]; rfl
theorem level_on {c : Config} (h : c.log = true) : macros c "CE_LOG_LEVEL" = obj [.tok (.num "1")] := by rw [level_eq, h]; rfl
theorem level_off {c : Config} (h : c.log = false) : macros c "CE_LOG_LEVEL" = obj [.tok (.num "0")] := by rw [level_eq, h]; rfl

theorem E_two {env : String → Option Macro} {k h ts out} (hk : (match k with | Kind.id _ => false | _ => true) = true) (hE : E env ts out) : E env (⟨k, h⟩ :: ts) (⟨k, h⟩ :: out) :=
  E_tok (fun s hs => by subst hs; cases hk) hE

theorem gather_id {s : String} {d h ts} : gather d (⟨.id s, h⟩ :: ts) = (gather d ts).map fun r => (⟨.id s, h⟩ :: r.1, r.2) := gather_cons _ _ _
theorem gather_op {s : String} {d h ts} : gather d (⟨.op s, h⟩ :: ts) = (gather d ts).map fun r => (⟨.op s, h⟩ :: r.1, r.2) := gather_cons _ _ _
theorem gather_num {s : String} {d h ts} : gather d (⟨.num s, h⟩ :: ts) = (gather d ts).map fun r => (⟨.num s, h⟩ :: r.1, r.2) := gather_cons _ _ _
theorem gather_str {s : String} {d h ts} : gather d (⟨.str s, h⟩ :: ts) = (gather d ts).map fun r => (⟨.str s, h⟩ :: r.1, r.2) := gather_cons _ _ _
theorem gather_text {l : List String} {d h ts} : gather d (⟨.text l, h⟩ :: ts) = (gather d ts).map fun r => (⟨.text l, h⟩ :: r.1, r.2) := gather_cons _ _ _
theorem gather_comma {d h ts} : gather d (⟨.comma, h⟩ :: ts) = (gather d ts).map fun r => (⟨.comma, h⟩ :: r.1, r.2) := gather_cons _ _ _
theorem gather_lp {d h ts} : gather d (⟨.lp, h⟩ :: ts) = (gather (d + 1) ts).map fun r => (⟨.lp, h⟩ :: r.1, r.2) := gather_cons _ _ _
theorem gather_rp {d h ts} : gather (d + 1) (⟨.rp, h⟩ :: ts) = (gather d ts).map fun r => (⟨.rp, h⟩ :: r.1, r.2) := gather_cons _ _ _
theorem gather_end {h ts} : gather 0 (⟨.rp, h⟩ :: ts) = some ([], ⟨.rp, h⟩, ts) := gather_cons _ _ _
theorem cut_id {s : String} {d h ts} : cut d (⟨.id s, h⟩ :: ts) = (cut d ts).map fun r => (⟨.id s, h⟩ :: r.1, r.2) := cut_cons _ _ _
theorem cut_op {s : String} {d h ts} : cut d (⟨.op s, h⟩ :: ts) = (cut d ts).map fun r => (⟨.op s, h⟩ :: r.1, r.2) := cut_cons _ _ _
theorem cut_num {s : String} {d h ts} : cut d (⟨.num s, h⟩ :: ts) = (cut d ts).map fun r => (⟨.num s, h⟩ :: r.1, r.2) := cut_cons _ _ _
theorem cut_str {s : String} {d h ts} : cut d (⟨.str s, h⟩ :: ts) = (cut d ts).map fun r => (⟨.str s, h⟩ :: r.1, r.2) := cut_cons _ _ _
theorem cut_text {l : List String} {d h ts} : cut d (⟨.text l, h⟩ :: ts) = (cut d ts).map fun r => (⟨.text l, h⟩ :: r.1, r.2) := cut_cons _ _ _
theorem cut_lp {d h ts} : cut d (⟨.lp, h⟩ :: ts) = (cut (d + 1) ts).map fun r => (⟨.lp, h⟩ :: r.1, r.2) := cut_cons _ _ _
theorem cut_rp {d h ts} : cut (d + 1) (⟨.rp, h⟩ :: ts) = (cut d ts).map fun r => (⟨.rp, h⟩ :: r.1, r.2) := cut_cons _ _ _
theorem cut_comma {d h ts} : cut (d + 1) (⟨.comma, h⟩ :: ts) = (cut (d + 1) ts).map fun r => (⟨.comma, h⟩ :: r.1, r.2) := cut_cons _ _ _
theorem cut_end {h ts} : cut 0 (⟨.comma, h⟩ :: ts) = some ([], ts) := cut_cons _ _ _

macro "pp_norm" : tactic => `(tactic| try simp only [List.cons_append, List.append_assoc, List.nil_append, List.append_nil, hideAll_cons, hideAll_append, hideAll_nil, hideAll_comma, hideAll_hideAll, hideAll_spell])
macro "pp_gather" : tactic => `(tactic| simp (maxDischargeDepth := 9) only [List.append_assoc, gather_id, gather_op, gather_num, gather_str, gather_text, gather_comma, gather_lp, gather_rp, gather_end, gather_bal, hideAll_balanced, comma_balanced, Option.map_some, Nat.zero_add, *])
syntax "pp_actuals" : tactic
macro_rules | `(tactic| pp_actuals) => `(tactic| first
  | exact actuals_va
  | (simp (maxDischargeDepth := 9) only [List.append_nil, hideAll_single, actuals_two, actuals_text, actuals_str, actuals_last, actuals_one, ne_eq,
      reduceCtorEq, not_false_eq_true, *]; rfl)
  | (refine actuals_only ?hc
     case hc => simp (maxDischargeDepth := 9) only [List.append_nil, cut_id, cut_op, cut_num, cut_str, cut_text, cut_lp, cut_rp, cut_comma, cut_end, cut_bal, hideAll_balanced, comma_balanced, Option.map_some, Nat.zero_add, *, cut, Option.map_none])
  | (refine actuals_none ?hc
     case hc => simp (maxDischargeDepth := 9) only [List.append_nil, cut_id, cut_op, cut_num, cut_str, cut_text, cut_lp, cut_rp, cut_comma, cut_end, cut_bal, hideAll_balanced, comma_balanced, Option.map_some, Nat.zero_add, *, cut, Option.map_none])
  | (apply actuals_step
     case hc => simp (maxDischargeDepth := 9) only [List.append_nil, cut_id, cut_op, cut_num, cut_str, cut_text, cut_lp, cut_rp, cut_comma, cut_end, cut_bal, hideAll_balanced, comma_balanced, Option.map_some, Nat.zero_add, *]; rfl
     case hn => decide
     case hr => pp_actuals)
  | fail)
macro "pp_subst" : tactic => `(tactic| simp only [List.cons_append, List.append_assoc, List.nil_append, List.append_nil, subst, substItem, Option.map_some,
   List.getElem?_cons_zero, List.getElem?_cons_succ, Option.bind_some, substComma, paste, List.filter_nil])
macro "pp_plain" : tactic => `(tactic| (repeat first | assumption | apply hideAll_plain | apply comma_plain))
macro "pp_macro" : tactic => `(tactic| first
  | exact affirm_on ‹_› | exact affirm_off ‹_› | exact level_on ‹_› | exact level_off ‹_› | assumption | rfl | fail)

/-- one token -/
macro "pp_tok" : tactic => `(tactic| first
  | with_reducible exact E_nil
  | (with_reducible apply E_two
     case hk => rfl)
  | (with_reducible apply E_id
     case hs => first | (apply word_none; assumption; decide; rfl; done) | assumption)
  | (with_reducible apply E_seg
     case ha => pp_plain; done)
  | (with_reducible refine E_seg' ?ha
     case ha => pp_plain; done)
  | fail "pp_tok")

syntax "pp_all2" : tactic

syntax "pp" : tactic
macro_rules | `(tactic| pp) => `(tactic| first
  | pp_tok
  | (apply E_obj
     case hs => pp_macro
     case hh => first | decide | (simp only [List.contains_cons, List.contains_nil, Bool.or_false, *]; done) | fail
     case hb => pp_subst; rfl
     case' hE => pp_norm)
  | (apply E_call
     case hs => pp_macro
     case hh => first | decide | (simp only [List.contains_cons, List.contains_nil, Bool.or_false, *]; done) | fail
     case hg => pp_gather; rfl
     case ha => pp_actuals
     case hf => pp_all2
     case hb => pp_subst; rfl
     case hi => simp; try rfl
     case' hE => pp_norm)
  | (apply E_name
     case hs => pp_macro
     case hm => rfl
     case hts => intro g r h; cases h)
  | fail "pp")

macro_rules | `(tactic| pp_all2) => `(tactic| first
  | exact All2.nil
  | (apply All2.cons
     case h => repeat pp
     case hs => pp_all2)
  | fail "pp_all2")


theorem nest_depth : ∀ {d a}, depth d (a.map tok) = nest d a := by
  intro d a
  induction a generalizing d with
  | nil => rfl
  | cons k a ih =>
    rw [List.map_cons]
    unfold depth
    cases k with
    | rp => cases d with
      | zero => rfl
      | succ d => exact ih
    | _ => simp only [tok, nest]; exact ih

theorem closed_balanced {a} (h : Closed a) : Balanced (a.map tok) := nest_depth.trans h

theorem cut_split : ∀ {d ts x y}, cut d ts = some (x, y) → ∃ t, t.kind = .comma ∧ ts = x ++ t :: y := by
  intro d ts
  induction ts generalizing d with
  | nil => intro x y h; cases h
  | cons t ts ih =>
    intro x y h
    have skip : ∀ {d'}, (cut d' ts).map (fun r => (t :: r.1, r.2)) = some (x, y) → ∃ u, u.kind = .comma ∧ t :: ts = x ++ u :: y := by
      intro d' h
      rw [Option.map_eq_some_iff] at h
      obtain ⟨⟨x', y'⟩, h1, h2⟩ := h
      obtain ⟨u, hu, e⟩ := ih h1
      simp only [Prod.mk.injEq] at h2
      obtain ⟨rfl, rfl⟩ := h2
      exact ⟨u, hu, by rw [e]; rfl⟩
    rw [cut_cons] at h
    cases hk : t.kind with
    | comma =>
      rw [hk] at h
      cases d with
      | zero =>
        simp only [Option.some.injEq, Prod.mk.injEq] at h
        obtain ⟨rfl, rfl⟩ := h
        exact ⟨t, hk, rfl⟩
      | succ d => exact skip h
    | _ => rw [hk] at h; exact skip h

theorem cut_top : ∀ {d ts x y e}, depth d ts = some e → cut d ts = some (x, y) → depth d x = some 0 := by
  intro d ts
  induction ts generalizing d with
  | nil => intro x y e _ h; cases h
  | cons t ts ih =>
    intro x y e he h
    unfold depth at he
    rw [cut_cons] at h
    have skip : ∀ {d'}, depth d' ts = some e → (cut d' ts).map (fun r => (t :: r.1, r.2)) = some (x, y) →
        ∃ x', x = t :: x' ∧ depth d' x' = some 0 := by
      intro d' he h
      rw [Option.map_eq_some_iff] at h
      obtain ⟨⟨x', y'⟩, h1, h2⟩ := h
      simp only [Prod.mk.injEq] at h2
      exact ⟨x', h2.1.symm, ih he h1⟩
    cases hk : t.kind with
    | comma =>
      rw [hk] at h he
      cases d with
      | zero =>
        simp only [Option.some.injEq, Prod.mk.injEq] at h
        obtain ⟨rfl, rfl⟩ := h
        rfl
      | succ d =>
        obtain ⟨x', rfl, hx⟩ := skip he h
        unfold depth
        rw [hk]
        exact hx
    | rp =>
      rw [hk] at h he
      cases d with
      | zero => cases he
      | succ d =>
        obtain ⟨x', rfl, hx⟩ := skip he h
        unfold depth
        rw [hk]
        exact hx
    | _ =>
      rw [hk] at h he
      obtain ⟨x', rfl, hx⟩ := skip he h
      unfold depth
      rw [hk]
      exact hx

theorem oneArg_single {a} (h : OneArg a) : Single (a.map tok) := by
  refine ⟨closed_balanced h.1, ?_⟩
  cases hc : cut 0 (a.map tok) with
  | none => rfl
  | some r =>
    exfalso
    obtain ⟨x, y⟩ := r
    have ht := cut_top (closed_balanced h.1) hc
    obtain ⟨t, hk, e⟩ := cut_split hc
    obtain ⟨x', r, rfl, rfl, hr⟩ := List.map_eq_append_iff.1 e
    obtain ⟨k, y', rfl, rfl, rfl⟩ := List.map_eq_cons_iff.1 hr
    simp only [tok] at hk
    subst hk
    exact h.2 x' y' rfl (nest_depth.symm.trans ht)

theorem ordinary_plain {c a} (h : Ordinary c a) : Plain (macros c) (a.map tok) := by
  intro t ht s hs
  obtain ⟨k, hk, rfl⟩ := List.mem_map.1 ht
  simp only [tok] at hs
  subst hs
  exact h s hk

theorem more_tok (a : List Kind) : (more a).map tok = commaThen [] (a.map tok) := by
  cases a <;> rfl

theorem tok_kind (a : List Kind) : (a.map tok).map (·.kind) = a := by
  rw [List.map_map]
  exact List.map_id _

theorem tok_spell (a : List Kind) : (a.map tok).map (·.kind.spell) = a.map (·.spell) := by
  rw [List.map_map]; rfl

theorem tok_empty (a : List Kind) : (a.map tok).isEmpty = a.isEmpty := by cases a <;> rfl

theorem expands_of {c a ks out} (h : E (macros c) (a.map tok) out) (hk : out.map (·.kind) = ks) : Expands c a ks := by
  obtain ⟨f, hf⟩ := h
  exact ⟨f, out, hf, hk⟩


/-- the tokens of the result -/
macro "pp_kinds" : tactic => `(tactic| simp only [check, report, shown, more, countOf, namesOf, logCall, hideAll_kind, comma_kind, hideAll_isEmpty, tok_kind,
  tok_spell, tok_empty, List.map_cons, List.map_append, List.map_nil, List.append_assoc, List.cons_append, List.nil_append, List.append_nil,
  if_true, Bool.false_eq_true, if_false, *])

/-- expansion of a use and comparison -/
macro "pp_use" : tactic => `(tactic| (
  apply expands_of
  case h =>
    simp only [use, List.map_cons, List.map_append, List.map_nil, more_tok, tok, List.cons_append, List.append_assoc, List.nil_append]
    repeat pp
  case hk => pp_kinds; try rfl))

end CE.Preproc
