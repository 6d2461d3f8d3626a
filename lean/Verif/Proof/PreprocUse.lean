import Verif.Proof.PreprocTac
/-! The expansion of each macro for checks and logging. -/
namespace CE.Preproc
set_option maxRecDepth 4000

theorem assert_on {c : Config} (he : c.err = true) (hu : ∀ s ∈ words, c.user s = none) {test a : List Kind} (h1 : Ordinary c test)
    (h2 : OneArg test) (h3 : Ordinary c a) (h4 : Closed a) :
    Expands c (use "CE_ASSERT" (test ++ more a)) ([.lp, i "void", .rp, .lp] ++ check c "CE_ASSERT" test a ++ [.rp]) := by
  have t1 := ordinary_plain h1
  have t2 := oneArg_single h2
  have t3 := closed_balanced h2.1
  have t4 := ordinary_plain h3
  have t5 := closed_balanced h4
  clear h1 h2 h3 h4
  pp_use

theorem assert_off {c : Config} (he : c.err = false) (hu : ∀ s ∈ words, c.user s = none) {test a : List Kind} (h1 : Ordinary c test)
    (h2 : OneArg test) (h3 : Ordinary c a) (h4 : Closed a) :
    Expands c (use "CE_ASSERT" (test ++ more a)) ([.lp, i "void", .rp, .lp] ++ check c "CE_ASSERT" test a ++ [.rp]) := by
  have t1 := ordinary_plain h1
  have t2 := oneArg_single h2
  have t3 := closed_balanced h2.1
  have t4 := ordinary_plain h3
  have t5 := closed_balanced h4
  clear h1 h2 h3 h4
  pp_use

theorem verify_on {c : Config} (he : c.err = true) (hu : ∀ s ∈ words, c.user s = none) {test a : List Kind} (h1 : Ordinary c test)
    (h2 : OneArg test) (h3 : Ordinary c a) (h4 : Closed a) :
    Expands c (use "CE_VERIFY" (test ++ more a)) ([.lp] ++ check c "CE_VERIFY" test a ++ [.rp]) := by
  have t1 := ordinary_plain h1
  have t2 := oneArg_single h2
  have t3 := closed_balanced h2.1
  have t4 := ordinary_plain h3
  have t5 := closed_balanced h4
  clear h1 h2 h3 h4
  pp_use

theorem verify_off {c : Config} (he : c.err = false) (hu : ∀ s ∈ words, c.user s = none) {test a : List Kind} (h1 : Ordinary c test)
    (h2 : OneArg test) (h3 : Ordinary c a) (h4 : Closed a) :
    Expands c (use "CE_VERIFY" (test ++ more a)) ([.lp] ++ check c "CE_VERIFY" test a ++ [.rp]) := by
  have t1 := ordinary_plain h1
  have t2 := oneArg_single h2
  have t3 := closed_balanced h2.1
  have t4 := ordinary_plain h3
  have t5 := closed_balanced h4
  clear h1 h2 h3 h4
  pp_use

theorem reject_on {c : Config} (he : c.err = true) (hu : ∀ s ∈ words, c.user s = none) {test a : List Kind} (h1 : Ordinary c test)
    (h2 : OneArg test) (h3 : Ordinary c a) (h4 : Closed a) :
    Expands c (use "CE_REJECT" (test ++ more a)) ([p "!", .lp, p "!"] ++ check c "CE_REJECT" test a ++ [.rp]) := by
  have t1 := ordinary_plain h1
  have t2 := oneArg_single h2
  have t3 := closed_balanced h2.1
  have t4 := ordinary_plain h3
  have t5 := closed_balanced h4
  clear h1 h2 h3 h4
  pp_use

theorem reject_off {c : Config} (he : c.err = false) (hu : ∀ s ∈ words, c.user s = none) {test a : List Kind} (h1 : Ordinary c test)
    (h2 : OneArg test) (h3 : Ordinary c a) (h4 : Closed a) :
    Expands c (use "CE_REJECT" (test ++ more a)) ([p "!", .lp, p "!"] ++ check c "CE_REJECT" test a ++ [.rp]) := by
  have t1 := ordinary_plain h1
  have t2 := oneArg_single h2
  have t3 := closed_balanced h2.1
  have t4 := ordinary_plain h3
  have t5 := closed_balanced h4
  clear h1 h2 h3 h4
  pp_use

theorem error_use {c : Config} (hu : ∀ s ∈ words, c.user s = none) {a : List Kind} (h3 : Ordinary c a) (h4 : Closed a) :
    Expands c (use "CE_ERROR" a)
      ([.lp, .lp, i "void", .rp] ++ report c "CE_ERROR" (.str "") a ++ [.comma, i "CE_DEBUG_BREAK", .lp, .rp, .rp]) := by
  have t4 := ordinary_plain h3
  have t5 := closed_balanced h4
  clear h3 h4
  pp_use

theorem log_on_known {c : Config} (hl : c.log = true) (hu : ∀ s ∈ words, c.user s = none) {lv n : String} {a : List Kind}
    (hv : macros c lv = none) (hk : macros c ("_CE_LOG_" ++ lv) = obj [o "~", cm, .tok (.num n)])
    (hx1 : ("_CE_LOG_" ++ lv == "_CE_LOG_LVL") = false) (hx2 : ("_CE_LOG_" ++ lv == "CE_LOG") = false)
    (hx3 : ("_CE_LOG_" ++ lv == "CE_LOG_MSG") = false) (h3 : Ordinary c a) (h4 : Closed a) :
    Expands c (use "CE_LOG" ([.id lv] ++ more a)) (logCall c n ([.str "$,", shown a]) ([shown [.id lv]] ++ more a)) := by
  have t4 := ordinary_plain h3
  have t5 := closed_balanced h4
  clear h3 h4
  pp_use

theorem log_msg_on_known {c : Config} (hl : c.log = true) (hu : ∀ s ∈ words, c.user s = none) {lv n : String} {a : List Kind}
    (hv : macros c lv = none) (hk : macros c ("_CE_LOG_" ++ lv) = obj [o "~", cm, .tok (.num n)])
    (hx1 : ("_CE_LOG_" ++ lv == "_CE_LOG_LVL") = false) (hx2 : ("_CE_LOG_" ++ lv == "CE_LOG") = false)
    (hx3 : ("_CE_LOG_" ++ lv == "CE_LOG_MSG") = false) (h3 : Ordinary c a) (h4 : Closed a) :
    Expands c (use "CE_LOG_MSG" ([.id lv] ++ more a)) (logCall c n [.str "$,$msg"] ([shown [.id lv], .comma, i "ce", p "::", i "as_string", p "{"] ++ a ++ [p "}", p ".", i "as"])) := by
  have t4 := ordinary_plain h3
  have t5 := closed_balanced h4
  clear h3 h4
  pp_use

theorem log_on_other {c : Config} (hl : c.log = true) (hu : ∀ s ∈ words, c.user s = none) {lv n : String} {a : List Kind}
    (hv : macros c lv = none) (hk : macros c ("_CE_LOG_" ++ lv) = none) (h3 : Ordinary c a) (h4 : Closed a) :
    Expands c (use "CE_LOG" ([.id lv] ++ more a)) (logCall c "7" ([.str "$,", shown a]) ([shown [.id lv]] ++ more a)) := by
  have t4 := ordinary_plain h3
  have t5 := closed_balanced h4
  clear h3 h4
  pp_use

theorem log_msg_on_other {c : Config} (hl : c.log = true) (hu : ∀ s ∈ words, c.user s = none) {lv n : String} {a : List Kind}
    (hv : macros c lv = none) (hk : macros c ("_CE_LOG_" ++ lv) = none) (h3 : Ordinary c a) (h4 : Closed a) :
    Expands c (use "CE_LOG_MSG" ([.id lv] ++ more a)) (logCall c "7" [.str "$,$msg"] ([shown [.id lv], .comma, i "ce", p "::", i "as_string", p "{"] ++ a ++ [p "}", p ".", i "as"])) := by
  have t4 := ordinary_plain h3
  have t5 := closed_balanced h4
  clear h3 h4
  pp_use

theorem log_off_known {c : Config} (hl : c.log = false) (hu : ∀ s ∈ words, c.user s = none) {lv n : String} {a : List Kind}
    (hv : macros c lv = none) (hk : macros c ("_CE_LOG_" ++ lv) = obj [o "~", cm, .tok (.num n)])
    (hx1 : ("_CE_LOG_" ++ lv == "_CE_LOG_LVL") = false) (hx2 : ("_CE_LOG_" ++ lv == "CE_LOG") = false)
    (hx3 : ("_CE_LOG_" ++ lv == "CE_LOG_MSG") = false) (h3 : Ordinary c a) (h4 : Closed a) :
    Expands c (use "CE_LOG" ([.id lv] ++ more a)) (logCall c n ([.str "$,", shown a]) ([shown [.id lv]] ++ more a)) := by
  have t4 := ordinary_plain h3
  have t5 := closed_balanced h4
  clear h3 h4
  pp_use

theorem log_msg_off_known {c : Config} (hl : c.log = false) (hu : ∀ s ∈ words, c.user s = none) {lv n : String} {a : List Kind}
    (hv : macros c lv = none) (hk : macros c ("_CE_LOG_" ++ lv) = obj [o "~", cm, .tok (.num n)])
    (hx1 : ("_CE_LOG_" ++ lv == "_CE_LOG_LVL") = false) (hx2 : ("_CE_LOG_" ++ lv == "CE_LOG") = false)
    (hx3 : ("_CE_LOG_" ++ lv == "CE_LOG_MSG") = false) (h3 : Ordinary c a) (h4 : Closed a) :
    Expands c (use "CE_LOG_MSG" ([.id lv] ++ more a)) (logCall c n [.str "$,$msg"] ([shown [.id lv], .comma, i "ce", p "::", i "as_string", p "{"] ++ a ++ [p "}", p ".", i "as"])) := by
  have t4 := ordinary_plain h3
  have t5 := closed_balanced h4
  clear h3 h4
  pp_use

theorem log_off_other {c : Config} (hl : c.log = false) (hu : ∀ s ∈ words, c.user s = none) {lv n : String} {a : List Kind}
    (hv : macros c lv = none) (hk : macros c ("_CE_LOG_" ++ lv) = none) (h3 : Ordinary c a) (h4 : Closed a) :
    Expands c (use "CE_LOG" ([.id lv] ++ more a)) (logCall c "7" ([.str "$,", shown a]) ([shown [.id lv]] ++ more a)) := by
  have t4 := ordinary_plain h3
  have t5 := closed_balanced h4
  clear h3 h4
  pp_use

theorem log_msg_off_other {c : Config} (hl : c.log = false) (hu : ∀ s ∈ words, c.user s = none) {lv n : String} {a : List Kind}
    (hv : macros c lv = none) (hk : macros c ("_CE_LOG_" ++ lv) = none) (h3 : Ordinary c a) (h4 : Closed a) :
    Expands c (use "CE_LOG_MSG" ([.id lv] ++ more a)) (logCall c "7" [.str "$,$msg"] ([shown [.id lv], .comma, i "ce", p "::", i "as_string", p "{"] ++ a ++ [p "}", p ".", i "as"])) := by
  have t4 := ordinary_plain h3
  have t5 := closed_balanced h4
  clear h3 h4
  pp_use

end CE.Preproc
