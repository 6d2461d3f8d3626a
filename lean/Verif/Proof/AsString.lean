import Verif.Proof.ToText
import Verif.Spec.AsString
namespace CE.ToText

theorem toDigits_length_le (t k : Nat) (h : t < 10 ^ (k + 1)) : (Nat.toDigits 10 t).length ≤ k + 1 := by
  induction k generalizing t with
  | zero => rw [Nat.toDigits_of_lt_base (by simpa using h)]; simp
  | succ k ih =>
    by_cases h0 : t < 10
    · rw [Nat.toDigits_of_lt_base h0]; simp
    · have e : t = 10 * (t / 10) + t % 10 := by omega
      rw [e, ← Nat.toDigits_append_toDigits (by decide) (by omega) (Nat.mod_lt _ (by decide)),
        Nat.toDigits_of_lt_base (Nat.mod_lt t (by decide : 10 > 0))]
      have := ih (t / 10) (by rw [Nat.pow_succ] at h; omega)
      simp; omega

theorem int_text (i : Int) : (toString i).toList =
    if i < 0 then '-' :: Nat.toDigits 10 i.natAbs else Nat.toDigits 10 i.natAbs := by
  cases i with
  | ofNat n =>
    rw [if_neg (by simp)]
    show (Nat.repr n).toList = _
    simp [Nat.repr]
  | negSucc n =>
    rw [if_pos (Int.negSucc_lt_zero n)]
    show ("-" ++ Nat.repr (n + 1)).toList = _
    simp [Nat.repr]

theorem toTextFromInteger_spec (T : IntTy) (hT : T.Ok) (i : Int) (h : T.InRange i)
    (m : Mem) (b : Nat) (l : List Char) (p : Nat) (hp : p = b + l.length) :
    toTextFromInteger T (place m b l) p i =
      some (place m b (l ++ (toString i).toList), p + (toString i).toList.length) := by
  have hrange : -(2 ^ 63 : Int) ≤ i ∧ i < 2 ^ 64 := by
    rcases T with ⟨s, sg⟩
    simp only [IntTy.Ok, IntTy.InRange] at hT h
    rcases hT with h1 | h1 | h1 | h1 <;> subst h1 <;> cases sg <;> simp at h <;> omega
  have hu : ∀ t : Nat, narrow T t < 2 ^ 32 := by
    intro t; simp only [narrow, u32]; split <;> [split; skip] <;> omega
  have hnarrow : ∀ t : Nat, t = i.natAbs → t < 2 ^ 32 → narrow T t = t := by
    intro t ht ht2
    rcases T with ⟨s, sg⟩
    simp only [IntTy.Ok, IntTy.InRange] at hT h
    simp only [narrow, u32]
    rcases hT with h1 | h1 | h1 | h1 <;> subst h1 <;> cases sg <;> simp at h ⊢ <;> omega
  rw [int_text]
  unfold toTextFromInteger
  by_cases hneg : i < 0
  · have e : u64 (2 ^ 64 + 0 - (i % (2 ^ 64 : Nat)).toNat) = i.natAbs := by
      unfold u64; omega
    simp only [if_pos hneg, e]
    rw [write_place m b p l '-' hp]
    have hq : p + 1 = b + (l ++ ['-']).length := by simp; omega
    rw [hq]
    have := unsigned_spec m b (l ++ ['-']) i.natAbs (narrow T i.natAbs) (by omega) (hu _)
      (hnarrow _ rfl)
    refine this.trans ?_
    simp
    omega
  · have e : (i % (2 ^ 64 : Nat)).toNat = i.natAbs := by omega
    simp only [if_neg hneg, e]
    rw [hp]
    exact unsigned_spec m b l i.natAbs (narrow T i.natAbs) (by omega) (hu _) (hnarrow _ rfl)

theorem int_text_length (T : IntTy) (hT : T.Ok) (i : Int) (h : T.InRange i) :
    (toString i).toList.length ≤ measure T := by
  rw [int_text]
  rcases T with ⟨s, sg⟩
  simp only [IntTy.Ok, IntTy.InRange] at hT h
  have key : ∀ k, i.natAbs < 10 ^ (k + 1) →
    (if i < 0 then '-' :: Nat.toDigits 10 i.natAbs else Nat.toDigits 10 i.natAbs).length
      ≤ k + 1 + (if i < 0 then 1 else 0) := by
    intro k hk
    have := toDigits_length_le i.natAbs k hk
    split <;> simp <;> omega
  rcases hT with h1 | h1 | h1 | h1 <;> subst h1 <;> cases sg <;> simp [measure] at h ⊢
  · have := key 2 (by omega); split <;> simp_all <;> omega
  · have := key 2 (by omega); split <;> simp_all <;> omega
  · have := key 4 (by omega); split <;> simp_all <;> omega
  · have := key 4 (by omega); split <;> simp_all <;> omega
  · have := key 9 (by omega); split <;> simp_all <;> omega
  · have := key 9 (by omega); split <;> simp_all <;> omega
  · have := key 19 (by omega); split <;> simp_all <;> omega
  · have := key 18 (by omega); split <;> simp_all <;> omega

theorem toTextP_spec (m : Mem) (b : Nat) (l s : List Char) (p : Nat) (h : NUL ∈ s)
    (hp : p = b + l.length) :
    toTextP (place m b l) p s = some (place m b (l ++ cText s), p + (cText s).length) := by
  induction s generalizing l p with
  | nil => simp at h
  | cons c s ih =>
    simp only [toTextP]
    by_cases hc : c = NUL
    · simp [cText, hc]
    · rw [if_pos hc, write_place _ _ _ _ _ hp, ih _ _ (by simpa [Ne.symm hc] using h) (by simp; omega)]
      have e : cText (c :: s) = c :: cText s := by
        simp only [cText, List.takeWhile_cons, hc, ne_eq, not_false_eq_true, decide_true, if_true]
      rw [e]; simp; omega

theorem toTextS_spec (m : Mem) (b : Nat) (l s : List Char) (n p : Nat)
    (h : NUL ∈ s ∨ n ≤ s.length) (hp : p = b + l.length) :
    toTextS (place m b l) p n s =
      some (place m b (l ++ (cText s).take n), p + ((cText s).take n).length) := by
  induction s generalizing l p n with
  | nil =>
    simp at h; subst h; simp [toTextS]
  | cons c s ih =>
    cases n with
    | zero => simp [toTextS]
    | succ n =>
      simp only [toTextS]
      by_cases hc : c = NUL
      · simp [cText, hc]
      · rw [if_pos hc, write_place _ _ _ _ _ hp,
          ih _ n _ (by simpa [Ne.symm hc] using h) (by simp; omega)]
        have e : cText (c :: s) = c :: cText s := by
          simp only [cText, List.takeWhile_cons, hc, ne_eq, not_false_eq_true, decide_true, if_true]
        rw [e]; simp; omega

theorem cText_append_NUL (s : List Char) (h : NUL ∉ s) : cText (s ++ [NUL]) = s := by
  induction s with
  | nil => simp [cText]
  | cons c s ih =>
    simp only [List.mem_cons, not_or] at h
    simp only [cText, List.cons_append, List.takeWhile_cons, Ne.symm h.1, ne_eq,
      not_false_eq_true, decide_true, if_true]
    congr 1; exact ih h.2

theorem toTextLit_spec (m : Mem) (b : Nat) (l : List Char) (s : String) (p : Nat)
    (h : NUL ∉ s.toList) (hp : p = b + l.length) :
    toTextP (place m b l) p (lit s) = some (place m b (l ++ s.toList), p + s.toList.length) := by
  rw [toTextP_spec _ _ _ _ _ (by simp [lit]) hp, lit, cText_append_NUL _ h]

theorem toTextTagged_spec (m : Mem) (b : Nat) (l : List Char) (p : Nat) (tag : String) (T : IntTy)
    (i : Int) (hT : T.Ok) (hi : T.InRange i) (ht : NUL ∉ tag.toList) (hp : p = b + l.length) :
    toTextTagged (place m b l) p tag T i =
      some (place m b (l ++ (tag ++ toString i ++ ">").toList),
        p + (tag ++ toString i ++ ">").toList.length) := by
  simp only [toTextTagged]
  rw [toTextLit_spec _ _ _ _ _ ht hp]
  simp only [Option.bind_eq_bind, Option.bind_some]
  rw [toTextFromInteger_spec T hT i hi m b _ _ (by simp; omega)]
  simp only [Option.bind_some, toTextChar]
  rw [write_place _ _ _ _ _ (by simp; omega)]
  simp
  omega

theorem toString_natCast (a : Nat) : toString (a : Int) = toString a := rfl

theorem sizeT_ok : sizeT.Ok := by simp [IntTy.Ok, sizeT]

theorem sizeT_inRange (a : Nat) (h : a < 2 ^ 64) : sizeT.InRange (a : Int) := by
  simp [IntTy.InRange, sizeT]; omega

theorem toText_spec (m : Mem) (b : Nat) (l : List Char) (p : Nat) (a : Arg) (ha : a.Ok)
    (hp : p = b + l.length) :
    toText (place m b l) p a = some (place m b (l ++ argText a), p + (argText a).length) := by
  cases a with
  | int T i => exact toTextFromInteger_spec T ha.1 i ha.2 m b l p hp
  | chr c => simp only [toText, toTextChar, argText]; rw [write_place _ _ _ _ _ hp]; simp
  | bool v =>
    simp only [toText, toTextBool]
    rw [write_place _ _ _ _ _ hp, write_place _ _ _ _ _ (by simp; omega),
      write_place _ _ _ _ _ (by simp; omega), write_place _ _ _ _ _ (by simp; omega)]
    cases v <;> simp [argText]
  | cstr s =>
    cases s with
    | none => exact toTextLit_spec m b l "#<nil>" p (by decide) hp
    | some s => exact toTextP_spec m b l s p ha hp
  | carr s =>
    simp only [toText, argText]
    rw [toTextS_spec _ _ _ _ _ _ (Or.inr (Nat.le_refl _)) hp]
    have : (cText s).length ≤ s.length := (List.takeWhile_sublist _).length_le
    rw [List.take_of_length_le this]
  | nil => exact toTextLit_spec m b l "#<nil>" p (by decide) hp
  | ptr a =>
    by_cases h0 : a = 0
    · subst h0; exact toTextLit_spec m b l "#<nil>" p (by decide) hp
    · have e : argText (.ptr a) = ("#<ptr " ++ toString a ++ ">").toList := by
        cases a with
        | zero => exact absurd rfl h0
        | succ n => rfl
      simp only [toText, if_neg h0, e]
      exact toTextTagged_spec m b l p "#<ptr " sizeT a sizeT_ok (sizeT_inRange a ha) (by decide) hp
  | enum T i => exact toTextTagged_spec m b l p "#<enum " T i ha.1 ha.2 (by decide) hp
  | ref a =>
    exact toTextTagged_spec m b l p "#<ref " sizeT a sizeT_ok (sizeT_inRange a ha) (by decide) hp

theorem toTextM_spec (m : Mem) (b : Nat) (l : List Char) (p : Nat) (a : Arg) (ha : a.OkM)
    (hp : p = b + l.length) :
    toTextM (place m b l) p a = some (place m b (l ++ argTextM a), p + (argTextM a).length) := by
  cases a with
  | cstr s =>
    cases s with
    | none => exact ha.elim
    | some s => exact toTextS_spec m b l s 1024 p ha hp
  | carr s =>
    exact toTextS_spec m b l s 1024 p ha hp
  | int T i => exact toText_spec m b l p (.int T i) ha hp
  | chr c => exact toText_spec m b l p (.chr c) ha hp
  | bool v => exact toText_spec m b l p (.bool v) ha hp
  | nil => exact toText_spec m b l p (.nil) ha hp
  | ptr a => exact toText_spec m b l p (.ptr a) ha hp
  | enum T i => exact toText_spec m b l p (.enum T i) ha hp
  | ref a => exact toText_spec m b l p (.ref a) ha hp

theorem int_length_le (T : IntTy) (hT : T.Ok) (i : Int) (h : T.InRange i) :
    (toString i).toList.length ≤ 20 := by
  refine Nat.le_trans (int_text_length T hT i h) ?_
  rcases hT with h1 | h1 | h1 | h1 <;> rcases T with ⟨s, sg⟩ <;> simp at h1 <;> subst h1 <;>
    cases sg <;> simp [measure]

theorem argTextM_length (a : Arg) (ha : a.OkM) : (argTextM a).length ≤ argMeasure a := by
  cases a with
  | cstr s =>
    cases s with
    | none => exact ha.elim
    | some s => simp only [argTextM, argMeasure, List.length_take]; omega
  | carr s =>
    have : (cText s).length ≤ s.length := (List.takeWhile_sublist _).length_le
    simp only [argTextM, argMeasure, List.length_take]; omega
  | int T i => exact int_text_length T ha.1 i ha.2
  | chr c => simp [argTextM, argText, argMeasure]
  | bool v => cases v <;> simp [argTextM, argText, argMeasure]
  | nil => simp [argTextM, argText, argMeasure]
  | ptr a =>
    have hl := int_length_le sizeT sizeT_ok a (sizeT_inRange a ha)
    rw [toString_natCast] at hl
    cases a with
    | zero => simp [argTextM, argText, argMeasure]
    | succ n =>
      have e : argTextM (.ptr (n + 1)) = "#<ptr ".toList ++ (toString (n + 1)).toList ++ ['>'] := by
        simp [argTextM, argText]
      rw [e]; simp only [argMeasure, List.length_append]
      have : "#<ptr ".toList.length = 6 := by decide
      simp only [List.length_singleton]; omega
  | enum T i =>
    have hl := int_length_le T ha.1 i ha.2
    have e : argTextM (.enum T i) = "#<enum ".toList ++ (toString i).toList ++ ['>'] := by
      simp [argTextM, argText]
    rw [e]; simp only [argMeasure, List.length_append]
    have : "#<enum ".toList.length = 7 := by decide
    simp only [List.length_singleton]; omega
  | ref a =>
    have hl := int_length_le sizeT sizeT_ok a (sizeT_inRange a ha)
    rw [toString_natCast] at hl
    have e : argTextM (.ref a) = "#<ref ".toList ++ (toString a).toList ++ ['>'] := by
      simp [argTextM, argText]
    rw [e]; simp only [argMeasure, List.length_append]
    have : "#<ref ".toList.length = 6 := by decide
    simp only [List.length_singleton]; omega

theorem toTextMs_spec (m : Mem) (b : Nat) (l : List Char) (p : Nat) (as : List Arg)
    (ha : ∀ a ∈ as, a.OkM) (hp : p = b + l.length) :
    toTextMs (place m b l) p as =
      some (place m b (l ++ (as.map argTextM).flatten), p + (as.map argTextM).flatten.length) := by
  induction as generalizing l p with
  | nil => simp [toTextMs]
  | cons a as ih =>
    simp only [toTextMs]
    rw [toTextM_spec m b l p a (ha a (by simp)) hp]
    simp only [Option.bind_eq_bind, Option.bind_some]
    rw [ih _ _ (fun x hx => ha x (by simp [hx])) (by simp; omega)]
    simp
    omega

theorem flatten_length_le (as : List Arg) (ha : ∀ a ∈ as, a.OkM) :
    (as.map argTextM).flatten.length ≤ (as.map argMeasure).sum := by
  induction as with
  | nil => simp
  | cons a as ih =>
    have h1 := argTextM_length a (ha a (by simp))
    have h2 := ih (fun x hx => ha x (by simp [hx]))
    simp only [List.map_cons, List.flatten_cons, List.length_append, List.sum_cons]
    omega

/-- elements with a separator in front of each: `sep` for the first, `", "` for the others -/
def sepText (sep : String) : List Arg → List Char
  | [] => []
  | v :: vs => sep.toList ++ argText v ++ sepText ", " vs

theorem toTextNLoop_spec (m : Mem) (b : Nat) (l : List Char) (p : Nat) (sep : String)
    (hs : NUL ∉ sep.toList) (vs : List Arg)
    (ha : ∀ a ∈ vs, a.Ok) (hp : p = b + l.length) :
    toTextNLoop (place m b l) p sep vs =
      some (place m b (l ++ sepText sep vs), p + (sepText sep vs).length) := by
  induction vs generalizing l p sep with
  | nil => simp [toTextNLoop, sepText]
  | cons v vs ih =>
    simp only [toTextNLoop, sepText]
    rw [toTextLit_spec m b l sep p hs hp]
    simp only [Option.bind_eq_bind, Option.bind_some]
    rw [toText_spec m b _ _ v (ha v (by simp)) (by simp; omega)]
    simp only [Option.bind_some]
    rw [ih _ _ ", " (by decide) (fun x hx => ha x (by simp [hx])) (by simp; omega)]
    simp; omega

end CE.ToText
