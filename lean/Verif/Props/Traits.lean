import Verif.Spec.Traits
/-!
# Type transformations (C94)
-/
namespace CE.Traits

theorem matchConst_spec (t : Ty) : (∀ u, t.matchConst = some u → t.isConst ∧ ¬ u.isConst ∧ (u.isVolatile ↔ t.isVolatile) ∧ t = u.qualify true false) ∧
    (t.matchConst = none → ¬ t.isConst) := by
  induction t with
  | obj c v n => cases c <;> simp [Ty.matchConst, Ty.isConst, Ty.isVolatile, Ty.qualify]
  | ptr c v t _ => cases c <;> simp [Ty.matchConst, Ty.isConst, Ty.isVolatile, Ty.qualify]
  | lref t _ => simp [Ty.matchConst, Ty.isConst]
  | rref t _ => simp [Ty.matchConst, Ty.isConst]
  | fn n => simp [Ty.matchConst, Ty.isConst]
  | arr e n ih =>
    refine ⟨fun u hu => ?_, fun h => ?_⟩
    · obtain ⟨w, hw, rfl⟩ := Option.map_eq_some_iff.1 hu
      obtain ⟨h1, h2, h3, h4⟩ := ih.1 w hw
      exact ⟨h1, h2, h3, congrArg (Ty.arr · n) h4⟩
    · exact ih.2 (by simpa [Ty.matchConst] using h)

theorem matchVolatile_spec (t : Ty) : (∀ u, t.matchVolatile = some u → t.isVolatile ∧ ¬ u.isVolatile ∧ (u.isConst ↔ t.isConst) ∧ t = u.qualify false true) ∧
    (t.matchVolatile = none → ¬ t.isVolatile) := by
  induction t with
  | obj c v n => cases v <;> simp [Ty.matchVolatile, Ty.isConst, Ty.isVolatile, Ty.qualify]
  | ptr c v t _ => cases v <;> simp [Ty.matchVolatile, Ty.isConst, Ty.isVolatile, Ty.qualify]
  | lref t _ => simp [Ty.matchVolatile, Ty.isVolatile]
  | rref t _ => simp [Ty.matchVolatile, Ty.isVolatile]
  | fn n => simp [Ty.matchVolatile, Ty.isVolatile]
  | arr e n ih =>
    refine ⟨fun u hu => ?_, fun h => ?_⟩
    · obtain ⟨w, hw, rfl⟩ := Option.map_eq_some_iff.1 hu
      obtain ⟨h1, h2, h3, h4⟩ := ih.1 w hw
      exact ⟨h1, h2, h3, congrArg (Ty.arr · n) h4⟩
    · exact ih.2 (by simpa [Ty.matchVolatile] using h)

theorem matchBoth_spec (t : Ty) : (∀ u, t.matchBoth = some u → t.isConst ∧ t.isVolatile ∧ ¬ u.isConst ∧ ¬ u.isVolatile ∧ t = u.qualify true true) ∧
    (t.matchBoth = none → ¬ (t.isConst ∧ t.isVolatile)) := by
  induction t with
  | obj c v n => cases c <;> cases v <;> simp [Ty.matchBoth, Ty.isConst, Ty.isVolatile, Ty.qualify]
  | ptr c v t _ => cases c <;> cases v <;> simp [Ty.matchBoth, Ty.isConst, Ty.isVolatile, Ty.qualify]
  | lref t _ => simp [Ty.matchBoth, Ty.isVolatile]
  | rref t _ => simp [Ty.matchBoth, Ty.isVolatile]
  | fn n => simp [Ty.matchBoth, Ty.isVolatile]
  | arr e n ih =>
    refine ⟨fun u hu => ?_, fun h => ?_⟩
    · obtain ⟨w, hw, rfl⟩ := Option.map_eq_some_iff.1 hu
      obtain ⟨h1, h2, h3, h4, h5⟩ := ih.1 w hw
      exact ⟨h1, h2, h3, h4, congrArg (Ty.arr · n) h5⟩
    · exact ih.2 (by simpa [Ty.matchBoth] using h)

theorem qualify_none (t : Ty) : t.qualify false false = t := by
  induction t with
  | arr e n ih => exact congrArg (Ty.arr · n) ih
  | _ => simp [Ty.qualify]

/-- `remove_const` removes `const` and nothing else. -/
theorem C94_const (t : Ty) : ¬ (removeConst t).isConst ∧ ((removeConst t).isVolatile ↔ t.isVolatile) ∧
    ∃ c, t = (removeConst t).qualify c false := by
  unfold removeConst
  cases h : t.matchConst with
  | none => exact ⟨(matchConst_spec t).2 h, Iff.rfl, false, (qualify_none t).symm⟩
  | some u =>
    obtain ⟨-, h2, h3, h4⟩ := (matchConst_spec t).1 u h
    exact ⟨h2, h3, true, h4⟩

/-- `remove_volatile` removes `volatile` and nothing else. -/
theorem C94_volatile (t : Ty) : ¬ (removeVolatile t).isVolatile ∧ ((removeVolatile t).isConst ↔ t.isConst) ∧
    ∃ v, t = (removeVolatile t).qualify false v := by
  unfold removeVolatile
  cases h : t.matchVolatile with
  | none => exact ⟨(matchVolatile_spec t).2 h, Iff.rfl, false, (qualify_none t).symm⟩
  | some u =>
    obtain ⟨-, h2, h3, h4⟩ := (matchVolatile_spec t).1 u h
    exact ⟨h2, h3, true, h4⟩

/-- `remove_cv` removes both and nothing else. -/
theorem C94_cv (t : Ty) : ¬ (removeCv t).isConst ∧ ¬ (removeCv t).isVolatile ∧ ∃ c v, t = (removeCv t).qualify c v := by
  unfold removeCv
  split
  · next u h =>
    obtain ⟨-, -, h3, h4, h5⟩ := (matchBoth_spec t).1 u h
    exact ⟨h3, h4, true, true, h5⟩
  · next hb =>
    have hb := (matchBoth_spec t).2 hb
    split
    · next u h =>
      obtain ⟨h1, h2, h3, h4⟩ := (matchConst_spec t).1 u h
      exact ⟨h2, fun h => hb ⟨h1, h3.1 h⟩, true, false, h4⟩
    · next hc =>
      have hc := (matchConst_spec t).2 hc
      split
      · next u h =>
        obtain ⟨h1, h2, h3, h4⟩ := (matchVolatile_spec t).1 u h
        exact ⟨fun h => hc (h3.1 h), h2, false, true, h4⟩
      · next hv => exact ⟨hc, (matchVolatile_spec t).2 hv, false, false, (qualify_none t).symm⟩

/-- an unqualified type is all that is left of its qualified forms -/
theorem qualify_inj {t u : Ty} {c v c' v' : Bool} (ht : ¬ t.isConst ∧ ¬ t.isVolatile) (hu : ¬ u.isConst ∧ ¬ u.isVolatile)
    (h : t.qualify c v = u.qualify c' v') : t = u := by
  induction t generalizing u with
  | obj a b n =>
    cases u <;> simp [Ty.qualify] at h
    simp [Ty.isConst, Ty.isVolatile] at ht hu
    rw [ht.1, ht.2, hu.1, hu.2, h.2.2]
  | ptr a b t _ =>
    cases u <;> simp [Ty.qualify] at h
    simp [Ty.isConst, Ty.isVolatile] at ht hu
    rw [ht.1, ht.2, hu.1, hu.2, h.2.2]
  | arr e n ih =>
    cases u with
    | arr e' n' =>
      simp [Ty.qualify] at h
      have hu' : ¬ e'.isConst ∧ ¬ e'.isVolatile := hu
      rw [ih ht hu' h.1, h.2]
    | _ => simp [Ty.qualify] at h
  | lref t _ => cases u <;> simp [Ty.qualify] at h; rw [h]
  | rref t _ => cases u <;> simp [Ty.qualify] at h; rw [h]
  | fn n => cases u <;> simp [Ty.qualify] at h; rw [h]

theorem qualify_qualify (t : Ty) (a b c d : Bool) : (t.qualify a b).qualify c d = t.qualify (c || a) (d || b) := by
  induction t with
  | arr e n ih => exact congrArg (Ty.arr · n) ih
  | _ => simp [Ty.qualify, Bool.or_assoc]

/-- However a type is qualified, `remove_cv` gives the same type; it is also what `remove_const` and `remove_volatile` give
one after the other, in both orders. -/
theorem C94_unique (t : Ty) (c v : Bool) : removeCv (t.qualify c v) = removeCv t ∧ removeConst (removeVolatile t) = removeCv t ∧
    removeVolatile (removeConst t) = removeCv t := by
  obtain ⟨h1, h2, a, b, h3⟩ := C94_cv t
  refine ⟨?_, ?_, ?_⟩
  · obtain ⟨k1, k2, a', b', k3⟩ := C94_cv (t.qualify c v)
    refine qualify_inj (c := a') (v := b') (c' := c || a) (v' := v || b) ⟨k1, k2⟩ ⟨h1, h2⟩ ?_
    rw [← k3, ← qualify_qualify, ← h3]
  · obtain ⟨k1, k2, b', k3⟩ := C94_volatile t
    obtain ⟨l1, l2, a', l3⟩ := C94_const (removeVolatile t)
    refine qualify_inj (c := a') (v := b') (c' := a) (v' := b) ⟨l1, fun h => k1 (l2.1 h)⟩ ⟨h1, h2⟩ ?_
    rw [← h3]
    conv => rhs; rw [k3, l3, qualify_qualify]
    simp
  · obtain ⟨k1, k2, a', k3⟩ := C94_const t
    obtain ⟨l1, l2, b', l3⟩ := C94_volatile (removeConst t)
    refine qualify_inj (c := a') (v := b') (c' := a) (v' := b) ⟨fun h => k1 (l2.1 h), l1⟩ ⟨h1, h2⟩ ?_
    rw [← h3]
    conv => rhs; rw [k3, l3, qualify_qualify]
    simp

theorem ref_qualify {t : Ty} (c v : Bool) : (t.qualify c v).isRef ↔ t.isRef := by
  cases t <;> simp [Ty.qualify, Ty.isRef]

/-- `remove_reference` gives the type referred to, `remove_cvref` a type without reference and qualifiers, and doing it
again changes nothing. -/
theorem C94_ref (t : Ty) (h : t.Ok) : removeReference (.lref t) = t ∧ removeReference (.rref t) = t ∧
    (¬ t.isRef → removeReference t = t) ∧ ¬ (removeCvref t).isRef ∧ ¬ (removeCvref t).isConst ∧ ¬ (removeCvref t).isVolatile ∧
    removeCvref (removeCvref t) = removeCvref t := by
  have hr : ¬ (removeReference t).isRef := by
    cases t <;> simp [removeReference, Ty.isRef] <;> exact h.2
  have no : ∀ u : Ty, ¬ u.isRef → removeReference u = u := by
    intro u hu
    cases u <;> simp [removeReference, Ty.isRef] at *
  obtain ⟨h1, h2, c, v, h3⟩ := C94_cv (removeReference t)
  have h4 : ¬ (removeCvref t).isRef := by
    intro hc
    rw [h3, ref_qualify] at hr
    exact hr hc
  refine ⟨rfl, rfl, no t, h4, h1, h2, ?_⟩
  show removeCv (removeReference (removeCvref t)) = _
  rw [no _ h4]
  obtain ⟨k1, k2, a, b, k3⟩ := C94_cv (removeCvref t)
  refine qualify_inj (c := a) (v := b) (c' := false) (v' := false) ⟨k1, k2⟩ ⟨h1, h2⟩ ?_
  rw [← k3, qualify_none]

/-- `remove_pointer` gives the type pointed to, with its qualifiers, however the pointer itself is qualified; other types
stay. -/
theorem C94_pointer (t : Ty) : (∀ c v, removePointer (.ptr c v t) = t) ∧
    ((∀ c v u, t ≠ .ptr c v u) → removePointer t = t) := by
  refine ⟨fun c v => by cases c <;> cases v <;> rfl, fun h => ?_⟩
  cases t with
  | ptr c v u => exact absurd rfl (h c v u)
  | _ => rfl

/-- `is_ptr` holds exactly for pointers, qualified or not, and references to them; not for arrays and functions. -/
theorem C94_is_ptr (t : Ty) : isPtr t = true ↔ ∃ c v u, t = .ptr c v u ∨ t = .lref (.ptr c v u) ∨ t = .rref (.ptr c v u) := by
  have base : ∀ t : Ty, isUnqualifiedPtr (removeCv t) = true ↔ ∃ c v u, t = .ptr c v u := by
    intro t
    obtain ⟨h1, h2, c, v, h3⟩ := C94_cv t
    constructor
    · intro h
      cases e : removeCv t with
      | ptr a b u => rw [e] at h3; exact ⟨_, _, _, h3⟩
      | _ => rw [e] at h; cases h
    · rintro ⟨a, b, u, rfl⟩
      cases e : removeCv (.ptr a b u) with
      | ptr a' b' u' =>
        rw [e] at h1 h2
        simp [Ty.isConst, Ty.isVolatile] at h1 h2
        rw [h1, h2]; rfl
      | _ => rw [e] at h3; cases h3
  unfold isPtr removeCvref
  rw [base]
  cases t <;> simp [removeReference]

/-- `volatile int* const[2]`, a pointer type, a reference -/
def sample : List Ty := [.arr (.ptr true false (.obj false true 7)) 2, .ptr true true (.obj true false 1), .lref (.ptr false true (.fn 3))]

example : ∀ t ∈ sample, t.Ok := by
  intro t ht
  rcases List.mem_cons.1 ht with rfl | ht
  · exact ⟨⟨trivial, id⟩, id, fun n h => by cases h⟩
  rcases List.mem_cons.1 ht with rfl | ht
  · exact ⟨trivial, id⟩
  rcases List.mem_cons.1 ht with rfl | ht
  · exact ⟨⟨trivial, id⟩, id⟩
  · cases ht
example : sample.map removeCvref = [.arr (.ptr false false (.obj false true 7)) 2, .ptr false false (.obj true false 1), .ptr false false (.fn 3)] ∧
    sample.map isPtr = [false, true, true] := by decide

end CE.Traits
