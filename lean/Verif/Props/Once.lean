import Verif.Props.Atomic
/-!
# Doing something once: claims by compare-exchange and by exchange (C151)
-/
namespace CE.Atomic
open CE.Linear

section
variable {T A V L : Type} [DecidableEq T] [DecidableEq A] [DecidableEq V] [DecidableEq L]

/-- a step is an effect, which is as the operation means, or leaves the atomics alone -/
theorem step_effect {s s' : St T A V L} {e : Lab T A V L} (h : Step s e s') :
    (∃ t o, e = .op (.lin t o (meaning o s.at').2) ∧ s'.at' = (meaning o s.at').1) ∨
    ((∀ t o r, e ≠ .op (.lin t o r)) ∧ s'.at' = s.at') := by
  cases h with
  | write t x v hp => exact .inr ⟨by simp, rfl⟩
  | read t x hp => exact .inr ⟨by simp, rfl⟩
  | flush t e b hb => exact .inr ⟨by simp, rfl⟩
  | call t o hp => exact .inr ⟨by simp, rfl⟩
  | single t o hp hb =>
    left
    refine ⟨t, o, ?_, ?_⟩ <;> rw [single_eq o s.at']
  | enter t a f hp => exact .inr ⟨by simp, rfl⟩
  | done t a f b hp hb hc =>
    left
    refine ⟨t, .fetch a f, ?_, ?_⟩
    · simp [meaning, cmpxchg]
    · have hc : s.at' a = b := hc
      funext c
      simp [meaning, cmpxchg, put, hc]
  | again t a f b hp hb hc =>
    right
    refine ⟨by simp, ?_⟩
    have hc : s.at' a ≠ b := hc
    funext c
    simp only [put, cmpxchg, if_neg hc]
    split
    · rename_i h; rw [h]
    · rfl
  | ret t r hp => exact .inr ⟨by simp, rfl⟩

omit [DecidableEq V] in
theorem put_other {X Y : Type} [DecidableEq X] (f : X → Y) {a b : X} (y : Y) (h : b ≠ a) : put f a y b = f b := by
  simp [put, h]

theorem meaning_other (o : Op A V) (c : A → V) {a : A} (h : o.obj ≠ a) : (meaning o c).1 a = c a := by
  rw [single_eq]
  exact put_other _ _ (fun e => h e.symm)

/-- the effects on the atomic `a` in `l` are all `P` -/
def All (a : A) (l : List (Lab T A V L)) (P : Op A V → Res V → Prop) : Prop :=
  ∀ t o r, Lab.op (.lin t o r) ∈ l → o.obj = a → P o r

omit [DecidableEq T] [DecidableEq A] [DecidableEq V] [DecidableEq L] in
theorem all_snoc {a : A} {l : List (Lab T A V L)} {e : Lab T A V L} {P : Op A V → Res V → Prop} (h : All a l P)
    (he : ∀ t o r, e = .op (.lin t o r) → o.obj = a → P o r) : All a (l ++ [e]) P := by
  intro t o r hm ho
  rcases List.mem_append.1 hm with hm | hm
  · exact h t o r hm ho
  · exact he t o r (List.mem_singleton.1 hm).symm ho

/-- **One compare-exchange succeeds.** Nothing is done to the atomic `a`, at first `v₀`, but loads and compare-exchanges
from `v₀` to something else, by any threads.  Then no compare-exchange has taken effect and all loads gave `v₀`, or
exactly one succeeded, the first; before it all loads gave `v₀`, and after it all loads give its value and all
compare-exchanges fail and are told its value. -/
theorem C151_once {d : A → V} {m : L → V} {l : List (Lab T A V L)} {s : St T A V L} (h : Exec (St.init d m) l s) {a : A}
    {v₀ : V} (h0 : d a = v₀) (ho : All a l (fun o _ => o = .load a ∨ ∃ v, v ≠ v₀ ∧ o = .cas a v₀ v)) :
    (s.at' a = v₀ ∧ All a l (fun o r => o = .load a ∧ r = .val v₀)) ∨
    ∃ X t v Y, l = X ++ [.op (.lin t (.cas a v₀ v) (.cas true v₀))] ++ Y ∧ v ≠ v₀ ∧ s.at' a = v ∧
      All a X (fun o r => o = .load a ∧ r = .val v₀) ∧
      All a Y (fun o r => (o = .load a ∧ r = .val v) ∨ (∃ v', o = .cas a v₀ v') ∧ r = .cas false v) := by
  induction h with
  | nil => exact .inl ⟨h0, fun t o r hm => absurd hm (by simp)⟩
  | @snoc l s' e s'' h hs ih =>
    have ih := ih (fun t o r hm => ho t o r (List.mem_append_left _ hm))
    rcases step_effect hs with ⟨t, o, rfl, ha⟩ | ⟨hn, ha⟩
    · by_cases hoa : o.obj = a
      · have hoe := ho t o _ (List.mem_append_right _ (List.mem_singleton.2 rfl)) hoa
        rcases ih with ⟨e1, e2⟩ | ⟨X, t', v, Y, e1, e2, e3, e4, e5⟩
        · rcases hoe with rfl | ⟨v, hv, rfl⟩
          · left
            refine ⟨by rw [ha]; exact e1, all_snoc e2 ?_⟩
            intro t1 o1 r1 he _
            injection he with he
            injection he with _ h2 h3
            subst h2; subst h3
            exact ⟨rfl, by simp [meaning, e1]⟩
          · right
            have em : meaning (.cas a v₀ v) s'.at' = (fun b => if b = a then v else s'.at' b, .cas true v₀) := if_pos e1
            refine ⟨l, t, v, [], by rw [em]; simp, hv, by rw [ha, em]; simp, e2, fun t o r hm => absurd hm (by simp)⟩
        · right
          refine ⟨X, t', v, Y ++ [.op (.lin t o (meaning o s'.at').2)], by rw [e1]; simp, e2, ?_, e4, all_snoc e5 ?_⟩
          · rw [ha]
            rcases hoe with rfl | ⟨v', hv, rfl⟩
            · exact e3
            · have em : meaning (.cas a v₀ v') s'.at' = (s'.at', .cas false (s'.at' a)) := if_neg (by rw [e3]; exact e2)
              rw [em]; exact e3
          · intro t1 o1 r1 he _
            injection he with he
            injection he with _ h2 h3
            subst h2; subst h3
            rcases hoe with rfl | ⟨v', hv, rfl⟩
            · exact .inl ⟨rfl, by simp [meaning, e3]⟩
            · have em : meaning (.cas a v₀ v') s'.at' = (s'.at', .cas false (s'.at' a)) := if_neg (by rw [e3]; exact e2)
              exact .inr ⟨⟨v', rfl⟩, by rw [em, e3]⟩
      · have hk : s''.at' a = s'.at' a := by rw [ha]; exact meaning_other o _ hoa
        have hx : ∀ (P : Op A V → Res V → Prop) (t1 : T) (o1 : Op A V) (r1 : Res V),
            (Lab.op (.lin t o (meaning o s'.at').2) : Lab T A V L) = .op (.lin t1 o1 r1) → o1.obj = a → P o1 r1 := by
          intro P t1 o1 r1 he h1
          injection he with he
          injection he with _ h2 _
          exact absurd (h2 ▸ h1) hoa
        rcases ih with ⟨e1, e2⟩ | ⟨X, t', v, Y, e1, e2, e3, e4, e5⟩
        · exact .inl ⟨by rw [hk, e1], all_snoc e2 (hx _)⟩
        · exact .inr ⟨X, t', v, Y ++ [_], by rw [e1]; simp, e2, by rw [hk, e3], e4, all_snoc e5 (hx _)⟩
    · have hx : ∀ (P : Op A V → Res V → Prop) (t1 : T) (o1 : Op A V) (r1 : Res V),
          e = .op (.lin t1 o1 r1) → o1.obj = a → P o1 r1 := fun P t1 o1 r1 he _ => absurd he (hn t1 o1 r1)
      rcases ih with ⟨e1, e2⟩ | ⟨X, t', v, Y, e1, e2, e3, e4, e5⟩
      · exact .inl ⟨by rw [ha, e1], all_snoc e2 (hx _)⟩
      · exact .inr ⟨X, t', v, Y ++ [e], by rw [e1]; simp, e2, by rw [ha, e3], e4, all_snoc e5 (hx _)⟩

/-- **One exchange finds the flag down.** Nothing is done to the flag `a` but exchanges with `v₁`: the first gets what was
there at the beginning, and all others get `v₁`. -/
theorem C151_flag {d : A → V} {m : L → V} {l : List (Lab T A V L)} {s : St T A V L} (h : Exec (St.init d m) l s) {a : A}
    {v₁ : V} (ho : All a l (fun o _ => o = .exchange a v₁)) :
    (s.at' a = d a ∧ All a l (fun _ _ => False)) ∨
    ∃ X t Y, l = X ++ [.op (.lin t (.exchange a v₁) (.val (d a)))] ++ Y ∧ s.at' a = v₁ ∧
      All a X (fun _ _ => False) ∧ All a Y (fun o r => o = .exchange a v₁ ∧ r = .val v₁) := by
  induction h with
  | nil => exact .inl ⟨rfl, fun t o r hm => absurd hm (by simp)⟩
  | @snoc l s' e s'' h hs ih =>
    have ih := ih (fun t o r hm => ho t o r (List.mem_append_left _ hm))
    rcases step_effect hs with ⟨t, o, rfl, ha⟩ | ⟨hn, ha⟩
    · by_cases hoa : o.obj = a
      · have hoe := ho t o _ (List.mem_append_right _ (List.mem_singleton.2 rfl)) hoa
        subst hoe
        have em : meaning (.exchange a v₁) s'.at' = (fun b => if b = a then v₁ else s'.at' b, .val (s'.at' a)) := rfl
        rcases ih with ⟨e1, e2⟩ | ⟨X, t', Y, e1, e3, e4, e5⟩
        · right
          exact ⟨l, t, [], by rw [em, e1]; simp, by rw [ha, em]; simp, e2, fun t o r hm => absurd hm (by simp)⟩
        · right
          refine ⟨X, t', Y ++ [.op (.lin t (.exchange a v₁) (meaning (.exchange a v₁) s'.at').2)], by rw [e1]; simp,
            by rw [ha, em]; simp, e4, all_snoc e5 ?_⟩
          intro t1 o1 r1 he _
          injection he with he
          injection he with _ h2 h3
          subst h2; subst h3
          exact ⟨rfl, by rw [em, e3]⟩
      · have hk : s''.at' a = s'.at' a := by rw [ha]; exact meaning_other o _ hoa
        have hx : ∀ (P : Op A V → Res V → Prop) (t1 : T) (o1 : Op A V) (r1 : Res V),
            (Lab.op (.lin t o (meaning o s'.at').2) : Lab T A V L) = .op (.lin t1 o1 r1) → o1.obj = a → P o1 r1 := by
          intro P t1 o1 r1 he h1
          injection he with he
          injection he with _ h2 _
          exact absurd (h2 ▸ h1) hoa
        rcases ih with ⟨e1, e2⟩ | ⟨X, t', Y, e1, e3, e4, e5⟩
        · exact .inl ⟨by rw [hk, e1], all_snoc e2 (hx _)⟩
        · exact .inr ⟨X, t', Y ++ [_], by rw [e1]; simp, by rw [hk, e3], e4, all_snoc e5 (hx _)⟩
    · have hx : ∀ (P : Op A V → Res V → Prop) (t1 : T) (o1 : Op A V) (r1 : Res V),
          e = .op (.lin t1 o1 r1) → o1.obj = a → P o1 r1 := fun P t1 o1 r1 he _ => absurd he (hn t1 o1 r1)
      rcases ih with ⟨e1, e2⟩ | ⟨X, t', Y, e1, e3, e4, e5⟩
      · exact .inl ⟨by rw [ha, e1], all_snoc e2 (hx _)⟩
      · exact .inr ⟨X, t', Y ++ [e], by rw [e1]; simp, by rw [ha, e3], e4, all_snoc e5 (hx _)⟩

/-- **Who sees the object sees it complete.** The atomic pointer `a` is null (`v₀`) at first and is set as in `C151_once`;
the object `w` is made by thread `t` alone, which writes its member `x` before its compare-exchange, and nobody else writes
to `x`.  A thread `u` that got `w` from `a` (by a load, or by its own failing compare-exchange) and then reads `x` gets what
`t` wrote before the compare-exchange, or something `t` has written since. -/
theorem C151_published {d : A → V} {m : L → V} {s : St T A V L} {X Y Z : List (Lab T A V L)} {t u : T} {x : L}
    {v v' w v₀ : V} {a : A} {o : Op A V} {r : Res V}
    (h : Exec (St.init d m) (X ++ [.write t x v] ++ Y ++ [.op (.lin u o r)] ++ Z ++ [.read u x v']) s)
    (h0 : d a = v₀)
    (ho : All a (X ++ [.write t x v] ++ Y ++ [.op (.lin u o r)] ++ Z ++ [.read u x v'])
      (fun o _ => o = .load a ∨ ∃ v, v ≠ v₀ ∧ o = .cas a v₀ v))
    (hw : w ≠ v₀) (hoa : o.obj = a) (hr : r = .val w ∨ r = .cas false w)
    (hm : ∀ t' r', Lab.op (.lin t' (.cas a v₀ w) r') ∈ X ++ [.write t x v] ++ Y ++ [.op (.lin u o r)] ++ Z → t' = t)
    (hX : ∀ r', Lab.op (.lin t (.cas a v₀ w) r') ∉ X)
    (hx : ∀ u' z, Lab.write u' x z ∈ X ++ Y ++ Z → u' = t) :
    v' = v ∨ Lab.write t x v' ∈ Y ++ Z := by
  obtain ⟨s1, h1, -⟩ := h.split
  obtain ⟨s2, h2, -⟩ := h1.split
  have ho2 : All a (X ++ [.write t x v] ++ Y ++ [.op (.lin u o r)]) (fun o _ => o = .load a ∨ ∃ v, v ≠ v₀ ∧ o = .cas a v₀ v) :=
    fun t o r hm => ho t o r (List.mem_append_left _ (List.mem_append_left _ hm))
  rcases C151_once h2 h0 ho2 with ⟨-, e2⟩ | ⟨X', t', z, Y', e1, e2, -, e4, e5⟩
  · obtain ⟨-, e⟩ := e2 u o r (by simp) hoa
    rcases hr with rfl | rfl
    · injection e with e; exact absurd e hw
    · cases e
  · -- the winner's value is `w`
    have hlast : Y' ≠ [] := by
      rintro rfl
      rw [List.append_nil] at e1
      have := List.append_inj_right' e1 rfl
      injection this with this
      injection this with this
      injection this with _ _ h3
      rcases hr with rfl | rfl <;> cases h3
    obtain ⟨Y'', y, rfl⟩ : ∃ Y'' y, Y' = Y'' ++ [y] := ⟨_, _, (List.dropLast_concat_getLast hlast).symm⟩
    rw [← List.append_assoc] at e1
    have hy := List.append_inj_right' e1 rfl
    have hp := List.append_inj_left' e1 rfl
    injection hy with hy
    have hz : z = w := by
      have := e5 u o r (by rw [← hy]; simp) hoa
      rcases this with ⟨-, e⟩ | ⟨-, e⟩
      · rcases hr with rfl | rfl
        · injection e with e; exact e.symm
        · cases e
      · rcases hr with rfl | rfl
        · cases e
        · injection e with _ e; exact e.symm
    subst hz
    have ht : t' = t := hm t' (.cas true v₀) (by
      rw [hp]; simp)
    subst ht
    -- its compare-exchange is in `Y`
    have hin : Lab.op (.lin t' (.cas a v₀ z) (.cas true v₀)) ∈ Y := by
      have : (Lab.op (.lin t' (.cas a v₀ z) (.cas true v₀)) : Lab T A V L) ∈ X ++ [.write t' x v] ++ Y := by rw [hp]; simp
      rcases List.mem_append.1 this with hh | hh
      · rcases List.mem_append.1 hh with hh | hh
        · exact absurd hh (hX _)
        · cases List.mem_singleton.1 hh
      · exact hh
    obtain ⟨Y1, Y2, rfl⟩ := List.append_of_mem hin
    have h' : Exec (St.init d m) (X ++ [.write t' x v] ++ Y1 ++ [.op (.lin t' (.cas a v₀ z) (.cas true v₀))] ++
        (Y2 ++ [.op (.lin u o r)] ++ Z) ++ [.read u x v']) s := by
      simpa [List.append_assoc] using h
    have := C90_publish h' (fun b => by simp) (by
      intro u' k hk
      apply hx u' k
      simp only [List.mem_append, List.mem_cons, List.not_mem_nil, or_false] at hk ⊢
      rcases hk with (hk | hk) | (hk | hk) | hk
      · exact .inl (.inl hk)
      · exact .inl (.inr (.inl hk))
      · exact .inl (.inr (.inr (.inr hk)))
      · cases hk
      · exact .inr hk)
    rcases this with this | this
    · exact .inl this
    · right
      simp only [List.mem_append, List.mem_cons, List.not_mem_nil, or_false] at this ⊢
      rcases this with hk | (hk | hk) | hk
      · exact .inl (.inl hk)
      · exact .inl (.inr (.inr hk))
      · cases hk
      · exact .inr hk
end

/-! ## The hypotheses are met -/

/-- thread `true` makes object 7, whose member it sets to 42, and publishes it; thread `false` tries to publish 9, fails, is
told 7 and reads the member -/
example : ∃ (l : List (Lab Bool Unit Nat Unit)) (s : St Bool Unit Nat Unit),
    Exec (St.init (fun _ => 0) (fun _ => 0)) l s ∧ s.at' () = 7 ∧
    l = [] ++ [.write true () 42] ++ [.op (.inv true (.cas () 0 7)), .flush true,
        .op (.lin true (.cas () 0 7) (.cas true 0)), .op (.inv false (.cas () 0 9))] ++
      [.op (.lin false (.cas () 0 9) (.cas false 7))] ++ [.op (.ret false (.cas false 7))] ++ [.read false () 42] := by
  have h0 : Exec (St.init (fun _ => 0) (fun _ => 0) : St Bool Unit Nat Unit) [] _ := Exec.nil
  have h1 := Exec.snoc h0 (Step.write _ true () 42 rfl)
  have h2 := Exec.snoc h1 (Step.call _ true (.cas () 0 7) rfl)
  have h3 := Exec.snoc h2 (Step.flush _ true ((), 42) [] rfl)
  have h4 := Exec.snoc h3 (Step.single _ true (.cas () 0 7) rfl (fun _ => rfl))
  have h5 := Exec.snoc h4 (Step.call _ false (.cas () 0 9) rfl)
  have h6 := Exec.snoc h5 (Step.single _ false (.cas () 0 9) rfl (fun _ => rfl))
  have h7 := Exec.snoc h6 (Step.ret _ false (.cas false 7) rfl)
  have h8 := Exec.snoc h7 (Step.read _ false () rfl)
  exact ⟨_, _, h8, rfl, rfl⟩

/-- two threads exchange a flag -/
example : ∃ (l : List (Lab Bool Unit Nat Unit)) (s : St Bool Unit Nat Unit),
    Exec (St.init (fun _ => 0) (fun _ => 0)) l s ∧ s.at' () = 1 ∧
    l = [.op (.inv true (.exchange () 1)), .op (.inv false (.exchange () 1)), .op (.lin false (.exchange () 1) (.val 0)),
      .op (.lin true (.exchange () 1) (.val 1))] := by
  have h0 : Exec (St.init (fun _ => 0) (fun _ => 0) : St Bool Unit Nat Unit) [] _ := Exec.nil
  have h1 := Exec.snoc h0 (Step.call _ true (.exchange () 1) rfl)
  have h2 := Exec.snoc h1 (Step.call _ false (.exchange () 1) rfl)
  have h3 := Exec.snoc h2 (Step.single _ false (.exchange () 1) rfl (fun _ => rfl))
  have h4 := Exec.snoc h3 (Step.single _ true (.exchange () 1) rfl (fun _ => rfl))
  exact ⟨_, _, h4, rfl, rfl⟩

end CE.Atomic
