import Verif.Spec.Bits
import Mathlib.Logic.Function.Basic
/-!
# Atomics by bits: invariants
-/
namespace CE.Bits
open CE.Linear CE.Atomic

section
variable {T A R V : Type} [DecidableEq T] [DecidableEq A] [DecidableEq R] {val : R → V}

theorem calls_append (a b : List (Lab T A V)) : calls (a ++ b) = calls a ++ calls b := by
  induction a with
  | nil => rfl
  | cons e a ih => cases e <;> simp [calls, ih]

theorem vain_append (t : T) (a b : List (Lab T A V)) : vain t (a ++ b) = vain t a + vain t b := by
  induction a with
  | nil => simp [vain]
  | cons e a ih => cases e <;> simp [vain, ih] <;> omega

theorem others_append (t : T) (a b : List (Lab T A V)) : others t (a ++ b) = others t a + others t b := by
  induction a with
  | nil => simp [others]
  | cons e a ih =>
    cases e with
    | op e => cases e <;> simp [others, ih] <;> omega
    | _ => simp [others, ih]

theorem begun_append (t : T) (a b : List (Lab T A V)) : begun t (a ++ b) = begun t a + begun t b := by
  induction a with
  | nil => simp [begun]
  | cons e a ih =>
    cases e with
    | op e => cases e <;> simp [begun, ih] <;> omega
    | _ => simp [begun, ih]

/-- the values of the atomics -/
def vals (val : R → V) (d : A → R) : A → V := fun a => val (d a)

theorem vals_put (d : A → R) (a : A) (n : R) :
    vals val (put d a n) = (fun b => if b = a then val n else vals val d b) := by
  funext b; simp only [vals, put]; split <;> rfl

theorem put_same (d : A → R) (a : A) : put d a (d a) = d := by
  funext b; simp only [put]; split
  · next h => rw [h]
  · rfl

/-- the phase of a thread -/
def phase : Pc A R V → Phase (Op A V) (Res V)
  | .idle => .idle
  | .start o => .called o
  | .loop a f _ => .called (.fetch a f)
  | .fin r => .done r

/-- an effect does to the values what it should; with one representation for each value, exactly that -/
theorem effect_step {s s' : St T A R V} {e : Lab T A V} (hs : Step val s e s') :
    match e with
    | .op (.lin _ o r) => Effect o (vals val s.at') (vals val s'.at') r
    | _ => vals val s'.at' = vals val s.at' := by
  cases hs with
  | call t o hp => rfl
  | load t a hp => exact ⟨rfl, rfl⟩
  | store t a v n hp hn => subst hn; exact ⟨vals_put .., rfl⟩
  | exchange t a v n hp hn => subst hn; exact ⟨vals_put .., rfl⟩
  | cas t a e v p n hp he hn =>
    subst he; subst hn
    by_cases h : s.at' a = p
    · refine Or.inl ⟨by simp [vals, h], ?_, by simp [casBits, h]⟩
      simp only [casBits, if_pos h]; exact vals_put ..
    · refine Or.inr ⟨?_, by simp [casBits, h, vals]⟩
      simp only [casBits, if_neg h, put_same]
  | enter t a f b hp => rfl
  | done t a f b n hp hn hc =>
    have h : s.at' a = b := by
      by_contra h; simp [casBits, h] at hc
    subst h
    refine ⟨?_, rfl⟩
    simp only [casBits, if_true]
    rw [vals_put, hn]; rfl
  | again t a f b n hp hn hc =>
    have h : ¬ s.at' a = b := by
      intro h; simp [casBits, h] at hc
    simp only [casBits, if_neg h, put_same]
  | spurious t a f b hp hb => rfl
  | ret t r hp => rfl

/-- with one representation for each value -/
theorem exact_step [DecidableEq V] (hi : Function.Injective val) {s s' : St T A R V} {t : T} {o : Op A V} {r : Res V}
    (hs : Step val s (.op (.lin t o r)) s') : meaning o (vals val s.at') = (vals val s'.at', r) := by
  have key := effect_step hs
  cases o with
  | load a => obtain ⟨h1, h2⟩ := key; simp [meaning, h1, h2]
  | store a v => obtain ⟨h1, h2⟩ := key; simp [meaning, h1, h2]
  | exchange a v => obtain ⟨h1, h2⟩ := key; simp [meaning, h1, h2]
  | fetch a f => obtain ⟨h1, h2⟩ := key; simp [meaning, h1, h2]
  | cas a e v =>
    cases hs with
    | cas _ _ _ _ p n hp he hn =>
      subst he; subst hn
      by_cases h : s.at' a = p
      · have hv : vals val s.at' a = val p := by simp [vals, h]
        show (if _ then _ else _) = _
        rw [if_pos hv]
        have hc : casBits (s.at' a) p n = (n, true, p) := by simp [casBits, h]
        simp only [hc, vals_put]
      · have hv : ¬ vals val s.at' a = val p := fun e => h (hi e)
        show (if _ then _ else _) = _
        rw [if_neg hv]
        simp only [casBits, if_neg h, put_same]
        rfl

theorem put_other {X Y : Type} [DecidableEq X] {f : X → Y} {a b : X} {y : Y} (h : b ≠ a) : put f a y b = f b := by
  simp [put, h]

theorem put_at {X Y : Type} [DecidableEq X] {f : X → Y} {a : X} {y : Y} : put f a y a = y := by simp [put]

theorem proto_step {l : List (Lab T A V)} {s s' : St T A R V} {e : Lab T A V}
    (h : ∀ t, Proto t (calls l) (phase (s.pc t))) (hs : Step val s e s') :
    ∀ t, Proto t (calls (l ++ [e])) (phase (s'.pc t)) := by
  intro u
  rw [calls_append]
  have other : ∀ {t : T} {p : Pc A R V} {e : Ev T (Op A V) (Res V)}, u ≠ t → e.tid = t →
      Proto u (calls l ++ [e]) (phase (put s.pc t p u)) := by
    intro t p e hu he
    rw [put_other hu]
    exact Proto.other (by rw [he]; exact fun h => hu h.symm) (h u)
  have quiet : ∀ {t : T} {p : Pc A R V}, phase p = phase (s.pc t) → Proto u (calls l) (phase (put s.pc t p u)) := by
    intro t p hp
    by_cases hu : u = t
    · subst hu; rw [put_at, hp]; exact h u
    · rw [put_other hu]; exact h u
  have eff : ∀ {t : T} {o : Op A V} {r : Res V}, phase (s.pc t) = .called o →
      Proto u (calls l ++ [.lin t o r]) (phase (put s.pc t (.fin r) u)) := by
    intro t o r hp
    by_cases hu : u = t
    · subst hu; rw [put_at]
      have := h u; rw [hp] at this; exact Proto.lin this
    · exact other hu rfl
  cases hs with
  | call t o hp =>
    by_cases hu : u = t
    · subst hu
      show Proto u _ (phase (put s.pc u _ u))
      rw [put_at]
      have := h u; rw [hp] at this; exact Proto.inv this
    · exact other hu rfl
  | load t a hp => exact eff (by rw [hp]; rfl)
  | store t a v n hp hn => exact eff (by rw [hp]; rfl)
  | exchange t a v n hp hn => exact eff (by rw [hp]; rfl)
  | cas t a e v p n hp he hn => exact eff (by rw [hp]; rfl)
  | enter t a f b hp => simpa [calls] using quiet (t := t) (p := .loop a f b) (by rw [hp]; rfl)
  | done t a f b n hp hn hc => exact eff (by rw [hp]; rfl)
  | again t a f b n hp hn hc => simpa [calls] using quiet (t := t) (p := .loop a f _) (by rw [hp]; rfl)
  | spurious t a f b hp hb => simpa [calls] using quiet (t := t) (p := .loop a f _) (by rw [hp]; rfl)
  | ret t r hp =>
    by_cases hu : u = t
    · subst hu
      show Proto u _ (phase (put s.pc u _ u))
      rw [put_at]
      have := h u; rw [hp] at this; exact Proto.ret this
    · exact other hu rfl

theorem proto_exec {d : A → R} {l : List (Lab T A V)} {s : St T A R V} (h : Exec val (St.init d) l s) :
    ∀ t, Proto t (calls l) (phase (s.pc t)) := by
  induction h with
  | nil => exact fun t => Proto.nil
  | snoc _ hs ih => exact proto_step ih hs

theorem replay_exec {d : A → R} {l : List (Lab T A V)} {s : St T A R V} (h : Exec val (St.init d) l s) :
    Replay (vals val d) (calls l) (vals val s.at') := by
  induction h with
  | nil => exact Replay.nil
  | @snoc l s' e s'' _ hs ih =>
    have k := effect_step hs
    rw [calls_append]
    cases e with
    | op e =>
      cases e with
      | inv t o => rw [show vals val s''.at' = vals val s'.at' from k]; exact Replay.inv ih
      | ret t r => rw [show vals val s''.at' = vals val s'.at' from k]; exact Replay.ret ih
      | lin t o r => exact Replay.lin ih k
    | _ => rw [show vals val s''.at' = vals val s'.at' from k]; simpa [calls] using ih

theorem exact_exec [DecidableEq V] (hi : Function.Injective val) {d : A → R} {l : List (Lab T A V)} {s : St T A R V}
    (h : Exec val (St.init d) l s) : Linear.Replay meaning (vals val d) (calls l) (vals val s.at') := by
  induction h with
  | nil => exact Linear.Replay.nil
  | @snoc l s' e s'' _ hs ih =>
    have k := effect_step hs
    rw [calls_append]
    cases e with
    | op e =>
      cases e with
      | inv t o => rw [show vals val s''.at' = vals val s'.at' from k]; exact Linear.Replay.inv ih
      | ret t r => rw [show vals val s''.at' = vals val s'.at' from k]; exact Linear.Replay.ret ih
      | lin t o r =>
        have e := exact_step hi hs
        have := Linear.Replay.lin (t := t) (o := o) ih
        rw [e] at this; exact this
    | _ => rw [show vals val s''.at' = vals val s'.at' from k]; simpa [calls] using ih

/-- rounds in vain still to come -/
def owed (s : St T A R V) (t : T) : Nat :=
  match s.pc t with
  | .start _ => 1
  | .loop a _ b => if s.at' a = b then 0 else 1
  | _ => 0

theorem owed_le (s : St T A R V) (t : T) : owed s t ≤ 1 := by
  unfold owed; split
  · omega
  · split <;> omega
  · omega

theorem owed_step {s s' : St T A R V} {e : Lab T A V} (hs : Step val s e s') (t : T) :
    vain t [e] + owed s' t ≤ begun t [e] + others t [e] + owed s t := by
  have key : ∀ {u : T} {p : Pc A R V}, u ≠ t → put s.pc u p t = s.pc t := fun h => put_other (Ne.symm h)
  have eff : ∀ {u : T} {o : Op A V} {r : Res V} {d : A → R},
      vain t [Lab.op (.lin u o r)] + owed (⟨d, put s.pc u (.fin r)⟩ : St T A R V) t ≤
        begun t [Lab.op (.lin u o r)] + others t [Lab.op (.lin u o r)] + owed s t := by
    intro u o r d
    by_cases hu : u = t
    · subst hu; simp [vain, owed, put_at]
    · have := owed_le (⟨d, put s.pc u (.fin r)⟩ : St T A R V) t
      simp only [vain, begun, others, if_neg hu]; omega
  cases hs with
  | call u o hp =>
    by_cases hu : u = t
    · subst hu; simp [vain, begun, owed, put_at]; omega
    · simp only [vain, begun, others, owed, key hu, if_neg hu]; omega
  | load u a hp => exact eff
  | store u a v n hp hn => exact eff
  | exchange u a v n hp hn => exact eff
  | cas u a e v p n hp he hn => exact eff
  | enter u a f b hp =>
    by_cases hu : u = t
    · subst hu
      have := owed_le ({ s with pc := put s.pc u (.loop a f b) } : St T A R V) u
      have h1 : owed s u = 1 := by simp [owed, hp]
      simp only [vain, begun, others]; omega
    · simp only [vain, begun, others, owed, key hu]; omega
  | done u a f b n hp hn hc => exact eff
  | again u a f b n hp hn hc =>
    have h : ¬ s.at' a = b := by
      intro h; simp [casBits, h] at hc
    simp only [casBits, if_neg h, put_same]
    by_cases hu : u = t
    · subst hu; simp [vain, begun, others, owed, put_at, hp, h]
    · simp only [vain, begun, others, owed, key hu, if_neg hu]; omega
  | spurious u a f b hp hb =>
    by_cases hu : u = t
    · subst hu; simp [vain, owed, put_at]
    · simp only [vain, begun, others, owed, key hu]; omega
  | ret u r hp =>
    by_cases hu : u = t
    · subst hu; simp [vain, owed, put_at]
    · simp only [vain, begun, others, owed, key hu]; omega

theorem owed_exec {s s' : St T A R V} {l : List (Lab T A V)} (h : Exec val s l s') (t : T) :
    vain t l + owed s' t ≤ begun t l + others t l + owed s t := by
  induction h with
  | nil => simp [vain, begun, others]
  | snoc _ hs ih =>
    rw [vain_append, others_append, begun_append]
    have := owed_step hs t
    omega
end

end CE.Bits
