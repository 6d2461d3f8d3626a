import Verif.Model.FetchAdd
/-!
# Atomic loops: invariant
-/
namespace CE.FetchAdd
open CE.Linear

variable {T V : Type} [DecidableEq T] [DecidableEq V]

/-- the sequential operations: new contents and result -/
def seqApply : Op V → V → V × V
  | .fetch f, s => (f s, s)
  | .exchange v, s => (v, s)

/-- the phase of a thread -/
def phase : Pc V → Phase (Op V) V
  | .idle => .idle
  | .start o => .called o
  | .loop f _ => .called (.fetch f)
  | .fin r => .done r

/-- invariant -/
def Inv (v : V) (s : St T V) : Prop :=
  Replay seqApply v s.tr s.mem ∧ ∀ t, Proto t s.tr (phase (s.pc t))

theorem stdRound_ok (f : V → V) (mem e : V) (sp : Bool) (seen : V) :
    stdRound f mem e sp seen = (.result mem, f mem) ∨ ∃ e', stdRound f mem e sp seen = (.again e', mem) := by
  unfold stdRound casWeak
  by_cases h : mem = e ∧ sp = false
  · left; simp [h]
  · right; exact ⟨seen, by simp [h]⟩

theorem msvcRound_ok (f : V → V) (mem e : V) :
    msvcRound f mem e = (.result mem, f mem) ∨ ∃ e', msvcRound f mem e = (.again e', mem) := by
  unfold msvcRound interlockedCas
  by_cases h : mem = e
  · left; simp [h]
  · right; exact ⟨mem, by simp [h]⟩

theorem inv_after {v : V} {s : St T V} (h : Inv v s) {t : T} {f : V → V} {e : V} (hp : s.pc t = .loop f e)
    {r : Round V × V} (hr : r = (.result s.mem, f s.mem) ∨ ∃ e', r = (.again e', s.mem)) : Inv v (after s t f r) := by
  rcases hr with rfl | ⟨e', rfl⟩
  · refine ⟨Replay.lin (t := t) (o := Op.fetch f) h.1, fun t' => ?_⟩
    show Proto t' _ (phase (setPc s.pc t (.fin s.mem) t'))
    unfold setPc
    by_cases ht : t' = t
    · subst ht
      rw [if_pos rfl]
      have := h.2 t'
      rw [hp] at this
      exact Proto.lin this
    · rw [if_neg ht]
      exact Proto.other (fun h => ht h.symm) (h.2 t')
  · refine ⟨h.1, fun t' => ?_⟩
    show Proto t' _ (phase (setPc s.pc t (.loop f e') t'))
    unfold setPc
    by_cases ht : t' = t
    · subst ht
      rw [if_pos rfl]
      have := h.2 t'
      rw [hp] at this
      exact this
    · rw [if_neg ht]
      exact h.2 t'

theorem inv_step {v : V} {s s' : St T V} (h : Inv v s) (hs : Step s s') : Inv v s' := by
  cases hs with
  | call t o hp =>
    refine ⟨Replay.inv h.1, fun t' => ?_⟩
    show Proto t' _ (phase (setPc s.pc t _ t'))
    unfold setPc
    by_cases ht : t' = t
    · subst ht; rw [if_pos rfl]
      have := h.2 t'; rw [hp] at this
      exact Proto.inv this
    · rw [if_neg ht]; exact Proto.other (fun h => ht h.symm) (h.2 t')
  | load t f e hp =>
    refine ⟨h.1, fun t' => ?_⟩
    show Proto t' _ (phase (setPc s.pc t _ t'))
    unfold setPc
    by_cases ht : t' = t
    · subst ht; rw [if_pos rfl]
      have := h.2 t'; rw [hp] at this
      exact this
    · rw [if_neg ht]; exact h.2 t'
  | std t f e sp seen hp => exact inv_after h hp (stdRound_ok f s.mem e sp seen)
  | msvc t f e hp => exact inv_after h hp (msvcRound_ok f s.mem e)
  | direct t f hp =>
    refine ⟨Replay.lin (t := t) (o := Op.fetch f) h.1, fun t' => ?_⟩
    show Proto t' _ (phase (setPc s.pc t _ t'))
    unfold setPc
    by_cases ht : t' = t
    · subst ht; rw [if_pos rfl]
      have := h.2 t'; rw [hp] at this
      exact Proto.lin this
    · rw [if_neg ht]; exact Proto.other (fun h => ht h.symm) (h.2 t')
  | exchange t w hp =>
    refine ⟨Replay.lin (t := t) (o := Op.exchange w) h.1, fun t' => ?_⟩
    show Proto t' _ (phase (setPc s.pc t _ t'))
    unfold setPc
    by_cases ht : t' = t
    · subst ht; rw [if_pos rfl]
      have := h.2 t'; rw [hp] at this
      exact Proto.lin this
    · rw [if_neg ht]; exact Proto.other (fun h => ht h.symm) (h.2 t')
  | ret t r hp =>
    refine ⟨Replay.ret h.1, fun t' => ?_⟩
    show Proto t' _ (phase (setPc s.pc t _ t'))
    unfold setPc
    by_cases ht : t' = t
    · subst ht; rw [if_pos rfl]
      have := h.2 t'; rw [hp] at this
      exact Proto.ret this
    · rw [if_neg ht]; exact Proto.other (fun h => ht h.symm) (h.2 t')

theorem inv_reach {v : V} {s : St T V} (h : Reach v s) : Inv v s := by
  induction h with
  | init => exact ⟨Replay.nil, fun t => Proto.nil⟩
  | step _ hs ih => exact inv_step ih hs

/-- effects of the calls, in order -/
def effects : List (Ev T (Op V) V) → List (Op V)
  | [] => []
  | .lin _ o _ :: tr => o :: effects tr
  | _ :: tr => effects tr

theorem effects_append (a b : List (Ev T (Op V) V)) : effects (a ++ b) = effects a ++ effects b := by
  induction a with
  | nil => rfl
  | cons e a ih => cases e <;> simp [effects, ih]

theorem replay_effects {v m : V} {tr : List (Ev T (Op V) V)} (h : Replay seqApply v tr m) :
    m = (effects tr).foldl (fun s o => (seqApply o s).1) v := by
  induction h with
  | nil => rfl
  | inv _ ih => rw [effects_append]; simpa [effects] using ih
  | ret _ ih => rw [effects_append]; simpa [effects] using ih
  | lin _ ih => rw [effects_append, List.foldl_append, ← ih]; rfl

end CE.FetchAdd
