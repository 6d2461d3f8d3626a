import Verif.Proof.Bits
/-!
# C133: compare-exchange compares bits; the fetch loops are right all the same
-/
namespace CE.Bits
open CE.Linear CE.Atomic

section
variable {T A R V : Type} [DecidableEq T] [DecidableEq A] [DecidableEq R] {val : R → V}

/-- Whatever the first relaxed load gives, however often the weak compare-exchange fails for no reason, and whichever
representations the values get: each operation takes effect once between call and return, on the value that is there. -/
theorem C133_linearizable {d : A → R} {l : List (Lab T A V)} {s : St T A R V} (h : Exec val (St.init d) l s) :
    Replay (fun a => val (d a)) (calls l) (fun a => val (s.at' a)) ∧ ∀ t, ∃ ph, Proto t (calls l) ph :=
  ⟨replay_exec h, fun t => ⟨_, proto_exec h t⟩⟩

/-- If each value has one representation, a compare-exchange succeeds exactly when the value is the one expected. -/
theorem C133_exact_partial [DecidableEq V] (hi : Function.Injective val) {d : A → R} {l : List (Lab T A V)} {s : St T A R V}
    (h : Exec val (St.init d) l s) : Linearizable meaning (fun a => val (d a)) (calls l) (fun a => val (s.at' a)) :=
  ⟨exact_exec hi h, fun t => ⟨_, proto_exec h t⟩⟩

/-- Rounds in vain, but for those without reason, are at most one for each call of the thread itself and one for each effect
of another. -/
theorem C133_rounds {d : A → R} {l : List (Lab T A V)} {s : St T A R V} (h : Exec val (St.init d) l s) (t : T) :
    vain t l ≤ begun t l + others t l := by
  have := owed_exec h t
  have h0 : owed (St.init d : St T A R V) t = 0 := rfl
  omega

/-- In particular a thread in its loop that nobody disturbs is done in the second round, even if the contents are a NaN or
have padding. -/
theorem C133_alone {l : List (Lab T A V)} {s s' : St T A R V} (h : Exec val s l s') (t : T) (ho : others t l = 0)
    (hb : begun t l = 0) : vain t l ≤ 1 := by
  have := owed_exec h t
  have := owed_le s t
  omega

/-- A loop always can go on: there is a round to make, in vain or not, as long as the sum has a representation. -/
theorem C133_goes {s : St T A R V} {t : T} {a : A} {f : V → V} {b : R} (hp : s.pc t = .loop a f b)
    (hf : ∃ n, val n = f (val b)) :
    (s.at' a = b → ∃ s', Step val s (.op (.lin t (.fetch a f) (.val (val (s.at' a))))) s' ∧
      val (s'.at' a) = f (val (s.at' a))) ∧
    (s.at' a ≠ b → ∃ s', Step val s (.again t) s' ∧ s'.at' = s.at' ∧ s'.pc t = .loop a f (s.at' a)) := by
  obtain ⟨n, hn⟩ := hf
  refine ⟨fun h => ?_, fun h => ?_⟩
  · have := Step.done (val := val) s t a f b n hp hn (by simp [casBits, h])
    subst h
    exact ⟨_, this, by simp [casBits, put, hn]⟩
  · refine ⟨_, Step.again (val := val) s t a f b n hp hn (by simp [casBits, h]), ?_, ?_⟩
    · simp only [casBits, if_neg h, put_same]
    · simp [casBits, h, put]
end

/-! ## bits against `==` -/

/-- `compare_exchange` succeeds exactly when the contents `==` what is expected, if that is what `==` means. -/
theorem C133_equal_partial {R : Type} [DecidableEq R] (eq : R → R → Bool) (he : ∀ a b, eq a b = true ↔ a = b) (cell p n : R) :
    ((casBits cell p n).2.1 = eq cell p) ∧ (casBits cell p n).1 = (if eq cell p then n else cell) ∧
      (casBits cell p n).2.2 = cell := by
  by_cases h : cell = p
  · have h' : eq cell p = true := (he _ _).2 h
    rw [h']; simp [casBits, h]
  · have h' : eq cell p = false := by
      cases e : eq cell p with
      | false => rfl
      | true => exact absurd ((he _ _).1 e) h
    rw [h']; simp [casBits, h]

/-- Floats: 0 is in the atomic and -0 expected, which are equal; the compare-exchange fails whatever is to be stored. -/
theorem C133_zero_false (n : BitVec 32) : ieeeEq 0#32 0x80000000#32 = true ∧
    casBits 0#32 0x80000000#32 n = (0#32, false, 0#32) := by
  refine ⟨by decide, ?_⟩
  unfold casBits
  rw [if_neg (by decide)]

/-- Floats: a NaN is expected, which equals nothing, not even itself; the compare-exchange succeeds if its bits are there. -/
theorem C133_nan_false (b n : BitVec 32) (h : ieeeEq b b = false) : (∀ c, ieeeEq c b = false) ∧
    casBits b b n = (n, true, b) := by
  refine ⟨fun c => ?_, by simp [casBits]⟩
  unfold ieeeEq at h ⊢
  simp only [Bool.and_eq_false_iff, beq_self_eq_true, Bool.true_or, Bool.not_eq_false', or_self,
    Bool.true_eq_false, or_false] at h ⊢
  exact Or.inl (Or.inr h)

/-- the usual NaN meets the hypothesis -/
example : ieeeEq 0x7fc00000#32 0x7fc00000#32 = false := by decide

/-- Floats, besides: bits decide for everything but zeros and NaNs. -/
theorem C133_float (b p n : BitVec 32) (hz : ¬ (b &&& 0x7fffffff#32 = 0#32 ∧ p &&& 0x7fffffff#32 = 0#32))
    (hn : ieeeEq p p = true) : (casBits b p n).2.1 = ieeeEq b p := by
  by_cases h : b = p
  · subst h; rw [hn]; simp [casBits]
  · have : ieeeEq b p = false := by
      have h1 : (b == p) = false := by simpa using h
      have h2 : ((b &&& 0x7fffffff#32) == 0#32 && (p &&& 0x7fffffff#32) == 0#32) = false := by
        rw [Bool.and_eq_false_iff]
        simp only [beq_eq_false_iff_ne]
        by_cases hb : b &&& 0x7fffffff#32 = 0#32
        · exact Or.inr (fun e => hz ⟨hb, e⟩)
        · exact Or.inl hb
      unfold ieeeEq
      simp only [h1, h2, Bool.or_false, Bool.and_false]
    rw [this]; simp [casBits, h]

/-- one against one -/
example : ieeeEq 0x3f800000#32 0x3f800000#32 = true ∧ ¬ (0x3f800000#32 &&& 0x7fffffff#32 = 0#32) := by decide

/-- A class with padding: all members are as expected; the compare-exchange fails whatever is to be stored. -/
theorem C133_padding_false (n : BitVec 32) : members 0x00050001#32 = members 0x0005ff01#32 ∧
    casBits 0x00050001#32 0x0005ff01#32 n = (0x00050001#32, false, 0x00050001#32) := by
  refine ⟨by decide, ?_⟩
  unfold casBits
  rw [if_neg (by decide)]

/-! ## the caller's loop -/

/-- If copies keep all bits, the caller's loop that nobody disturbs ends in the second round at the latest. -/
theorem C133_retry_partial {R : Type} [DecidableEq R] (copy : Nat → R → R) (hc : ∀ i r, copy i r = r) (cell e : R) (n : Nat) :
    retry copy cell (n + 2) e = true := by
  by_cases h : cell = e
  · simp [retry, casBits, hc, h]
  · simp [retry, casBits, hc, h]

/-- If copies keep the value but not the padding, it need not end. -/
theorem C133_retry_false : ∃ copy : Nat → BitVec 32 → BitVec 32, (∀ i r, members (copy i r) = members r) ∧
    ∀ n, retry copy 0x00050001#32 n 0x00050001#32 = false := by
  refine ⟨fun _ r => r ||| 0x0000ff00#32, fun _ r => ?_, fun n => ?_⟩
  · simp only [members, Prod.mk.injEq]
    constructor
    · ext i hi
      have : ∀ j : Fin 8, (0x0000ff00#32).getLsbD (0 + j) = false := by decide
      simpa using fun h => absurd h (by simpa using this ⟨i, hi⟩)
    · ext i hi
      have : ∀ j : Fin 16, (0x0000ff00#32).getLsbD (16 + j) = false := by decide
      simpa using fun h => absurd h (by simpa using this ⟨i, hi⟩)
  · have key : ∀ (n : Nat) (e : BitVec 32), retry (fun _ r => r ||| 0x0000ff00#32) 0x00050001#32 n e = false := by
      intro n
      induction n with
      | zero => intro e; rfl
      | succ n ih =>
        intro e
        have hne : ¬ (0x00050001#32 = e ||| 0x0000ff00#32) := by
          intro h
          have h2 := congrArg (fun x => x.getLsbD 8) h
          simp at h2
        simp only [retry, casBits, if_neg hne]
        exact ih _
    exact key n _

/-! ## cases -/

/-- A thread adds 5 to a class with padding: the relaxed load is stale, the first round is in vain, the next fails for no
reason, and the third returns the value that was there. -/
example : ∃ (l : List (Lab Unit Unit (BitVec 8 × BitVec 16))) (s : St Unit Unit (BitVec 32) (BitVec 8 × BitVec 16)),
    Exec members (St.init fun _ => 0x0005ff01#32) l s ∧ vain () l = 1 ∧ begun () l = 1 ∧
    members (s.at' ()) = (1#8, 10#16) ∧
    calls l = [.inv () (.fetch () fun v => (v.1, v.2 + 5)), .lin () (.fetch () fun v => (v.1, v.2 + 5)) (.val (1#8, 5#16))] := by
  let f : BitVec 8 × BitVec 16 → BitVec 8 × BitVec 16 := fun v => (v.1, v.2 + 5)
  have e0 : Exec members (St.init fun _ => 0x0005ff01#32 : St Unit Unit (BitVec 32) (BitVec 8 × BitVec 16)) [] _ := Exec.nil
  have e1 := Exec.snoc e0 (Step.call _ () (.fetch () f) rfl)
  have e2 := Exec.snoc e1 (Step.enter _ () () f 0x00050001#32 rfl)
  have e3 := Exec.snoc e2 (Step.again _ () () f 0x00050001#32 0x000a0001#32 rfl (by decide) (by decide))
  have e4 := Exec.snoc e3 (Step.spurious _ () () f 0x0005ff01#32 (by simp [put, casBits]; decide) (by decide))
  have e5 := Exec.snoc e4 (Step.done _ () () f 0x0005ff01#32 0x000aee01#32 rfl (by decide) (by decide))
  exact ⟨_, _, e5, rfl, rfl, by decide, rfl⟩

/-- values with one representation: the bits themselves -/
example : Function.Injective (fun r : BitVec 32 => r) := fun _ _ h => h

end CE.Bits
