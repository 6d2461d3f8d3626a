import Verif.Props.Seed
import Verif.Props.FnvShort
/-! C108 for seeds that differ within a few bytes, such as one number in a structure. -/
namespace CE.Random

open CE.Crc (U8 U32 U64)

/-- the parts of two lists that differ in a stretch -/
theorem stretch_parts (pre x y post : List U8) (hl : x.length = y.length) (h4 : x.length ≤ 4) (c : U32) (k : Nat) :
    ((pre ++ x ++ post).take k ≠ (pre ++ y ++ post).take k →
      Crc.crc32Bytes Crc.crc32cPoly c ((pre ++ x ++ post).take k) ≠ Crc.crc32Bytes Crc.crc32cPoly c ((pre ++ y ++ post).take k)) ∧
    ((pre ++ x ++ post).drop k ≠ (pre ++ y ++ post).drop k →
      Crc.crc32Bytes Crc.crc32cPoly c ((pre ++ x ++ post).drop k) ≠ Crc.crc32Bytes Crc.crc32cPoly c ((pre ++ y ++ post).drop k)) := by
  constructor
  · simp only [List.take_append, List.length_append, hl]
    intro hn
    exact crc_differ c _ _ _ _ (by simp [hl]) (by simp; omega) fun e => hn (by rw [e])
  · simp only [List.drop_append, List.length_append, hl]
    intro hn
    exact crc_differ c _ _ _ _ (by simp [hl]) (by simp; omega) fun e => hn (by rw [e])

/-- C108.  `xoroshiro64ss`: seeds of the same length that differ only within a stretch of at most four bytes, such as a 32 bit number.  Of
any two consecutive results of the generators one differs. -/
theorem C108_xoroshiro64ss_stretch (pre x y post : List U8) (hl : x.length = y.length) (h4 : x.length ≤ 4) (hne : x ≠ y) :
    ∃ g h, seed64ss (pre ++ x ++ post) = some g ∧ seed64ss (pre ++ y ++ post) = some h ∧ g ≠ h ∧
      ∀ k, (next64ss (step64^[k] g)).1 ≠ (next64ss (step64^[k] h)).1 ∨
        (next64ss (step64^[k + 1] g)).1 ≠ (next64ss (step64^[k + 1] h)).1 := by
  have hne : state64 (pre ++ x ++ post) ≠ state64 (pre ++ y ++ post) := by
    apply seed64_differ
    · simp [hl]
    · simpa using hne
    · exact fun c => (stretch_parts pre x y post hl h4 c _).1
    · exact fun c => (stretch_parts pre x y post hl h4 c _).2
  exact ⟨_, _, seed64ss_eq _, seed64ss_eq _, hne, streams_differ hne⟩

/-- C108.  `xoroshiro128pp`: seeds that differ only within a stretch of at most six bytes give states that never meet. -/
theorem C108_xoroshiro128pp_stretch (pre x y post : List U8) (hl : x.length = y.length) (h6 : x.length ≤ 6) (hne : x ≠ y) (k : Nat) :
    step128^[k] (seed128pp (pre ++ x ++ post)) ≠ step128^[k] (seed128pp (pre ++ y ++ post)) := by
  intro h
  have := (bij128.1.iterate k) h
  exact Fnv.C143_stretch (Or.inr rfl) false pre x y post (Fnv.basis 64) hl (by simpa using h6) hne (congrArg St.a this)

/-- C108.  `pcg32_64_t`: the same. -/
theorem C108_pcg_stretch (pre x y post : List U8) (hl : x.length = y.length) (h6 : x.length ≤ 6) (hne : x ≠ y) (k : Nat) :
    step^[k] (seedPcgBytes (pre ++ x ++ post)) ≠ step^[k] (seedPcgBytes (pre ++ y ++ post)) := by
  intro h
  have hi : Function.Injective step := (bij_of_iter step (2 ^ 64) (by norm_num) fun x => (periodPcg x _).mpr dvd_rfl).1
  exact Fnv.C143_stretch (Or.inr rfl) false pre x y post (Fnv.basis 64) hl (by simpa using h6) hne
    (C16_seed_injective _ _ ((hi.iterate k) h))

/-- C108.  Seeds of seven bytes for which `pcg32_64_t` starts in the same state. -/
theorem C108_pcg_seven_false : ∃ p q : List U8, p.length = 7 ∧ q.length = 7 ∧ p ≠ q ∧ seedPcgBytes p = seedPcgBytes q :=
  ⟨[203, 39, 96, 49, 164, 240, 65], [36, 179, 0, 0, 0, 10, 167], by decide +kernel⟩

example : ([1, 2, 3, 4] : List U8) ≠ [4, 3, 2, 1] ∧ ([1, 2, 3, 4] : List U8).length = ([4, 3, 2, 1] : List U8).length := by decide

end CE.Random
