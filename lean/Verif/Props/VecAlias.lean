import Verif.Props.Vec

/-!
C48: what `*=` and `/=` leave when the scalar is a component of the vector itself
(lib/h/ce/ce.h:649-650, 662-663).
-/

namespace CE.Vec

/-- C48.  What `a *= a.x` leaves: the second component is multiplied by the square. -/
theorem C48_alias_mul (a r : V2) : assignScale2 .mul a .x = some r ↔
    (r.x = a.x * a.x ∧ r.y = a.y * (a.x * a.x)) ∧ (Is32 r.x ∧ Is32 r.y) := by
  unfold assignScale2
  simp only [Option.bind_eq_bind, Option.bind_eq_some_iff, eval_iff, Option.pure_def,
    Option.some.injEq, RefS.get2, Arith.math]
  constructor
  · rintro ⟨x, ⟨h1, h2, -⟩, y, ⟨h4, h5, -⟩, rfl⟩
    exact ⟨⟨h1, by rw [h4, h1]⟩, h2, h5⟩
  · rintro ⟨⟨h1, h4⟩, h2, h5⟩
    exact ⟨r.x, ⟨h1, h2, by simp⟩, r.y, ⟨by rw [h4, h1], h5, by simp⟩, rfl⟩

/-- C48.  What `a /= a.x` leaves: `1` and the second component untouched. -/
theorem C48_alias_div (a r : V2) (ha : Is32 a.y) : assignScale2 .div a .x = some r ↔
    a.x ≠ 0 ∧ r.x = 1 ∧ r.y = a.y := by
  unfold assignScale2
  simp only [Option.bind_eq_bind, Option.bind_eq_some_iff, eval_iff, Option.pure_def,
    Option.some.injEq, RefS.get2, Arith.math, forall_const]
  constructor
  · rintro ⟨x, ⟨h1, h2, h3⟩, y, ⟨h4, h5, -⟩, rfl⟩
    rw [Int.tdiv_self h3] at h1
    subst h1
    exact ⟨h3, rfl, by rw [h4, Int.tdiv_one]⟩
  · rintro ⟨h, h1, h2⟩
    refine ⟨1, ⟨(Int.tdiv_self h).symm, by unfold Is32; omega, h⟩, r.y, ⟨by rw [h2, Int.tdiv_one], h2 ▸ ha, by omega⟩, ?_⟩
    cases r; simp_all

theorem tdiv_eq_self {y x : Int} (hx : x ≠ 0) : y.tdiv x = y ↔ x = 1 ∨ y = 0 := by
  constructor
  · intro h
    by_contra hc
    push Not at hc
    have hy := hc.2
    have h1 := hc.1
    have n : (y.tdiv x).natAbs = y.natAbs / x.natAbs := Int.natAbs_tdiv y x
    rw [h] at n
    have yp : 0 < y.natAbs := by omega
    by_cases k : x.natAbs ≤ 1
    · have : x = -1 := by omega
      subst this
      simp at h
      omega
    · have := Nat.div_lt_self yp (by omega : 1 < x.natAbs)
      omega
  · rintro (rfl | rfl)
    · exact Int.tdiv_one y
    · exact Int.zero_tdiv x

/-- C48.  So with the scalar taken from the first component `*=` and `/=` are right in exactly the cases where
multiplying or dividing the second component once more changes nothing. -/
theorem C48_alias_iff (a r : V2) (ha : Is32 a.y) :
    (scale2 .mul a a.x = some r → (assignScale2 .mul a .x = some r ↔ a.x = 0 ∨ a.x = 1 ∨ a.y = 0)) ∧
    (scale2 .div a a.x = some r → (assignScale2 .div a .x = some r ↔ a.x = 1 ∨ a.y = 0)) := by
  constructor
  · rw [C48_scale2, C48_alias_mul]
    simp only [Arith.math]
    rintro ⟨⟨h1, h2⟩, h3, -⟩
    rw [h2]
    constructor
    · rintro ⟨⟨-, h⟩, -⟩
      have : a.y * (a.x * (a.x - 1)) = 0 := by linear_combination -h
      rcases mul_eq_zero.1 this with h | h
      · exact .inr (.inr h)
      · rcases mul_eq_zero.1 h with h | h
        · exact .inl h
        · exact .inr (.inl (by omega))
    · intro h
      refine ⟨⟨h1, ?_⟩, h3.1, h2 ▸ h3.2⟩
      rcases h with h | h | h <;> simp [h]
  · rw [C48_scale2, C48_alias_div a r ha]
    simp only [Arith.math, forall_const]
    rintro ⟨⟨h1, h2⟩, h3, h⟩
    rw [h2, tdiv_eq_self h, h1, Int.tdiv_self h]
    simp [h]

/-- C48.  The scalar taken from the first component of a `vec3`: both others are scaled by the new value.  Taken from
the second: only the third is. -/
theorem C48_alias_mul3 (a r : V3) :
    (assignScale3 .mul a .x = some r ↔
      (r.x = a.x * a.x ∧ r.y = a.y * (a.x * a.x) ∧ r.z = a.z * (a.x * a.x)) ∧ Is32 r.x ∧ Is32 r.y ∧ Is32 r.z) ∧
    (assignScale3 .mul a .y = some r ↔
      (r.x = a.x * a.y ∧ r.y = a.y * a.y ∧ r.z = a.z * (a.y * a.y)) ∧ Is32 r.x ∧ Is32 r.y ∧ Is32 r.z) := by
  unfold assignScale3
  simp only [Option.bind_eq_bind, Option.bind_eq_some_iff, eval_iff, Option.pure_def,
    Option.some.injEq, RefS.get3, Arith.math]
  constructor <;> constructor
  · rintro ⟨x, ⟨h1, h2, -⟩, y, ⟨h4, h5, -⟩, z, ⟨h6, h7, -⟩, rfl⟩
    exact ⟨⟨h1, by rw [h4, h1], by rw [h6, h1]⟩, h2, h5, h7⟩
  · rintro ⟨⟨h1, h4, h6⟩, h2, h5, h7⟩
    exact ⟨r.x, ⟨h1, h2, by simp⟩, r.y, ⟨by rw [h4, h1], h5, by simp⟩, r.z, ⟨by rw [h6, h1], h7, by simp⟩, rfl⟩
  · rintro ⟨x, ⟨h1, h2, -⟩, y, ⟨h4, h5, -⟩, z, ⟨h6, h7, -⟩, rfl⟩
    exact ⟨⟨h1, h4, by rw [h6, h4]⟩, h2, h5, h7⟩
  · rintro ⟨⟨h1, h4, h6⟩, h2, h5, h7⟩
    exact ⟨r.x, ⟨h1, h2, by simp⟩, r.y, ⟨h4, h5, by simp⟩, r.z, ⟨by rw [h6, h4], h7, by simp⟩, rfl⟩

/-- C48.  And divided. -/
theorem C48_alias_div3 (a r : V3) (hy : Is32 a.y) (hz : Is32 a.z) :
    (assignScale3 .div a .x = some r ↔ a.x ≠ 0 ∧ r.x = 1 ∧ r.y = a.y ∧ r.z = a.z) ∧
    (assignScale3 .div a .y = some r ↔
      a.y ≠ 0 ∧ Is32 r.x ∧ r.x = a.x.tdiv a.y ∧ r.y = 1 ∧ r.z = a.z) := by
  unfold assignScale3
  simp only [Option.bind_eq_bind, Option.bind_eq_some_iff, eval_iff, Option.pure_def,
    Option.some.injEq, RefS.get3, Arith.math, forall_const]
  have o : Is32 1 := by unfold Is32; omega
  constructor <;> constructor
  · rintro ⟨x, ⟨h1, h2, h3⟩, y, ⟨h4, h5, -⟩, z, ⟨h6, h7, -⟩, rfl⟩
    rw [Int.tdiv_self h3] at h1
    subst h1
    exact ⟨h3, rfl, by rw [h4, Int.tdiv_one], by rw [h6, Int.tdiv_one]⟩
  · rintro ⟨h, h1, h2, h3⟩
    refine ⟨1, ⟨(Int.tdiv_self h).symm, o, h⟩, r.y, ⟨by rw [h2, Int.tdiv_one], h2 ▸ hy, by omega⟩,
      r.z, ⟨by rw [h3, Int.tdiv_one], h3 ▸ hz, by omega⟩, ?_⟩
    cases r; simp_all
  · rintro ⟨x, ⟨h1, h2, h3⟩, y, ⟨h4, h5, -⟩, z, ⟨h6, h7, -⟩, rfl⟩
    rw [Int.tdiv_self h3] at h4
    subst h4
    exact ⟨h3, h2, h1, rfl, by rw [h6, Int.tdiv_one]⟩
  · rintro ⟨h, h0, h1, h2, h3⟩
    refine ⟨r.x, ⟨h1, h0, h⟩, 1, ⟨(Int.tdiv_self h).symm, o, h⟩, 
      r.z, ⟨by rw [h3, Int.tdiv_one], h3 ▸ hz, by omega⟩, ?_⟩
    cases r; simp_all

example : assignScale2 .mul ⟨3, 5⟩ .x = some ⟨9, 45⟩ ∧ scale2 .mul ⟨3, 5⟩ 3 = some ⟨9, 15⟩ ∧
    assignScale2 .div ⟨3, 6⟩ .x = some ⟨1, 6⟩ ∧ scale2 .div ⟨3, 6⟩ 3 = some ⟨1, 2⟩ ∧
    assignScale3 .div ⟨8, 2, 6⟩ .y = some ⟨4, 1, 6⟩ ∧ Is32 6 := by
  refine ⟨by decide, by decide, by decide, by decide, by decide, by unfold Is32; omega⟩
end CE.Vec
