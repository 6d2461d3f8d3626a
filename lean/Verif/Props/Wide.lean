import Verif.Model.Wide
import Mathlib.Tactic.Linarith
import Mathlib.Tactic.Ring
import Mathlib.Algebra.Order.Ring.Abs
import Mathlib.Algebra.Order.Group.Int
/-!
# C132: the 128-bit product and quotient for MSVC
-/
namespace CE.Vec

/-- C132.  `xmul` loses nothing: the two halves are in range and make up the product. -/
theorem C132_product (a b : Int) (ha : Is64 a) (hb : Is64 b) :
    (xmul a b).hi * 2 ^ 64 + (xmul a b).lo = a * b ∧ (0 ≤ (xmul a b).lo ∧ (xmul a b).lo < 2 ^ 64) ∧ Is64 (xmul a b).hi := by
  obtain ⟨a1, a2⟩ := ha
  obtain ⟨b1, b2⟩ := hb
  have h1 : a * b ≤ 2 ^ 126 := by nlinarith
  have h2 : -2 ^ 126 ≤ a * b := by nlinarith
  unfold xmul mul128 Is64
  generalize a * b = p at *
  norm_num at *
  omega

theorem xdiv_eq (n d : Int) (h : d ≠ 0) (w : Wide) (hw : w.hi * 2 ^ 64 + w.lo = n) (h0 : 0 ≤ w.lo) (h1 : w.lo < 2 ^ 64) :
    xdiv w d = i64 (n.tdiv d) := by
  have e : w.hi * 2 ^ 64 + to64 w.lo % 2 ^ 64 = n := by
    unfold to64
    norm_num at *
    omega
  unfold xdiv div128
  simp only [e, if_neg h]
  cases i64 (n.tdiv d) <;> rfl

/-- C132.  `xdiv(xmul(a, b), d)` is the quotient of the exact product, cut off towards zero, for all 64 bit numbers for which it
fits 64 bits; otherwise, and for `d = 0`, the processor raises an exception. -/
theorem C132_muldiv (a b d : Int) (ha : Is64 a) (hb : Is64 b) :
    (d ≠ 0 → Is64 ((a * b).tdiv d) → xdiv (xmul a b) d = some ((a * b).tdiv d)) ∧
    (d ≠ 0 → ¬ Is64 ((a * b).tdiv d) → xdiv (xmul a b) d = none) ∧ xdiv (xmul a b) 0 = none := by
  obtain ⟨h1, ⟨h2, h3⟩, -⟩ := C132_product a b ha hb
  refine ⟨fun h hq => ?_, fun h hq => ?_, by simp [xdiv, div128]⟩
  · rw [xdiv_eq _ d h _ h1 h2 h3]
    exact if_pos hq
  · rw [xdiv_eq _ d h _ h1 h2 h3]
    exact if_neg hq

/-- C132.  So a factor can be taken out again. -/
theorem C132_back (a b : Int) (ha : Is64 a) (hb : Is64 b) (h : b ≠ 0) : xdiv (xmul a b) b = some a := by
  have e : (a * b).tdiv b = a := Int.mul_tdiv_cancel a h
  have := (C132_muldiv a b b ha hb).1 h
  rw [e] at this
  exact this ha

/-- C132.  A part `n / d`, with `|n| ≤ |d|`, of a number always fits, apart from all of -2^63 negated. -/
theorem C132_part (a n d : Int) (ha : Is64 a) (hn : Is64 n) (h0 : d ≠ 0) (h : |n| ≤ |d|) (hm : a ≠ -2 ^ 63 ∨ n ≠ -d) :
    xdiv (xmul a n) d = some ((a * n).tdiv d) := by
  refine (C132_muldiv a n d ha hn).1 h0 ?_
  obtain ⟨a1, a2⟩ := ha
  have hd : 0 < |d| := abs_pos.2 h0
  -- the size of the quotient
  have h1 : |(a * n).tdiv d| = |a| * |n| / |d| := by
    rw [← abs_mul]
    simp only [Int.abs_eq_natAbs, Int.natAbs_tdiv]
    rfl
  have q : |(a * n).tdiv d| ≤ |a| := by
    rw [h1]
    exact Int.ediv_le_of_le_mul hd (mul_le_mul_of_nonneg_left h (abs_nonneg a))
  have ha : |a| ≤ 2 ^ 63 := abs_le.2 ⟨a1, le_of_lt a2⟩
  obtain ⟨q1, q2⟩ := abs_le.1 (q.trans ha)
  refine ⟨q1, lt_of_le_of_ne q2 fun he => ?_⟩
  -- 2^63 is reached by -2^63 negated only
  have aa : |a| = 2 ^ 63 := le_antisymm ha (by rw [he] at q; simpa using q)
  have am : a = -2 ^ 63 := by
    rcases abs_cases a with ⟨e, _⟩ | ⟨e, _⟩ <;> rw [e] at aa <;> omega
  have dn : |n| = |d| := by
    refine le_antisymm h ?_
    have := Int.ediv_mul_le (|a| * |n|) (ne_of_gt hd)
    rw [← h1, he, aa] at this
    have e : |(2 : Int) ^ 63| = 2 ^ 63 := by norm_num
    rw [e] at this
    linarith
  rcases abs_eq_abs.1 dn with e | e
  · rw [e, Int.mul_tdiv_cancel a h0, am] at he
    norm_num at he
  · rcases hm with hm | hm
    · exact hm am
    · exact hm e

/-- C132.  That one case is an exception indeed. -/
theorem C132_part_undefined (d : Int) (h0 : d ≠ 0) (h : Is64 (-d)) : xdiv (xmul (-2 ^ 63) (-d)) d = none := by
  refine (C132_muldiv _ _ d ⟨by norm_num, by norm_num⟩ h).2.1 h0 ?_
  have e : (-2 ^ 63 * -d : Int) = 2 ^ 63 * d := by ring
  rw [e, Int.mul_tdiv_cancel _ h0]
  unfold Is64
  norm_num

/-- a part -/
example : Is64 (-2 ^ 63) ∧ (5 : Int) ≠ 0 ∧ |(-3 : Int)| ≤ |5| ∧ (-3 : Int) ≠ -5 := ⟨⟨by norm_num, by norm_num⟩, by norm_num, by decide, by norm_num⟩

/-- the two factors of the disabled line of `muldiv` -/
example : xdiv (xmul (3 * 2 ^ 40) (2 ^ 32)) (2 ^ 50) = some (3 * 2 ^ 22) ∧ ¬ Is64 (3 * 2 ^ 40 * 2 ^ 32) := by
  refine ⟨by decide +kernel, by unfold Is64; norm_num⟩

end CE.Vec
