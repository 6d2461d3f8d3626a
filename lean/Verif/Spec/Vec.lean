import Mathlib.Data.Real.Basic
import Mathlib.Data.Rat.Cast.Order
/-! Plane geometry over the rationals and reals. -/
namespace CE.Vec

/-- cross product -/
def crossQ (ax ay bx b_y : ℚ) : ℚ := ax * b_y - ay * bx

/-- a statement about a displacement `(ε, δ)` holds for all small enough `ε > 0` and, given `ε`, all
small enough `δ > 0` -/
def Eventually (P : ℚ → ℚ → Prop) : Prop :=
  ∃ ε₀ > 0, ∀ ε, 0 < ε → ε < ε₀ → ∃ δ₀ > 0, ∀ δ, 0 < δ → δ < δ₀ → P ε δ

/-- the point `t * d` is closer to `p` than `√rr` -/
def Near (px py rr dx dy : ℤ) (t : ℝ) : Prop :=
  ((px : ℝ) - t * dx) ^ 2 + ((py : ℝ) - t * dy) ^ 2 < rr

/-- the projection of `p` on the line through `0` and `d` lies between `0` and `d` -/
def ProjectsOn (px py dx dy : ℤ) : Prop :=
  ∃ t : ℝ, 0 ≤ t ∧ t ≤ 1 ∧ ((px : ℝ) - t * dx) * dx + ((py : ℝ) - t * dy) * dy = 0

end CE.Vec
