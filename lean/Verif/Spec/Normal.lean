import Verif.Model.Normal
/-!
# What `normal` is for: a vector of length one in the same direction

In terms of exact rational numbers.
-/
namespace CE.Normal

/-- a vector of numbers -/
structure Q3 where
  x : ℚ
  y : ℚ
  z : ℚ

/-- as `vec3<float>` -/
def Q3.fl (q : Q3) : V3 := ⟨.num q.x, .num q.y, .num q.z⟩

/-- square of the length -/
def Q3.len2 (q : Q3) : ℚ := q.x ^ 2 + q.y ^ 2 + q.z ^ 2

/-- a component lies in a set -/
def Q3.Any (q : Q3) (P : ℚ → Prop) : Prop := P q.x ∨ P q.y ∨ P q.z

/-- all components do -/
def Q3.All (q : Q3) (P : ℚ → Prop) : Prop := P q.x ∧ P q.y ∧ P q.z

/-- neither so long that the square of the length overflows nor so short that it underflows -/
def Q3.InRange (q : Q3) : Prop :=
  q.All (fun c => |c| ≤ 2 ^ 63) ∧ q.Any (fun c => (2 : ℚ) ^ (-62 : ℤ) ≤ |c|)

/-- one component of the result: `k` times that of the argument, up to rounding, and on the same side of zero -/
def Scaled (k c n : ℚ) : Prop :=
  |n - k * c| ≤ 2 ^ (-24 : ℤ) * |k * c| + 2 ^ (-150 : ℤ) ∧ (0 ≤ c → 0 ≤ n) ∧ (c ≤ 0 → n ≤ 0)

/-- `n` has the direction of `q` and length one, its square within `δ` -/
def UnitOf (δ : ℚ) (q n : Q3) : Prop :=
  |n.len2 - 1| ≤ δ ∧
    ∃ k, 0 < k ∧ |k ^ 2 * q.len2 - 1| ≤ δ ∧ Scaled k q.x n.x ∧ Scaled k q.y n.y ∧ Scaled k q.z n.z

/-- `f` gives the reciprocal of the square root, the relative error at most `ε`, for every normal number -/
def Near (ε : ℚ) (f : Fp → Fp) : Prop :=
  ∀ q : ℚ, (2 : ℚ) ^ (-126 : ℤ) ≤ q → q < 2 ^ 128 →
    ∃ r, 0 < r ∧ f (.num q) = .num r ∧ (1 - ε) ^ 2 ≤ r ^ 2 * q ∧ r ^ 2 * q ≤ (1 + ε) ^ 2

/-- what the manuals of the processors say about the instruction `rsqrtss`: relative error at most `1.5 * 2^-12`; a
subnormal argument counts as zero, for which the result is infinite; zero for infinity -/
structure Rsqrtss (f : Fp → Fp) : Prop where
  near : Near (3 / 2 ^ 13) f
  small : ∀ q : ℚ, 0 ≤ q → q < (2 : ℚ) ^ (-126 : ℤ) → f (.num q) = .inf false
  inf : f (.inf false) = .num 0

end CE.Normal
