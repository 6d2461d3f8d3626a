import Mathlib.NumberTheory.LucasPrimality
import Mathlib.Tactic.NormNum.Prime
import Mathlib.Tactic.NormNum.PowMod
/-! The large prime factor of 2^64 + 1. -/
namespace CE.Gf2

/-- `a ^ e % m` by squaring -/
def pm (m : Nat) : Nat → Nat → Nat → Nat
  | 0, _, _ => 1 % m
  | f + 1, a, e =>
    bif Nat.beq (e % 2) 1 then a * pm m f (a * a % m) (e / 2) % m else pm m f (a * a % m) (e / 2)

theorem pm_eq (m f a e : Nat) (he : e < 2 ^ f) : pm m f a e = a ^ e % m := by
  induction f generalizing a e with
  | zero => simp at he; subst he; simp [pm]
  | succ f ih =>
    unfold pm
    rw [ih _ _ (by omega), ← Nat.pow_mod, ← sq, ← pow_mul]
    rcases Nat.mod_two_eq_zero_or_one e with h | h
    · simp only [h, Nat.beq, cond_false]
      congr 2; omega
    · simp only [h, Nat.beq, cond_true]
      rw [Nat.mul_mod_mod, ← pow_succ']
      congr 2; omega

theorem prime_big : Nat.Prime 67280421310721 := by
  have key : ∀ k : Nat, k < 2 ^ 47 →
      ((3 : ZMod 67280421310721) ^ k = 1 ↔ pm 67280421310721 47 3 k = 1) := by
    intro k h
    have e : (3 : ZMod 67280421310721) ^ k = ((3 ^ k : ℕ) : ZMod 67280421310721) := by push_cast; rfl
    have e1 : (1 : ZMod 67280421310721) = ((1 : ℕ) : ZMod 67280421310721) := by simp
    rw [e, e1, ZMod.natCast_eq_natCast_iff', pm_eq _ _ _ _ h]
  refine lucas_primality _ 3 ?_ ?_
  · rw [key _ (by norm_num)]; decide +kernel
  · intro q hq hd
    have hd' : q ∣ 2 ^ 8 * 5 * 47 * 373 * 2998279 := by
      have : (67280421310721 - 1 : ℕ) = 2 ^ 8 * 5 * 47 * 373 * 2998279 := by norm_num
      rwa [this] at hd
    have hcase : q = 2 ∨ q = 5 ∨ q = 47 ∨ q = 373 ∨ q = 2998279 := by
      rcases (Nat.Prime.dvd_mul hq).mp hd' with h | h
      · rcases (Nat.Prime.dvd_mul hq).mp h with h | h
        · rcases (Nat.Prime.dvd_mul hq).mp h with h | h
          · rcases (Nat.Prime.dvd_mul hq).mp h with h | h
            · exact Or.inl ((Nat.prime_dvd_prime_iff_eq hq Nat.prime_two).mp (hq.dvd_of_dvd_pow h))
            · exact Or.inr (Or.inl ((Nat.prime_dvd_prime_iff_eq hq (by norm_num)).mp h))
          · exact Or.inr (Or.inr (Or.inl ((Nat.prime_dvd_prime_iff_eq hq (by norm_num)).mp h)))
        · exact Or.inr (Or.inr (Or.inr (Or.inl
            ((Nat.prime_dvd_prime_iff_eq hq (by norm_num)).mp h))))
      · exact Or.inr (Or.inr (Or.inr (Or.inr
          ((Nat.prime_dvd_prime_iff_eq hq (by norm_num)).mp h))))
    rcases hcase with rfl | rfl | rfl | rfl | rfl
    all_goals
      rw [Ne, key _ (by norm_num)]
      decide +kernel

end CE.Gf2
