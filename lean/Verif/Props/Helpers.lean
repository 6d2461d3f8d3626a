import Verif.Model.Helpers
/-!
# `rotl32` (C102) and `get` (C103)
-/
namespace CE.Helpers

/-! ## C102 -/

/-- For every `int` that is not a multiple of 32, bit `j` of the result is the bit of `x` which is `i` places below,
counted around. Missing for the full claim: multiples of 32, see `C102_zero_undefined`. -/
theorem C102_rotl_partial (x : BitVec 32) {i : Int} (hi : i % 32 ≠ 0) :
    ∃ r, rotl32 x i = some r ∧ ∀ j : Nat, j < 32 → r.getLsbD j = x.getLsbD (((j : Int) - i) % 32).toNat := by
  unfold rotl32 shl32 shr32
  dsimp only
  rw [if_pos (by omega), if_pos (by omega)]
  refine ⟨_, rfl, fun j hj => ?_⟩
  generalize hs : (i % 32).toNat = s
  have hs0 : 0 < s ∧ s < 32 := by omega
  rw [BitVec.getLsbD_or, BitVec.getLsbD_shiftLeft, BitVec.getLsbD_ushiftRight]
  by_cases h : j < s
  · rw [show (((j : Int) - i) % 32).toNat = 32 - s + j by omega]
    simp [h]
  · rw [show (((j : Int) - i) % 32).toNat = j - s by omega, BitVec.getLsbD_of_ge x (32 - s + j) (by omega)]
    simp [h, hj]

/-- Rotating by a multiple of 32 shifts by 32, which is undefined. -/
theorem C102_zero_undefined (x : BitVec 32) {i : Int} (hi : i % 32 = 0) : rotl32 x i = none := by
  unfold rotl32 shl32 shr32
  rw [hi]
  rfl

example : (5 : Int) % 32 ≠ 0 ∧ rotl32 0x80000001#32 5 = some 0x30#32 ∧ rotl32 0x80000001#32 (-1) = some 0xc0000000#32 := by
  decide

/-! ## C103 -/

/-- With structured bindings, as in C++17, no use of `get` is well-formed: inside `crack` the name finds `crack::get`. -/
theorem C103_get_false {α : Type} (n : Nat) (t : Agg α) : getBindings n t = none := by
  unfold getBindings
  dsimp only
  split
  · next h =>
    have : resolve scopes (arityCount t + 1) = none := by
      unfold resolve scopes lookup
      simp
      omega
    rw [this]
  · rfl

/-- The function it means to call would return the member. -/
theorem C103_pick {α : Type} (n : Nat) (t : List α) : pick n t = t[n]? := by
  induction t generalizing n with
  | nil => cases n <;> rfl
  | cons a t ih => cases n with
    | zero => rfl
    | succ n => rw [pick, ih]; rfl

/-- The number of members is counted correctly up to five. -/
theorem C103_arity {α : Type} (t : Agg α) : arityCount t = min t.length 5 := by
  unfold arityCount hasArity
  rcases t with _ | ⟨a, _ | ⟨b, _ | ⟨c, _ | ⟨d, _ | ⟨e, t⟩⟩⟩⟩⟩ <;> simp [CE.TypeList.countLeading, List.range_succ]

/-- Without structured bindings, `get<N>` of a `tuple` is its member N. -/
theorem C103_named_partial {α : Type} {n : Nat} {t : Agg α} (ht : t.length ≤ 4) (hn : n < t.length) :
    getNamed n t = some t[n] := by
  unfold getNamed
  rw [if_pos (by omega)]
  exact List.getElem?_eq_getElem hn

example : getNamed 1 [7, 8, 9] = some 8 ∧ pick 1 [7, 8, 9] = some 8 ∧ getBindings 1 [7, 8, 9] = none := by decide
-- there is no such tuple
example : getNamed 1 [7, 8, 9, 10, 11] = none ∧ getNamed 3 [7, 8, 9] = none := by decide

end CE.Helpers
