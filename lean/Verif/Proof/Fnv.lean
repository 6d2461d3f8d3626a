import Verif.Model.Fnv
import Verif.Spec.Fnv
import Mathlib.Tactic.Ring
import Mathlib.Tactic.NormNum
namespace CE.Fnv

theorem mix_toNat {w : Nat} (hw : w = 32 ∨ w = 64) (h : BitVec w) (v : BitVec 8) :
    (mix h v).toNat = (h.toNat ^^^ v.toNat) * specPrime w % 2 ^ w := by
  have hv := v.isLt
  have hp : (prime w).toNat = specPrime w := by
    rcases hw with hw | hw <;> subst hw
    · simp [prime, specPrime]
    · simp [prime, specPrime]
  have hle : 2 ^ 8 ≤ 2 ^ w := Nat.pow_le_pow_right (by omega) (by omega)
  rw [mix, BitVec.toNat_mul, BitVec.toNat_xor, hp, BitVec.zeroExtend_eq_setWidth,
    BitVec.toNat_setWidth, Nat.mod_eq_of_lt (a := v.toNat) (by omega)]

/-- the bytes the inner loop feeds, starting after the first -/
theorem inner_eq {w n : Nat} (signed : Bool) (left : Nat) (h : BitVec w) (v x : BitVec n)
    (s : Nat) (hs : s + 8 * (left + 1) ≤ n)
    (hv : ∀ i, s + i < n → v.getLsbD i = x.getLsbD (s + i)) :
    inner signed left h v =
      ((List.range left).map fun j => x.extractLsb' (s + 8 * (j + 1)) 8).foldl mix h := by
  induction left generalizing h v s with
  | zero => rfl
  | succ left ih =>
    have hsh : ∀ i, s + 8 + i < n → (shr8 signed v).getLsbD i = x.getLsbD (s + 8 + i) := by
      intro i hi
      unfold shr8
      cases signed
      · simp only [Bool.false_eq_true, if_false, BitVec.getLsbD_ushiftRight]
        rw [hv (8 + i) (by omega), ← Nat.add_assoc]
      · simp only [if_true, BitVec.getLsbD_sshiftRight]
        rw [if_pos (by omega), hv (8 + i) (by omega), ← Nat.add_assoc]
        have : i < n := by omega
        simp [this]
    have hb : (shr8 signed v).truncate 8 = x.extractLsb' (s + 8) 8 := by
      apply BitVec.eq_of_getLsbD_eq
      intro i hi
      rw [BitVec.truncate_eq_setWidth, BitVec.getLsbD_setWidth, BitVec.getLsbD_extractLsb',
        hsh i (by omega)]
    rw [inner, ih _ _ (s + 8) (by omega) hsh, List.range_succ_eq_map, List.map_cons,
      List.foldl_cons, hb, List.map_map]
    congr 1
    apply List.map_congr_left
    intro j _
    simp only [Function.comp]
    congr 1
    omega

theorem element_eq {w k : Nat} (hk : 0 < k) (signed : Bool) (h : BitVec w) (v : BitVec (8 * k)) :
    element signed h v =
      ((List.range k).map fun j => v.extractLsb' (8 * j) 8).foldl mix h := by
  obtain ⟨k, rfl⟩ : ∃ n, k = n + 1 := ⟨k - 1, by omega⟩
  rw [element, Nat.add_sub_cancel, inner_eq signed k _ v v 0 (by omega) (by simp),
    List.range_succ_eq_map, List.map_cons, List.foldl_cons, List.map_map]
  congr 1
  · congr 1
    apply BitVec.eq_of_getLsbD_eq
    intro i hi
    simp [hi]
  · apply List.map_congr_left
    intro j _
    simp

theorem leBytes_eq (k v : Nat) :
    leBytes k v = (List.range k).map fun j => v / 256 ^ j % 256 := by
  induction k generalizing v with
  | zero => rfl
  | succ k ih =>
    rw [leBytes, ih, List.range_succ_eq_map, List.map_cons, List.map_map]
    simp only [Nat.pow_zero, Nat.div_one, List.cons.injEq, true_and]
    apply List.map_congr_left
    intro j _
    simp only [Function.comp, Nat.pow_succ, Nat.div_div_eq_div_mul]
    rw [Nat.mul_comm]

theorem extract_toNat {n : Nat} (v : BitVec n) (j : Nat) :
    (v.extractLsb' (8 * j) 8).toNat = v.toNat / 256 ^ j % 256 := by
  rw [BitVec.extractLsb'_toNat, Nat.shiftRight_eq_div_pow, Nat.pow_mul]

theorem foldl_mix_toNat {w : Nat} (hw : w = 32 ∨ w = 64) (h : BitVec w) (bs : List (BitVec 8)) :
    (bs.foldl mix h).toNat = fnvSpec w h.toNat (bs.map BitVec.toNat) := by
  induction bs generalizing h with
  | nil => rfl
  | cons b bs ih =>
    rw [List.foldl_cons, ih, mix_toNat hw]; rfl

theorem prime_mul_inj {w : Nat} (hw : w = 32 ∨ w = 64) (a b : BitVec w)
    (h : a * prime w = b * prime w) : a = b := by
  rcases hw with hw | hw <;> subst hw
  · have e : ∀ x : BitVec 32, x * prime 32 * 899433627 = x := by
      intro x
      rw [BitVec.mul_assoc, show prime 32 * 899433627 = 1#32 by decide, BitVec.mul_one]
    rw [← e a, h, e]
  · have e : ∀ x : BitVec 64, x * prime 64 * 14886173955864302971 = x := by
      intro x
      rw [BitVec.mul_assoc, show prime 64 * 14886173955864302971 = 1#64 by decide, BitVec.mul_one]
    rw [← e a, h, e]

theorem mix_inj_left {w : Nat} (hw : w = 32 ∨ w = 64) (h h' : BitVec w) (v : BitVec 8)
    (e : mix h v = mix h' v) : h = h' :=
  (BitVec.xor_left_inj _).mp (prime_mul_inj hw _ _ e)

theorem mix_inj_right {w : Nat} (hw : w = 32 ∨ w = 64) (h : BitVec w) (v v' : BitVec 8)
    (e : mix h v = mix h v') : v = v' := by
  have := (BitVec.xor_right_inj _).mp (prime_mul_inj hw _ _ e)
  apply BitVec.eq_of_getLsbD_eq
  intro i hi
  have h2 := congrArg (fun x => x.getLsbD i) this
  simp only [BitVec.truncate_eq_setWidth, BitVec.getLsbD_setWidth] at h2
  have : i < w := by omega
  simpa [this] using h2

theorem foldl_mix_inj {w : Nat} (hw : w = 32 ∨ w = 64) (h h' : BitVec w) (bs : List (BitVec 8))
    (e : bs.foldl mix h = bs.foldl mix h') : h = h' := by
  induction bs generalizing h h' with
  | nil => exact e
  | cons b bs ih => exact mix_inj_left hw _ _ b (ih _ _ e)

end CE.Fnv
