import Verif.Model.ToText
import Verif.Spec.Mem
import Mathlib.Tactic.NormNum
/-! Lemmas for integer to text. -/
set_option linter.unusedSimpArgs false
namespace CE

theorem place_nil (m : Mem) (b : Nat) : place m b [] = m := by
  funext j; simp only [place, List.length_nil]; split <;> first | omega | rfl

theorem write_place (m : Mem) (b i : Nat) (l : List Char) (c : Char) (h : i = b + l.length) :
    (place m b l).write i c = place m b (l ++ [c]) := by
  subst h
  funext j
  simp only [Mem.write, place, List.length_append, List.length_singleton]
  by_cases h1 : j = b + l.length
  · subst h1
    simp
  · rw [if_neg h1]
    by_cases h2 : b ≤ j ∧ j < b + l.length
    · rw [if_pos h2, if_pos (by omega)]
      have : j - b < l.length := by omega
      simp [List.getD, List.getElem?_append_left this]
    · rw [if_neg h2, if_neg (by omega)]

theorem place_place (m : Mem) (b c : Nat) (l k : List Char) (h : c = b + l.length) :
    place (place m b l) c k = place m b (l ++ k) := by
  induction k generalizing l c with
  | nil => simp [place_nil]
  | cons x k ih =>
    have e1 : place (place m b l) c (x :: k) = place ((place m b l).write c x) (c + 1) k := by
      funext j
      simp only [Mem.write, place, List.length_cons]
      by_cases h1 : j = c
      · subst h1; simp
      · by_cases h2 : c + 1 ≤ j ∧ j < c + 1 + k.length
        · rw [if_pos h2, if_pos (by omega)]
          have : j - c = (j - (c + 1)) + 1 := by omega
          rw [this]; rfl
        · rw [if_neg h2, if_neg (by omega), if_neg h1]
    rw [e1, write_place _ _ _ _ _ h, ih _ _ (by simp; omega)]
    simp

namespace ToText
open Nat (digitChar)

/-- zero padded decimal of exactly `k` digits -/
def pad : Nat → Nat → List Char
  | 0, _ => []
  | k + 1, u => pad k (u / 10) ++ [digitChar (u % 10)]

@[simp] theorem pad_length (k u : Nat) : (pad k u).length = k := by
  induction k generalizing u with
  | zero => rfl
  | succ k ih => simp [pad, ih]

theorem pad_add (j k u : Nat) : pad (j + k) u = pad j (u / 10 ^ k) ++ pad k (u % 10 ^ k) := by
  induction k generalizing u with
  | zero => simp [pad]
  | succ k ih =>
    rw [← Nat.add_assoc, pad, ih (u / 10), pad]
    have e1 : u / 10 / 10 ^ k = u / 10 ^ (k + 1) := by
      rw [Nat.div_div_eq_div_mul, Nat.pow_succ, Nat.mul_comm]
    have e2 : u / 10 % 10 ^ k = u % 10 ^ (k + 1) / 10 := by
      rw [Nat.pow_succ, Nat.mul_comm, Nat.mod_mul_right_div_self]
    have e3 : u % 10 = u % 10 ^ (k + 1) % 10 := by
      rw [Nat.pow_succ, Nat.mod_mod_of_dvd _ (Nat.dvd_mul_left _ _)]
    rw [e1, e2, e3]
    simp

theorem toDigits_eq_pad (k u : Nat) (h1 : u < 10 ^ (k + 1)) (h2 : k = 0 ∨ 10 ^ k ≤ u) :
    Nat.toDigits 10 u = pad (k + 1) u := by
  induction k generalizing u with
  | zero =>
    rw [Nat.toDigits_of_lt_base (by simpa using h1)]
    simp at h1
    simp [pad, Nat.mod_eq_of_lt h1]
  | succ k ih =>
    have h2 : 10 ^ (k + 1) ≤ u := by simpa using h2
    have e : u = 10 * (u / 10) + u % 10 := by omega
    have hp : 0 < 10 ^ k := Nat.pow_pos (by decide)
    rw [Nat.pow_succ] at h1 h2
    have hpos : 0 < u / 10 := by omega
    rw [pad, ← ih (u / 10) (by omega) (by omega)]
    conv => lhs; rw [e]
    rw [← Nat.toDigits_append_toDigits (by decide) hpos (Nat.mod_lt _ (by decide)),
      Nat.toDigits_of_lt_base (Nat.mod_lt u (by decide : 10 > 0))]

theorem toDigits_append_pad (k u x : Nat) (hu : 0 < u) (hx : x < 10 ^ k) :
    Nat.toDigits 10 (u * 10 ^ k + x) = Nat.toDigits 10 u ++ pad k x := by
  induction k generalizing x with
  | zero => simp at hx; simp [pad, hx]
  | succ k ih =>
    have hx' : x / 10 < 10 ^ k := by
      rw [Nat.pow_succ] at hx; omega
    have e : u * 10 ^ (k + 1) + x = 10 * (u * 10 ^ k + x / 10) + x % 10 := by
      rw [Nat.pow_succ]
      have : u * (10 ^ k * 10) = 10 * (u * 10 ^ k) := by
        rw [← Nat.mul_assoc, Nat.mul_comm]
      omega
    have hpos : 0 < u * 10 ^ k + x / 10 :=
      Nat.add_pos_left (Nat.mul_pos hu (Nat.pow_pos (by decide))) _
    rw [e, ← Nat.toDigits_append_toDigits (by decide) hpos (Nat.mod_lt _ (by decide)),
      Nat.toDigits_of_lt_base (Nat.mod_lt x (by decide : 10 > 0)), ih _ hx', pad]
    simp

theorem digit_ofNat (d : Nat) (h : d < 10) : Char.ofNat (d % 256 + 48) = digitChar d := by
  revert d; decide

theorem table (d : Nat) (h : d < 100) :
    digits_00_99[d * 2]? = some (digitChar (d / 10)) ∧
    digits_00_99[d * 2 + 1]? = some (digitChar (d % 10)) := by
  revert d; decide +kernel

theorem W_spec (m : Mem) (b i : Nat) (l : List Char) (d : Nat) (h : d < 100)
    (hi : i = b + l.length) :
    W (place m b l) i d = some (place m b (l ++ pad 2 d)) := by
  obtain ⟨h1, h2⟩ := table d h
  have e : d / 10 % 10 = d / 10 := by omega
  simp only [W, h1, h2, pad, Option.bind_eq_bind, Option.bind_some, Option.pure_def]
  rw [write_place m b i l _ hi, write_place _ _ _ _ _ (by simp; omega)]
  simp [e]

/-- fixed-point invariant: `t / 2^32` is `u / 10^N` with enough precision to go on -/
def Inv (t u N : Nat) : Prop := u * 2 ^ 32 ≤ t * 10 ^ N ∧ t * 10 ^ N < (u + 1) * 2 ^ 32

theorem Inv.div {t u N : Nat} (h : Inv t u N) : t >>> 32 = u / 10 ^ N := by
  obtain ⟨h1, h2⟩ := h
  have hp : 0 < 10 ^ N := Nat.pow_pos (by decide)
  rw [Nat.shiftRight_eq_div_pow]
  apply Nat.le_antisymm
  · rw [Nat.le_div_iff_mul_le hp]
    have : t / 2 ^ 32 * 2 ^ 32 ≤ t := Nat.div_mul_le_self _ _
    have h3 : t / 2 ^ 32 * 2 ^ 32 * 10 ^ N ≤ t * 10 ^ N := Nat.mul_le_mul_right _ this
    have e : t / 2 ^ 32 * 2 ^ 32 * 10 ^ N = t / 2 ^ 32 * 10 ^ N * 2 ^ 32 := by
      rw [Nat.mul_assoc, Nat.mul_comm (2 ^ 32), Nat.mul_assoc]
    rw [e] at h3
    have := Nat.lt_of_mul_lt_mul_right (Nat.lt_of_le_of_lt h3 h2)
    omega
  · rw [Nat.le_div_iff_mul_le (by decide)]
    have : u / 10 ^ N * 10 ^ N ≤ u := Nat.div_mul_le_self _ _
    have h3 : u / 10 ^ N * 10 ^ N * 2 ^ 32 ≤ t * 10 ^ N :=
      Nat.le_trans (Nat.mul_le_mul_right _ this) h1
    have e : u / 10 ^ N * 10 ^ N * 2 ^ 32 = u / 10 ^ N * 2 ^ 32 * 10 ^ N := by
      rw [Nat.mul_assoc, Nat.mul_comm (10 ^ N), Nat.mul_assoc]
    rw [e] at h3
    exact Nat.le_of_mul_le_mul_right h3 hp

theorem Inv.mod {t u N : Nat} (h : Inv t u N) :
    (u % 10 ^ N) * 2 ^ 32 ≤ (t % 2 ^ 32) * 10 ^ N ∧
    (t % 2 ^ 32) * 10 ^ N < (u % 10 ^ N + 1) * 2 ^ 32 := by
  have hd := h.div
  obtain ⟨h1, h2⟩ := h
  rw [Nat.shiftRight_eq_div_pow] at hd
  have e1 : t * 10 ^ N = (t % 2 ^ 32) * 10 ^ N + u / 10 ^ N * 10 ^ N * 2 ^ 32 := by
    conv => lhs; rw [← Nat.mod_add_div t (2 ^ 32), hd]
    rw [Nat.add_mul, Nat.mul_comm (2 ^ 32), Nat.mul_assoc, Nat.mul_comm (2 ^ 32), Nat.mul_assoc]
  have e2 : u * 2 ^ 32 = (u % 10 ^ N) * 2 ^ 32 + u / 10 ^ N * 10 ^ N * 2 ^ 32 := by
    conv => lhs; rw [← Nat.mod_add_div u (10 ^ N)]
    rw [Nat.add_mul, Nat.mul_comm (10 ^ N)]
  omega

theorem D_spec (m : Mem) (b i : Nat) (l : List Char) (t u N : Nat) (h : Inv t u (N + 2))
    (hi : i = b + l.length) :
    ∃ t', D (place m b l) i t = some (place m b (l ++ pad 2 (u % 10 ^ (N + 2) / 10 ^ N)), t') ∧
      Inv t' (u % 10 ^ (N + 2)) N := by
  have hm := h.mod
  have hlt : t % 2 ^ 32 < 2 ^ 32 := Nat.mod_lt _ (by decide)
  have ht' : u64 (100 * u32 t) = 100 * (t % 2 ^ 32) := by
    unfold u64 u32; omega
  have hinv : Inv (100 * (t % 2 ^ 32)) (u % 10 ^ (N + 2)) N := by
    have e : 100 * (t % 2 ^ 32) * 10 ^ N = (t % 2 ^ 32) * 10 ^ (N + 2) := by
      rw [Nat.pow_add, Nat.mul_comm 100, Nat.mul_assoc, Nat.mul_comm 100]
    unfold Inv; rw [e]; exact hm
  refine ⟨_, ?_, hinv⟩
  simp only [D, ht', hinv.div]
  rw [W_spec _ _ _ _ _ _ hi]
  · rfl
  · rw [Nat.div_lt_iff_lt_mul (Nat.pow_pos (by decide))]
    have := Nat.mod_lt u (Nat.pow_pos (by decide : 0 < 10) : 0 < 10 ^ (N + 2))
    rw [Nat.pow_add] at this ⊢; omega

theorem S_spec (m : Mem) (b i : Nat) (l : List Char) (t u : Nat) (h : Inv t u 1)
    (hi : i = b + l.length) :
    S (place m b l) i t = some (place m b (l ++ pad 1 (u % 10))) := by
  have hm := h.mod
  have hlt : t % 2 ^ 32 < 2 ^ 32 := Nat.mod_lt _ (by decide)
  have ht' : u64 (10 * u32 t) = 10 * (t % 2 ^ 32) := by
    unfold u64 u32; omega
  have hinv : Inv (10 * (t % 2 ^ 32)) (u % 10) 0 := by
    unfold Inv; omega
  simp only [S, ht', hinv.div, pad, Nat.pow_zero, Nat.div_one]
  rw [digit_ofNat _ (by omega), write_place _ _ _ _ _ hi]
  simp

theorem tA_inv (N u : Nat) (hN : 1 ≤ N) (hN' : N ≤ 8) (hu : u < 10 ^ (N + 2)) (hu2 : u < 2 ^ 32)
    (h5 : N ≠ 5 ∨ 1000000 ≤ u) :
    Inv (tA N u) u N := by
  have : N = 1 ∨ N = 2 ∨ N = 3 ∨ N = 4 ∨ N = 5 ∨ N = 6 ∨ N = 7 ∨ N = 8 := by omega
  rcases this with h | h | h | h | h | h | h | h <;> subst h <;>
    simp only [Inv, tA, shiftA, u64, u32, Nat.shiftRight_eq_div_pow] <;>
    norm_num1 at hu ⊢ <;> (simp (disch := omega) only [Nat.mod_eq_of_lt]) <;> omega

theorem A_spec (m : Mem) (b i : Nat) (l : List Char) (N u : Nat) (hN : 1 ≤ N) (hN' : N ≤ 8)
    (hu : u < 10 ^ (N + 2)) (hu2 : u < 2 ^ 32) (h5 : N ≠ 5 ∨ 1000000 ≤ u) (hi : i = b + l.length) :
    ∃ t, A (place m b l) i N u = some (place m b (l ++ pad 2 (u / 10 ^ N)), t) ∧ Inv t u N := by
  have hinv := tA_inv N u hN hN' hu hu2 h5
  refine ⟨_, ?_, hinv⟩
  simp only [A, hinv.div]
  rw [W_spec _ _ _ _ _ _ hi]
  · rfl
  · rw [Nat.div_lt_iff_lt_mul (Nat.pow_pos (by decide))]
    rw [Nat.pow_add] at hu; omega

theorem C_spec (m : Mem) (b i : Nat) (l : List Char) (N u : Nat) (hN : N ≤ 9)
    (hu : u < 10 ^ (N + 1)) (hu2 : u < 2 ^ 32) (h6 : N ≠ 6 ∨ 1000000 ≤ u) (hi : i = b + l.length) :
    C N (place m b l) i u = some (place m b (l ++ pad (N + 1) u)) := by
  have h : N = 0 ∨ N = 1 ∨ N = 2 ∨ N = 3 ∨ N = 4 ∨ N = 5 ∨ N = 6 ∨ N = 7 ∨ N = 8 ∨ N = 9 := by
    omega
  rcases h with h | h | h | h | h | h | h | h | h | h <;> subst h
  · have hu : u < 10 := hu
    have := digit_ofNat u hu
    show C0 (place m b l) i u = some (place m b (l ++ ([] ++ [digitChar (u % 10)])))
    unfold C0
    rw [this, write_place _ _ _ _ _ hi, Nat.mod_eq_of_lt hu, List.nil_append]
  · have hu : u < 100 := by norm_num at hu; exact hu
    exact W_spec m b i l u hu hi
  · obtain ⟨t, e, h⟩ := A_spec m b i l 1 u (by omega) (by omega) (by omega) hu2 (by omega) hi
    show C2 (place m b l) i u = _
    simp only [C2, e, Option.bind_eq_bind, Option.bind_some]
    rw [S_spec m b (i + 2) (l ++ pad 2 (u / 10 ^ 1)) _ _ h (by simp; omega), pad_add 2 1]; simp
  · obtain ⟨t, e, h⟩ := A_spec m b i l 2 u (by omega) (by omega) (by omega) hu2 (by omega) hi
    show C3 (place m b l) i u = _
    simp only [C3, e, Option.bind_eq_bind, Option.bind_some]
    obtain ⟨t, e, h⟩ := D_spec m b (i + 2) (l ++ pad 2 (u / 10 ^ 2)) t u 0 h (by simp; omega)
    simp only [e, Option.bind_some, Option.pure_def]
    rw [pad_add 2 2]; simp
  · obtain ⟨t, e, h⟩ := A_spec m b i l 3 u (by omega) (by omega) (by omega) hu2 (by omega) hi
    show C4 (place m b l) i u = _
    simp only [C4, e, Option.bind_eq_bind, Option.bind_some]
    obtain ⟨t, e, h⟩ := D_spec m b (i + 2) (l ++ pad 2 (u / 10 ^ 3)) t u 1 h (by simp; omega)
    simp only [e, Option.bind_some, Option.pure_def]
    rw [S_spec m b (i + 4) (l ++ pad 2 (u / 10 ^ 3) ++ pad 2 (u % 10 ^ (1 + 2) / 10 ^ 1)) _ _ h (by simp; omega), pad_add 2 3, pad_add 2 1]; simp
  · obtain ⟨t, e, h⟩ := A_spec m b i l 4 u (by omega) (by omega) (by omega) hu2 (by omega) hi
    show C5 (place m b l) i u = _
    simp only [C5, e, Option.bind_eq_bind, Option.bind_some]
    obtain ⟨t, e, h⟩ := D_spec m b (i + 2) (l ++ pad 2 (u / 10 ^ 4)) t u 2 h (by simp; omega)
    simp only [e, Option.bind_some, Option.pure_def]
    obtain ⟨t, e, h⟩ := D_spec m b (i + 4) (l ++ pad 2 (u / 10 ^ 4) ++ pad 2 (u % 10 ^ (2 + 2) / 10 ^ 2)) t (u % 10 ^ (2 + 2)) 0 h (by simp; omega)
    simp only [e, Option.bind_some, Option.pure_def]
    rw [pad_add 2 4, pad_add 2 2]; simp
  · obtain ⟨t, e, h⟩ := A_spec m b i l 5 u (by omega) (by omega) (by omega) hu2 (by omega) hi
    show C6 (place m b l) i u = _
    simp only [C6, e, Option.bind_eq_bind, Option.bind_some]
    obtain ⟨t, e, h⟩ := D_spec m b (i + 2) (l ++ pad 2 (u / 10 ^ 5)) t u 3 h (by simp; omega)
    simp only [e, Option.bind_some, Option.pure_def]
    obtain ⟨t, e, h⟩ := D_spec m b (i + 4) (l ++ pad 2 (u / 10 ^ 5) ++ pad 2 (u % 10 ^ (3 + 2) / 10 ^ 3)) t (u % 10 ^ (3 + 2)) 1 h (by simp; omega)
    simp only [e, Option.bind_some, Option.pure_def]
    rw [S_spec m b (i + 6) (l ++ pad 2 (u / 10 ^ 5) ++ pad 2 (u % 10 ^ (3 + 2) / 10 ^ 3) ++ pad 2 ((u % 10 ^ (3 + 2)) % 10 ^ (1 + 2) / 10 ^ 1)) _ _ h (by simp; omega), pad_add 2 5, pad_add 2 3, pad_add 2 1]; simp
  · obtain ⟨t, e, h⟩ := A_spec m b i l 6 u (by omega) (by omega) (by omega) hu2 (by omega) hi
    show C7 (place m b l) i u = _
    simp only [C7, e, Option.bind_eq_bind, Option.bind_some]
    obtain ⟨t, e, h⟩ := D_spec m b (i + 2) (l ++ pad 2 (u / 10 ^ 6)) t u 4 h (by simp; omega)
    simp only [e, Option.bind_some, Option.pure_def]
    obtain ⟨t, e, h⟩ := D_spec m b (i + 4) (l ++ pad 2 (u / 10 ^ 6) ++ pad 2 (u % 10 ^ (4 + 2) / 10 ^ 4)) t (u % 10 ^ (4 + 2)) 2 h (by simp; omega)
    simp only [e, Option.bind_some, Option.pure_def]
    obtain ⟨t, e, h⟩ := D_spec m b (i + 6) (l ++ pad 2 (u / 10 ^ 6) ++ pad 2 (u % 10 ^ (4 + 2) / 10 ^ 4) ++ pad 2 ((u % 10 ^ (4 + 2)) % 10 ^ (2 + 2) / 10 ^ 2)) t ((u % 10 ^ (4 + 2)) % 10 ^ (2 + 2)) 0 h (by simp; omega)
    simp only [e, Option.bind_some, Option.pure_def]
    rw [pad_add 2 6, pad_add 2 4, pad_add 2 2]; simp
  · obtain ⟨t, e, h⟩ := A_spec m b i l 7 u (by omega) (by omega) (by omega) hu2 (by omega) hi
    show C8 (place m b l) i u = _
    simp only [C8, e, Option.bind_eq_bind, Option.bind_some]
    obtain ⟨t, e, h⟩ := D_spec m b (i + 2) (l ++ pad 2 (u / 10 ^ 7)) t u 5 h (by simp; omega)
    simp only [e, Option.bind_some, Option.pure_def]
    obtain ⟨t, e, h⟩ := D_spec m b (i + 4) (l ++ pad 2 (u / 10 ^ 7) ++ pad 2 (u % 10 ^ (5 + 2) / 10 ^ 5)) t (u % 10 ^ (5 + 2)) 3 h (by simp; omega)
    simp only [e, Option.bind_some, Option.pure_def]
    obtain ⟨t, e, h⟩ := D_spec m b (i + 6) (l ++ pad 2 (u / 10 ^ 7) ++ pad 2 (u % 10 ^ (5 + 2) / 10 ^ 5) ++ pad 2 ((u % 10 ^ (5 + 2)) % 10 ^ (3 + 2) / 10 ^ 3)) t ((u % 10 ^ (5 + 2)) % 10 ^ (3 + 2)) 1 h (by simp; omega)
    simp only [e, Option.bind_some, Option.pure_def]
    rw [S_spec m b (i + 8) (l ++ pad 2 (u / 10 ^ 7) ++ pad 2 (u % 10 ^ (5 + 2) / 10 ^ 5) ++ pad 2 ((u % 10 ^ (5 + 2)) % 10 ^ (3 + 2) / 10 ^ 3) ++ pad 2 (((u % 10 ^ (5 + 2)) % 10 ^ (3 + 2)) % 10 ^ (1 + 2) / 10 ^ 1)) _ _ h (by simp; omega), pad_add 2 7, pad_add 2 5, pad_add 2 3, pad_add 2 1]; simp
  · obtain ⟨t, e, h⟩ := A_spec m b i l 8 u (by omega) (by omega) (by omega) hu2 (by omega) hi
    show C9 (place m b l) i u = _
    simp only [C9, e, Option.bind_eq_bind, Option.bind_some]
    obtain ⟨t, e, h⟩ := D_spec m b (i + 2) (l ++ pad 2 (u / 10 ^ 8)) t u 6 h (by simp; omega)
    simp only [e, Option.bind_some, Option.pure_def]
    obtain ⟨t, e, h⟩ := D_spec m b (i + 4) (l ++ pad 2 (u / 10 ^ 8) ++ pad 2 (u % 10 ^ (6 + 2) / 10 ^ 6)) t (u % 10 ^ (6 + 2)) 4 h (by simp; omega)
    simp only [e, Option.bind_some, Option.pure_def]
    obtain ⟨t, e, h⟩ := D_spec m b (i + 6) (l ++ pad 2 (u / 10 ^ 8) ++ pad 2 (u % 10 ^ (6 + 2) / 10 ^ 6) ++ pad 2 ((u % 10 ^ (6 + 2)) % 10 ^ (4 + 2) / 10 ^ 4)) t ((u % 10 ^ (6 + 2)) % 10 ^ (4 + 2)) 2 h (by simp; omega)
    simp only [e, Option.bind_some, Option.pure_def]
    obtain ⟨t, e, h⟩ := D_spec m b (i + 8) (l ++ pad 2 (u / 10 ^ 8) ++ pad 2 (u % 10 ^ (6 + 2) / 10 ^ 6) ++ pad 2 ((u % 10 ^ (6 + 2)) % 10 ^ (4 + 2) / 10 ^ 4) ++ pad 2 (((u % 10 ^ (6 + 2)) % 10 ^ (4 + 2)) % 10 ^ (2 + 2) / 10 ^ 2)) t (((u % 10 ^ (6 + 2)) % 10 ^ (4 + 2)) % 10 ^ (2 + 2)) 0 h (by simp; omega)
    simp only [e, Option.bind_some, Option.pure_def]
    rw [pad_add 2 8, pad_add 2 6, pad_add 2 4, pad_add 2 2]; simp

/-- the two decision trees pick `F N` for the number of digits `N + 1` of `u` -/
theorem L09_spec {α : Type} (u : Nat) (F : Nat → α) (hu : u < 2 ^ 32) :
    ∃ N, N ≤ 9 ∧ u < 10 ^ (N + 1) ∧ (N = 0 ∨ 10 ^ N ≤ u) ∧ L09 u F = F N := by
  simp only [L09, L, u32]
  norm_num1
  split
  · split
    · exact ⟨0, by omega, by omega, by omega, rfl⟩
    · exact ⟨1, by omega, by omega, by omega, rfl⟩
  · split
    · split
      · split
        · exact ⟨2, by omega, by omega, by omega, rfl⟩
        · exact ⟨3, by omega, by omega, by omega, rfl⟩
      · split
        · exact ⟨4, by omega, by omega, by omega, rfl⟩
        · exact ⟨5, by omega, by omega, by omega, rfl⟩
    · split
      · split
        · exact ⟨6, by omega, by omega, by omega, rfl⟩
        · exact ⟨7, by omega, by omega, by omega, rfl⟩
      · split
        · exact ⟨8, by omega, by omega, by omega, rfl⟩
        · exact ⟨9, by omega, by omega, by omega, rfl⟩

theorem L03_spec {α : Type} (u : Nat) (F : Nat → α) (hu : u < 10 ^ 4) :
    ∃ N, N ≤ 3 ∧ u < 10 ^ (N + 1) ∧ (N = 0 ∨ 10 ^ N ≤ u) ∧ L03 u F = F N := by
  simp only [L03, L, u32]
  norm_num1
  split
  · split
    · exact ⟨0, by omega, by omega, by omega, rfl⟩
    · exact ⟨1, by omega, by omega, by omega, rfl⟩
  · split
    · exact ⟨2, by omega, by omega, by omega, rfl⟩
    · exact ⟨3, by omega, by omega, by omega, rfl⟩

theorem C7_spec (m : Mem) (b i : Nat) (l : List Char) (u : Nat)
    (hu : u < 10 ^ 8) (hi : i = b + l.length) :
    C7 (place m b l) i u = some (place m b (l ++ pad 8 u)) :=
  C_spec m b i l 7 u (by omega) hu (by omega) (by omega) hi

/-- the unsigned part of the conversion, after an already written prefix `l` (empty or `-`) -/
theorem unsigned_spec (m : Mem) (b : Nat) (l : List Char) (t u : Nat)
    (ht : t < 2 ^ 64) (hu : u < 2 ^ 32) (hu32 : t < 2 ^ 32 → u = t) :
    (if u = t then L09 u (K (place m b l) (b + l.length) u)
    else
      let x := u32 (t % 100000000)
      let t := t / 100000000
      let u := u32 t
      if u = t then L09 u (KX (place m b l) (b + l.length) u x)
      else
        let y := u32 (t % 100000000)
        let u := u32 (t / 100000000)
        L03 u (KYX (place m b l) (b + l.length) u y x)) =
    some (place m b (l ++ Nat.toDigits 10 t), b + l.length + (Nat.toDigits 10 t).length) := by
  have e8 : (10 : Nat) ^ 8 = 100000000 := by norm_num
  by_cases h : u = t
  · rw [if_pos h]
    obtain ⟨N, hN, h1, h2, e⟩ := L09_spec u (K (place m b l) (b + l.length) u) hu
    rw [e, K, C_spec _ _ _ _ _ _ hN h1 hu (by by_cases hN6 : N = 6 <;> [(subst hN6; omega); omega]) rfl, ← h, toDigits_eq_pad N u h1 h2]
    simp [Nat.add_assoc]
  · rw [if_neg h]
    have hge : 2 ^ 32 ≤ t := by
      by_contra hc; exact h (hu32 (by omega))
    have hx : u32 (t % 100000000) = t % 100000000 := by unfold u32; omega
    have hy : u32 (t / 100000000 % 100000000) = t / 100000000 % 100000000 := by unfold u32; omega
    have hx8 : t % 100000000 < 10 ^ 8 := by omega
    have ht1 : 0 < t / 100000000 := by omega
    have hd : Nat.toDigits 10 t = Nat.toDigits 10 (t / 100000000) ++ pad 8 (t % 100000000) := by
      have : t = t / 100000000 * 10 ^ 8 + t % 100000000 := by omega
      conv => lhs; rw [this]
      exact toDigits_append_pad 8 _ _ ht1 hx8
    simp only [hx, hy]
    by_cases h' : u32 (t / 100000000) = t / 100000000
    · rw [if_pos h', h']
      have hlt : t / 100000000 < 2 ^ 32 := by unfold u32 at h'; omega
      obtain ⟨N, hN, h1, h2, e⟩ := L09_spec (t / 100000000)
        (KX (place m b l) (b + l.length) (t / 100000000) (t % 100000000)) hlt
      rw [e, KX, C_spec _ _ _ _ _ _ hN h1 hlt (by by_cases hN6 : N = 6 <;> [(subst hN6; omega); omega]) rfl]
      simp only [Option.bind_eq_bind, Option.bind_some]
      rw [C7_spec _ _ _ _ _ hx8 (by simp; omega), hd, toDigits_eq_pad N _ h1 h2]
      simp; omega
    · rw [if_neg h']
      have h3 : t / 100000000 / 100000000 < 10 ^ 4 := by omega
      have h4 : u32 (t / 100000000 / 100000000) = t / 100000000 / 100000000 := by
        unfold u32; omega
      have hge2 : 2 ^ 32 ≤ t / 100000000 := by
        by_contra hc; exact h' (by unfold u32; omega)
      have hy8 : t / 100000000 % 100000000 < 10 ^ 8 := by omega
      rw [h4]
      obtain ⟨N, hN, h1, h2, e⟩ := L03_spec (t / 100000000 / 100000000)
        (KYX (place m b l) (b + l.length) (t / 100000000 / 100000000)
          (t / 100000000 % 100000000) (t % 100000000)) h3
      have hd2 : Nat.toDigits 10 (t / 100000000) =
          Nat.toDigits 10 (t / 100000000 / 100000000) ++ pad 8 (t / 100000000 % 100000000) := by
        have : t / 100000000
          = t / 100000000 / 100000000 * 10 ^ 8 + t / 100000000 % 100000000 := by omega
        conv => lhs; rw [this]
        exact toDigits_append_pad 8 _ _ (by omega) hy8
      rw [e, KYX, C_spec _ _ _ _ _ _ (by omega) h1 (by omega) (by omega) rfl]
      simp only [Option.bind_eq_bind, Option.bind_some]
      rw [C7_spec _ _ _ _ _ hy8 (by simp; omega)]
      simp only [Option.bind_some]
      rw [C7_spec _ _ _ _ _ hx8 (by simp; omega), hd, hd2, toDigits_eq_pad N _ h1 h2]
      simp; omega

end ToText
end CE
