import Verif.Model.Base64
import Verif.Spec.Base64
import Mathlib.Tactic.NormNum
namespace CE.Base64

theorem dec_letter (x : Nat) (h : x < 64) : dec (letter x) = x := by
  revert x; decide +kernel

theorem isBase64_letter (x : Nat) (h : x < 64) : isBase64 (letter x) = true := by
  revert x; decide +kernel

theorem isBase64_iff (c : Nat) (h : c < 256) : isBase64 c = true ↔ ∃ x, x < 64 ∧ c = letter x := by
  revert c; decide +kernel

theorem size_eq (n : Nat) (h : n < 2 ^ 64) : size n = n * 3 / 4 := by
  unfold size
  rw [Nat.mod_eq_of_lt (show n / 4 * 3 < 2 ^ 64 by omega),
    Nat.mod_eq_of_lt (show n % 4 * 3 < 2 ^ 64 by omega),
    Nat.mod_eq_of_lt (show n / 4 * 3 + n % 4 * 3 / 4 < 2 ^ 64 by omega)]
  omega

theorem decodeByte_group (g r : List Nat) (hg : g.length = 4) (i : Nat) (hi : i + 3 < 2 ^ 62) :
    decodeByte (g ++ r) (i + 3) = decodeByte r i := by
  unfold decodeByte
  have e : (i + 3) * 4 % 2 ^ 64 / 3 = i * 4 % 2 ^ 64 / 3 + 4 := by omega
  have e2 : (i + 3) % 3 = i % 3 := by omega
  rw [e, e2, List.getElem?_append_right (by omega), List.getElem?_append_right (by omega), hg]
  rw [show i * 4 % 2 ^ 64 / 3 + 4 + 0 - 4 = i * 4 % 2 ^ 64 / 3 + 0 by omega,
    show i * 4 % 2 ^ 64 / 3 + 4 + 1 - 4 = i * 4 % 2 ^ 64 / 3 + 1 by omega]

theorem decodeByte_encode (bs : List Nat) (hb : ∀ b ∈ bs, b < 256) (t : List Nat)
    (hl : bs.length ≤ 2 ^ 62) (i : Nat) (hi : i < bs.length) :
    decodeByte (encode bs ++ t) i = bs[i]? := by
  induction bs using encode.induct generalizing i with
  | case1 => simp at hi
  | case2 a =>
    have ha : a < 256 := hb a (by simp)
    have : i = 0 := by simpa using hi
    subst this
    simp [decodeByte, encode, dec_letter (a / 4) (by omega), dec_letter (a % 4 * 16) (by omega),
      Nat.shiftLeft_eq, Nat.shiftRight_eq_div_pow]
    omega
  | case3 a b =>
    have ha : a < 256 := hb a (by simp)
    have hb : b < 256 := hb b (by simp)
    have : i = 0 ∨ i = 1 := by simp at hi; omega
    rcases this with h | h <;> subst h <;>
    simp [decodeByte, encode, dec_letter (a / 4) (by omega),
      dec_letter (a % 4 * 16 + b / 16) (by omega), dec_letter (b % 16 * 4) (by omega),
      Nat.shiftLeft_eq, Nat.shiftRight_eq_div_pow] <;> omega
  | case4 a b c r ih =>
    by_cases h3 : i < 3
    · have ha : a < 256 := hb a (by simp)
      have hb' : b < 256 := hb b (by simp)
      have hc : c < 256 := hb c (by simp)
      have : i = 0 ∨ i = 1 ∨ i = 2 := by omega
      rcases this with h | h | h <;> subst h <;>
      simp [decodeByte, encode, dec_letter (a / 4) (by omega),
        dec_letter (a % 4 * 16 + b / 16) (by omega), dec_letter (b % 16 * 4 + c / 64) (by omega),
        dec_letter (c % 64) (by omega),
        Nat.shiftLeft_eq, Nat.shiftRight_eq_div_pow] <;> omega
    · obtain ⟨j, rfl⟩ : ∃ j, i = j + 3 := ⟨i - 3, by omega⟩
      have e : encode (a :: b :: c :: r) ++ t =
        [letter (a / 4), letter (a % 4 * 16 + b / 16), letter (b % 16 * 4 + c / 64),
          letter (c % 64)] ++ (encode r ++ t) := by simp [encode]
      rw [e, decodeByte_group _ _ rfl _ (by omega),
        ih (fun x hx => hb x (by simp [hx])) (by simp at hl; omega) j (by simp at hi; omega)]
      simp

theorem encode_letters (bs : List Nat) (hb : ∀ b ∈ bs, b < 256) :
    ∀ c ∈ encode bs, isBase64 c = true := by
  induction bs using encode.induct with
  | case1 => simp [encode]
  | case2 a =>
    have ha : a < 256 := hb a (by simp)
    simp [encode, isBase64_letter (a / 4) (by omega), isBase64_letter (a % 4 * 16) (by omega)]
  | case3 a b =>
    have ha : a < 256 := hb a (by simp)
    have hb : b < 256 := hb b (by simp)
    simp [encode, isBase64_letter (a / 4) (by omega),
      isBase64_letter (a % 4 * 16 + b / 16) (by omega), isBase64_letter (b % 16 * 4) (by omega)]
  | case4 a b c r ih =>
    have ha : a < 256 := hb a (by simp)
    have hb' : b < 256 := hb b (by simp)
    have hc : c < 256 := hb c (by simp)
    have := ih (fun x hx => hb x (by simp [hx]))
    simp [encode, isBase64_letter (a / 4) (by omega),
      isBase64_letter (a % 4 * 16 + b / 16) (by omega),
      isBase64_letter (b % 16 * 4 + c / 64) (by omega), isBase64_letter (c % 64) (by omega)]
    exact this

theorem encode_length (bs : List Nat) : (encode bs).length = (bs.length * 4 + 2) / 3 := by
  induction bs using encode.induct with
  | case1 => simp [encode]
  | case2 a => simp [encode]
  | case3 a b => simp [encode]
  | case4 a b c r ih => simp [encode, ih]; omega

theorem sizeText_eq (n : Nat) (s t : List Nat) (c : Nat) (hs : ∀ x ∈ s, isBase64 x = true)
    (hc : isBase64 c = false) : sizeText n (s ++ c :: t) = some (size (n + s.length)) := by
  induction s generalizing n with
  | nil => simp [sizeText, hc]
  | cons x s ih =>
    have hx : isBase64 x = true := hs x (by simp)
    simp only [List.cons_append, sizeText, hx, Bool.not_true, Bool.false_eq_true, if_false]
    rw [ih _ (fun y hy => hs y (by simp [hy]))]
    simp; congr 1; omega

theorem mapM_eq {α β : Type} (l : List α) (f : α → Option β) (g : α → β)
    (h : ∀ x ∈ l, f x = some (g x)) : l.mapM f = some (l.map g) := by
  induction l with
  | nil => rfl
  | cons a l ih =>
    simp [List.mapM_cons, h a (by simp), ih (fun x hx => h x (by simp [hx]))]

end CE.Base64
