import Verif.Spec.Utf16
/-!
# to_utf16 of one scalar value
-/
namespace CE.Utf16

theorem toUtf16_one {c : Nat} (hc : Scalar c) (rest : List Nat) :
    toUtf16 (utf8 c ++ rest) = (toUtf16 rest).map (utf16 c ++ ·) := by
  have hlt : c < 0x110000 := by unfold Scalar at hc; omega
  unfold utf8 utf16
  by_cases h1 : c < 0x80
  · rw [if_pos h1, if_pos (by omega)]
    show toUtf16 (c :: rest) = _
    rw [toUtf16.eq_def]
    dsimp only
    rw [if_pos h1, show u16 (c : Int) = c by unfold u16; omega]
    rfl
  · rw [if_neg h1]
    by_cases h2 : c < 0x800
    · rw [if_pos h2, if_pos (by omega)]
      show toUtf16 ((0xc0 + c / 64) :: (0x80 + c % 64) :: rest) = _
      rw [toUtf16.eq_def]
      dsimp only
      rw [if_neg (by omega), if_pos (by omega)]
      have : u16 (((0xc0 + c / 64 : Nat) : Int) * 64 + (0x80 + c % 64 : Nat) - 0xc0 * 64 - 0x80) = c := by
        unfold u16; omega
      rw [this]
      rfl
    · rw [if_neg h2]
      by_cases h3 : c < 0x10000
      · rw [if_pos h3, if_pos h3]
        show toUtf16 ((0xe0 + c / 4096) :: (0x80 + c / 64 % 64) :: (0x80 + c % 64) :: rest) = _
        rw [toUtf16.eq_def]
        dsimp only
        rw [if_neg (by omega), if_neg (by omega), if_pos (by omega)]
        have : u16 (((0xe0 + c / 4096 : Nat) : Int) * 64 * 64 + (0x80 + c / 64 % 64 : Nat) * 64 + (0x80 + c % 64 : Nat) -
            0x80 * 64 - 0x80) = c := by
          unfold u16; omega
        rw [this]
        rfl
      · rw [if_neg h3, if_neg h3]
        show toUtf16 ((0xf0 + c / 262144) :: (0x80 + c / 4096 % 64) :: (0x80 + c / 64 % 64) :: (0x80 + c % 64) :: rest) = _
        rw [toUtf16.eq_def]
        dsimp only
        rw [if_neg (by omega), if_neg (by omega), if_neg (by omega)]
        have e1 : u16 ((0xd800 : Int) - 0xf248 + (0xf0 + c / 262144 : Nat) * 256 + (0x80 + c / 4096 % 64 : Nat) * 4 +
            ((0x80 + c / 64 % 64) / 16 : Nat)) = 0xd800 + (c - 0x10000) / 1024 := by
          unfold u16; omega
        have e2 : u16 ((0xdc00 : Int) - 0x0080 + ((0x80 + c / 64 % 64) % 16 * 64 : Nat) + (0x80 + c % 64 : Nat)) =
            0xdc00 + (c - 0x10000) % 1024 := by
          unfold u16; omega
        rw [e1, e2]
        rfl

/-- units written, bytes read: for any bytes -/
theorem toUtf16_len : ∀ (n : Nat) (s d : List Nat), s.length ≤ n → toUtf16 s = some d →
    d.length ≤ s.length ∧ ∀ u ∈ d, u < 65536 := by
  have hu : ∀ n, u16 n < 65536 := fun n => by unfold u16; omega
  intro n
  induction n with
  | zero =>
    intro s d hs h
    have : s = [] := List.length_eq_zero_iff.1 (by omega)
    subst this
    rw [toUtf16] at h
    cases h
    exact ⟨Nat.le_refl _, by simp⟩
  | succ n ih =>
    intro s d hs h
    cases s with
    | nil => rw [toUtf16] at h; cases h; exact ⟨Nat.le_refl _, by simp⟩
    | cons s0 rest =>
      rw [List.length_cons] at hs
      rw [toUtf16.eq_def] at h
      dsimp only at h
      split at h
      · obtain ⟨e, he, rfl⟩ := Option.map_eq_some_iff.1 h
        have := ih rest e (by omega) he
        refine ⟨by simp only [List.length_cons]; omega, fun u h => ?_⟩
        rcases List.mem_cons.1 h with rfl | h
        · exact hu _
        · exact this.2 u h
      · split at h
        · split at h
          · next s1 r =>
            obtain ⟨e, he, rfl⟩ := Option.map_eq_some_iff.1 h
            rw [List.length_cons] at hs
            have := ih r e (by omega) he
            refine ⟨by simp only [List.length_cons]; omega, fun u h => ?_⟩
            rcases List.mem_cons.1 h with rfl | h
            · exact hu _
            · exact this.2 u h
          · cases h
        · split at h
          · split at h
            · next s1 s2 r =>
              obtain ⟨e, he, rfl⟩ := Option.map_eq_some_iff.1 h
              rw [List.length_cons, List.length_cons] at hs
              have := ih r e (by omega) he
              refine ⟨by simp only [List.length_cons]; omega, fun u h => ?_⟩
              rcases List.mem_cons.1 h with rfl | h
              · exact hu _
              · exact this.2 u h
            · cases h
          · split at h
            · next s1 s2 s3 r =>
              obtain ⟨e, he, rfl⟩ := Option.map_eq_some_iff.1 h
              rw [List.length_cons, List.length_cons, List.length_cons] at hs
              have := ih r e (by omega) he
              refine ⟨by simp only [List.length_cons]; omega, fun u h => ?_⟩
              rcases List.mem_cons.1 h with rfl | h
              · exact hu _
              · rcases List.mem_cons.1 h with rfl | h
                · exact hu _
                · exact this.2 u h
            · cases h

end CE.Utf16
