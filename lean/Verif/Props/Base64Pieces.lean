import Verif.Props.Base64
/-!
# Base64 in pieces (C156)
-/
namespace CE.Base64

theorem mapM_append_some {α β : Type} (f : α → Option β) (l r : List α) (x y : List β) (h1 : l.mapM f = some x) (h2 : r.mapM f = some y) :
    (l ++ r).mapM f = some (x ++ y) := by
  simp [List.mapM_append, h1, h2]

theorem mapM_append_inv {α β : Type} (f : α → Option β) (l r : List α) (z : List β) (h : (l ++ r).mapM f = some z) :
    l.mapM f = some (z.take l.length) := by
  induction l generalizing z with
  | nil => rfl
  | cons a l ih =>
    rw [List.cons_append, List.mapM_cons] at h
    cases ha : f a with
    | none => simp [ha] at h
    | some b =>
      cases hr : (l ++ r).mapM f with
      | none => simp [ha, hr] at h
      | some w =>
        simp [ha, hr] at h
        subst h
        have := ih w hr
        rw [List.mapM_cons, ha, this]
        rfl

theorem mapM_same {α β : Type} (f g : α → Option β) (l : List α) (h : ∀ x ∈ l, f x = g x) : l.mapM f = l.mapM g := by
  induction l with
  | nil => rfl
  | cons a l ih =>
    rw [List.mapM_cons, List.mapM_cons, h a (List.mem_cons_self ..), ih (fun x hx => h x (List.mem_cons_of_mem _ hx))]

/-- **A part of the bytes**: asking for fewer bytes gives the first ones of those. -/
theorem C156_fewer (s out : List Nat) (n k : Nat) (hk : k ≤ n) (h : decode n s = some out) : decode k s = some (out.take k) := by
  unfold decode at h ⊢
  have e : List.range n = List.range k ++ (List.range (n - k)).map (k + ·) := by
    rw [← List.range_add]; congr 1; omega
  rw [e] at h
  simpa using mapM_append_inv _ _ _ _ h

theorem decodeByte_after (a r : List Nat) (k : Nat) (ha : a.length = 4 * k) (i : Nat) (hi : i + 3 * k < 2 ^ 62) :
    decodeByte (a ++ r) (3 * k + i) = decodeByte r i := by
  induction k generalizing a with
  | zero =>
    have : a = [] := List.length_eq_zero_iff.1 (by omega)
    subst this
    simp
  | succ k ih =>
    have e : a = a.take 4 ++ a.drop 4 := (List.take_append_drop 4 a).symm
    rw [e, List.append_assoc, show 3 * (k + 1) + i = (3 * k + i) + 3 by omega,
      decodeByte_group _ _ (by rw [List.length_take]; omega) _ (by omega)]
    exact ih (a.drop 4) (by rw [List.length_drop]; omega) (by omega)

/-- **Decoding in pieces.** A text may be cut anywhere after a multiple of four letters and the pieces decoded one by one, each
to its own size: the bytes put together are those of the whole, whatever the characters are and whatever follows. -/
theorem C156_pieces (a b t : List Nat) (h4 : 4 ∣ a.length) (hl : a.length + b.length ≤ 2 ^ 62) :
    ∃ x y, decode (size a.length) a = some x ∧ decode (size b.length) b = some y ∧
      x.length = a.length / 4 * 3 ∧ decode (size (a.length + b.length)) (a ++ b ++ t) = some (x ++ y) := by
  obtain ⟨k, hk⟩ := h4
  obtain ⟨x, x1, x2, _, x4⟩ := C13_decode_in_bounds a (by omega)
  obtain ⟨y, y1, y2, _, y4⟩ := C13_decode_in_bounds b (by omega)
  have sa : size a.length = 3 * k := by rw [size_eq _ (by omega)]; omega
  have sb : size b.length = b.length * 3 / 4 := size_eq _ (by omega)
  have sab : size (a.length + b.length) = 3 * k + b.length * 3 / 4 := by rw [size_eq _ (by omega)]; omega
  refine ⟨x, y, x1, y1, by omega, ?_⟩
  rw [sab]
  unfold decode
  rw [List.range_add]
  apply mapM_append_some
  · have := x4 (b ++ t)
    rw [sa, ← List.append_assoc] at this
    exact this
  · have := y4 t
    rw [sb] at this
    unfold decode at this
    rw [← this, List.mapM_map]
    refine mapM_same _ _ _ (fun i hi => ?_)
    rw [List.mem_range] at hi
    rw [List.append_assoc]
    exact decodeByte_after a (b ++ t) k hk i (by omega)

theorem encode_append (a b : List Nat) (h : 3 ∣ a.length) : encode (a ++ b) = encode a ++ encode b := by
  induction a using encode.induct with
  | case1 => rfl
  | case2 => simp at h
  | case3 => simp at h
  | case4 x y z r ih =>
    have : 3 ∣ r.length := by simp at h; omega
    simp [encode, ih this]

/-- **Encoding in pieces.** The encodings of pieces of bytes, each but the last a multiple of three long, put together are decoded
to the bytes of the pieces put together. -/
theorem C156_joined (ps : List (List Nat)) (last : List Nat) (h3 : ∀ p ∈ ps, 3 ∣ p.length) (hb : ∀ p ∈ ps ++ [last], ∀ x ∈ p, x < 256)
    (hl : (ps.flatten ++ last).length ≤ 2 ^ 62) (c : Nat) (t : List Nat) (hc : c < 256) (hc' : ¬ IsLetter c) :
    let text := (ps.map encode).flatten ++ encode last ++ c :: t
    sizeText 0 text = some (ps.flatten ++ last).length ∧ decode (ps.flatten ++ last).length text = some (ps.flatten ++ last) := by
  have e : (ps.map encode).flatten ++ encode last = encode (ps.flatten ++ last) := by
    clear hl hb
    induction ps with
    | nil => rfl
    | cons p ps ih =>
      rw [List.map_cons, List.flatten_cons, List.append_assoc, ih (fun q hq => h3 q (List.mem_cons_of_mem _ hq)), List.flatten_cons,
        List.append_assoc, encode_append _ _ (h3 p (List.mem_cons_self ..))]
  simp only [e]
  refine C12_decode_inverts_encode _ (fun x hx => ?_) hl c t hc hc'
  rcases List.mem_append.1 hx with h | h
  · obtain ⟨p, hp, hx⟩ := List.mem_flatten.1 h
    exact hb p (List.mem_append_left _ hp) x hx
  · exact hb last (by simp) x h

/-- Elsewhere they cannot be put together: the encodings of two single bytes one after the other are decoded to three bytes, of
which only the first is right. -/
theorem C156_joined_false : ∃ a b : List Nat, (∀ x ∈ a ++ b, x < 256) ∧
    sizeText 0 (encode a ++ encode b ++ [0]) = some 3 ∧ decode 3 (encode a ++ encode b ++ [0]) = some [65, 4, 32] ∧ a ++ b = [65, 66] :=
  ⟨[65], [66], by decide, by decide +kernel, by decide +kernel, rfl⟩

/-- Nor can a text be cut elsewhere: after two letters of `QUJD` ("ABC"). -/
theorem C156_cut_false : ∃ a b : List Nat, (∀ c ∈ a ++ b, isBase64 c = true) ∧ decode (size 4) (a ++ b) = some [65, 66, 67] ∧
    a.length + b.length = 4 ∧ decode (size a.length) a = some [65] ∧ decode (size b.length) b = some [36] :=
  ⟨[81, 85], [74, 68], by decide +kernel, by decide +kernel, rfl, by decide +kernel, by decide +kernel⟩

/-! ## Concrete cases -/

/-- `QUJD` and `REU=`: the two pieces of the bytes `ABCDE` -/
example : 4 ∣ [81, 85, 74, 68].length ∧ decode (size 4) [81, 85, 74, 68] = some [65, 66, 67] ∧
    decode (size 3) [82, 69, 85] = some [68, 69] ∧
    decode (size 7) ([81, 85, 74, 68] ++ [82, 69, 85] ++ [61]) = some [65, 66, 67, 68, 69] := by
  refine ⟨by decide, ?_, ?_, ?_⟩ <;> decide +kernel

example : (∀ p ∈ [[1, 2, 3], [4, 5, 6, 7, 8, 9]], 3 ∣ p.length) ∧ ¬ IsLetter 61 := by
  refine ⟨by decide, ?_⟩
  rintro ⟨x, hx, h⟩
  revert x
  decide

end CE.Base64
