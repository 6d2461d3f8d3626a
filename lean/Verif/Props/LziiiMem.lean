import Verif.Model.LziiiMem
import Verif.Props.Lziii
/-!
# C140: lziii decoding in place

A stream can be decoded in the buffer that holds it, if it is placed at the end of the buffer and the buffer is one byte
per eight longer than the decoded data.
-/
namespace CE.LziiiMem

open CE.Lziii (U8 Tok EncFrom total Valid expand copyBack Encodes total_cons span_bytes spanBegin spanEnd spanBegin_eq w64_eq
  ctl_ne_one or256)

/-- `m` holds `l` from address `a` on -/
def At (m : Mem) (a : Nat) (l : List U8) : Prop := ∀ k, k < l.length → l[k]? = some (m (a + k))

theorem At.head {m : Mem} {a : Nat} {x : U8} {l : List U8} (h : At m a (x :: l)) : m a = x := by
  have := h 0 (by simp)
  simpa using this.symm

theorem At.tail {m : Mem} {a : Nat} {x : U8} {l : List U8} (h : At m a (x :: l)) : At m (a + 1) l := by
  intro k hk
  have := h (k + 1) (by simpa using hk)
  rw [List.getElem?_cons_succ] at this
  rw [this, show a + (k + 1) = a + 1 + k by omega]

/-- a store elsewhere -/
theorem At.store {m : Mem} {a : Nat} {l : List U8} (h : At m a l) {i : Nat} (x : U8) (hi : i < a ∨ a + l.length ≤ i) :
    At (fun j => if j = i then x else m j) a l := by
  intro k hk
  dsimp only
  rw [h k hk, if_neg (by omega)]

/-- the next byte is stored -/
theorem At.push {m : Mem} {a : Nat} {l : List U8} (h : At m a l) (x : U8) :
    At (fun j => if j = a + l.length then x else m j) a (l ++ [x]) := by
  intro k hk
  rw [List.length_append, List.length_singleton] at hk
  dsimp only
  by_cases hk' : k = l.length
  · subst hk'
    rw [if_pos rfl, List.getElem?_append_right (Nat.le_refl _)]
    simp
  · rw [if_neg (by omega), List.getElem?_append_left (by omega), h k (by omega)]

theorem At.congr {m m' : Mem} {a : Nat} {l : List U8} (h : At m a l) (he : ∀ k, k < l.length → m' (a + k) = m (a + k)) :
    At m' a l := by
  intro k hk
  rw [h k hk, he k hk]

theorem ld_eq {M : Nat} {m : Mem} {a : Nat} (h : a < M) : ld M m a = some (m a) := if_pos h

theorem st_eq {M : Nat} {m : Mem} {a : Nat} {x : U8} (h : a < M) :
    st M m a x = some (fun j => if j = a then x else m j) := if_pos h

/-- the bytes of a span -/
theorem copyLoop_eq (M d k off : Nat) (m : Mem) (out : List U8) (h : At m d out) (h1 : 1 ≤ off) (h2 : off ≤ out.length)
    (hM : d + out.length + k ≤ M) :
    ∃ m', copyLoop M d k m out.length (out.length - off) = some (m', out.length + k) ∧ At m' d (copyBack off k out) ∧
      (copyBack off k out).length = out.length + k ∧
      ∀ a, ¬(d + out.length ≤ a ∧ a < d + out.length + k) → m' a = m a := by
  induction k generalizing m out with
  | zero => exact ⟨m, rfl, h, rfl, fun _ _ => rfl⟩
  | succ k ih =>
    have hx : m (d + (out.length - off)) = out.getD (out.length - off) 0 := by
      have := h (out.length - off) (by omega)
      rw [List.getD_eq_getElem?_getD, this]; rfl
    obtain ⟨m', f1, f2, f3, f4⟩ := ih _ _ (h.push (out.getD (out.length - off) 0)) (by simp; omega) (by simp; omega)
    rw [List.length_append, List.length_singleton] at f1 f3 f4
    refine ⟨m', ?_, f2, ?_, ?_⟩
    · unfold copyLoop
      rw [ld_eq (by omega), Option.bind_eq_bind, Option.bind_some, st_eq (by omega), Option.bind_eq_bind, Option.bind_some, hx]
      rw [show out.length + 1 - off = out.length - off + 1 by omega] at f1
      rw [f1]; congr 2; omega
    · rw [copyBack, f3]; omega
    · intro a ha
      rw [f4 a (by omega), if_neg (by omega)]

theorem emit_span (M d : Nat) (m : Mem) (i : Nat) (p q : U8) (off len : Nat)
    (h : q.toNat % 16 * 256 + p.toNat + off = 4096) (h1 : off ≤ i) (h2 : 1 ≤ off)
    (hl : q.toNat / 16 + 3 = len) (hi : i + len < 2 ^ 64) :
    emit M d m i p (some q) = copyLoop M d len m i (i - off) := by
  have hend : spanEnd (i - off) q = i - off + len := by
    unfold spanEnd; rw [w64_eq _ (by omega)]; omega
  unfold emit
  dsimp only
  rw [spanBegin_eq i p q off (by omega) h h1 h2, hend, Nat.add_sub_cancel_left]

theorem decodeLoop_round (M d D : Nat) (m : Mem) (i c s : Nat) (h : i < D) :
    decodeLoop M d D m i c s = (token M m c s).bind fun r =>
      (emit M d m i r.2.1 r.2.2.1).bind fun t => decodeLoop M d D t.1 t.2 (r.1 / 2) r.2.2.2 := by
  rw [decodeLoop, if_pos h]
  split
  · rename_i ht; rw [ht]; rfl
  · rename_i ht
    rw [ht]
    simp only [Option.bind_some]
    split
    · rename_i he; rw [he]; rfl
    · rename_i he; rw [he]; rfl

theorem decodeLoop_done (M d D : Nat) (m : Mem) (i c s : Nat) (h : ¬i < D) : decodeLoop M d D m i c s = some m := by
  rw [decodeLoop, if_neg h]

theorem token_fetch (M : Nat) (m : Mem) (s : Nat) (h : s < M) :
    token M m 1 s = token M m ((m s).toNat ||| 0x100) (s + 1) := by
  unfold token fetch
  rw [if_pos rfl, ld_eq h, if_neg (ctl_ne_one _)]
  rfl

theorem token_lit (M : Nat) (m : Mem) (c s : Nat) (hc : c ≠ 1) (h2 : c % 2 = 1) (h : s < M) :
    token M m c s = some (c, m s, none, s + 1) := by
  unfold token fetch
  rw [if_neg hc, Option.bind_eq_bind, Option.bind_some, ld_eq h, Option.bind_eq_bind, Option.bind_some, if_neg (by omega)]
  rfl

theorem token_span (M : Nat) (m : Mem) (c s : Nat) (hc : c ≠ 1) (h2 : c % 2 = 0) (h : s + 1 < M) :
    token M m c s = some (c, m s, some (m (s + 1)), s + 2) := by
  unfold token fetch
  rw [if_neg hc, Option.bind_eq_bind, Option.bind_some, ld_eq (by omega), Option.bind_eq_bind, Option.bind_some, if_pos h2,
    ld_eq h]
  rfl

theorem log2_half {c : Nat} (h : 2 ≤ c) : Nat.log2 c = Nat.log2 (c / 2) + 1 := by
  rw [Nat.log2_def, if_pos h]

theorem log2_ctl (x : U8) : Nat.log2 (x.toNat ||| 0x100) = 8 := by
  rw [or256 _ x.isLt]
  have := x.isLt
  rw [Nat.log2_eq_iff (by omega)]
  omega

/-- length of what is left of a stream: what it produces, and control bytes -/
theorem encFrom_length {c : Nat} {ts : List Tok} {e : List U8} (h : EncFrom c ts e) (hc : 1 ≤ c) :
    e.length ≤ total ts + (ts.length - Nat.log2 c + 7) / 8 := by
  induction h with
  | nil c => simp
  | fetch ctl t ts e h ih =>
    have := ih (by rw [or256 _ ctl.isLt]; omega)
    rw [log2_ctl] at this
    have h1 : Nat.log2 1 = 0 := by decide
    rw [h1]
    simp only [List.length_cons] at *
    omega
  | lit c x ts e h1 h2 h ih =>
    have := ih (by omega)
    rw [log2_half (by omega), total_cons]
    simp only [List.length_cons, Tok.count]
    omega
  | span c off len ts e h1 h2 hb h ih =>
    have := ih (by omega)
    rw [log2_half (by omega), total_cons]
    simp only [List.length_cons, List.length_append, Tok.count, Tok.payload, List.length_nil]
    omega

/-- control bytes still needed after the next token -/
def later (c : Nat) (ts : List Tok) : Nat := (ts.length - (if c = 1 then 8 else Nat.log2 c) + 7) / 8

theorem decodeLoop_eq {c : Nat} {ts : List Tok} {e : List U8} (h : EncFrom c ts e) (hc : 1 ≤ c) (M d D B s : Nat) (m : Mem)
    (out : List U8) (hout : At m d out) (hsrc : At m s e) (hv : Valid out.length ts) (hD : out.length + total ts = D)
    (hD64 : D < 2 ^ 64) (hMd : d + D ≤ M) (hMs : s + e.length ≤ M)
    (hsep : s + e.length ≤ d ∨ (later c ts ≤ B ∧ d + D + B ≤ s + e.length)) :
    ∃ m', decodeLoop M d D m out.length c s = some m' ∧ At m' d (expand ts out) ∧ (expand ts out).length = D ∧
      ∀ a, ¬(d + out.length ≤ a ∧ a < d + D) → m' a = m a := by
  induction h generalizing m out s with
  | nil c =>
    simp [total] at hD
    exact ⟨m, decodeLoop_done _ _ _ _ _ _ _ (by omega), by simpa [expand] using hout, by simpa [expand] using hD, fun _ _ => rfl⟩
  | fetch ctl t ts e h ih =>
    simp only [List.length_cons] at hMs hsep
    have hlt : out.length < D := by
      rw [total_cons] at hD
      have : 0 < t.count := by
        have := hv.1
        cases t <;> simp [Tok.count, Tok.Ok] at *
        omega
      omega
    obtain ⟨m', h1, h2⟩ := ih (by rw [or256 _ ctl.isLt]; omega) (s + 1) m out hout hsrc.tail hv hD (by omega) (by
      rcases hsep with hsep | ⟨k1, k2⟩
      · left; omega
      · right
        refine ⟨?_, by omega⟩
        unfold later at k1 ⊢
        rw [if_pos rfl] at k1
        rw [if_neg (ctl_ne_one ctl), log2_ctl]
        exact k1)
    refine ⟨m', ?_, h2⟩
    rw [decodeLoop_round _ _ _ _ _ _ _ hlt] at h1 ⊢
    rw [token_fetch M m s (by omega), hsrc.head]
    exact h1
  | lit c x ts e h1 h2 h ih =>
    rw [total_cons] at hD
    simp only [Tok.count] at hD
    simp only [List.length_cons] at hMs hsep
    have hlen := encFrom_length h (by omega)
    have hlog := log2_half (show 2 ≤ c by omega)
    have hl : later c (.lit x :: ts) = (ts.length - Nat.log2 (c / 2) + 7) / 8 := by
      unfold later
      rw [if_neg h1, hlog]
      simp only [List.length_cons]
      congr 2
      omega
    rw [hl] at hsep
    have hap : d + out.length < s + 1 ∨ s + 1 + e.length ≤ d + out.length := by
      rcases hsep with hsep | ⟨k1, k2⟩
      · right; omega
      · left; omega
    obtain ⟨m', f1, f2, f3, f4⟩ := ih (by omega) (s + 1) _ (out ++ [x]) (hout.push x) (hsrc.tail.store x hap)
      (by rw [List.length_append]; exact hv.2) (by simp; omega) (by omega) (by
        rcases hsep with hsep | ⟨k1, k2⟩
        · left; omega
        · right
          refine ⟨?_, by omega⟩
          refine Nat.le_trans ?_ k1
          unfold later
          split
          · have : Nat.log2 (c / 2) = 0 := by rename_i hc1; rw [hc1]; decide
            rw [this]; omega
          · exact Nat.le_refl _)
    rw [List.length_append, List.length_singleton] at f1 f4
    refine ⟨m', ?_, f2, f3, ?_⟩
    · rw [decodeLoop_round _ _ _ _ _ _ _ (by omega), token_lit M m c s h1 h2 (by omega), Option.bind_some]
      dsimp only
      rw [hsrc.head]
      unfold emit
      rw [st_eq (by omega)]
      exact f1
    · intro a ha
      rw [f4 a (by omega), if_neg (by omega)]
  | span c off len ts e h1 h2 hb h ih =>
    rw [total_cons] at hD
    simp only [Tok.count] at hD
    obtain ⟨p, q, g1, g2, g3⟩ := span_bytes off len hb
    rw [g1] at hMs hsep hsrc
    simp only [List.length_cons, List.length_append, List.length_nil] at hMs hsep
    have hlen := encFrom_length h (by omega)
    have hlog := log2_half (show 2 ≤ c by omega)
    have hl : later c (.span off len :: ts) = (ts.length - Nat.log2 (c / 2) + 7) / 8 := by
      unfold later
      rw [if_neg h1, hlog]
      simp only [List.length_cons]
      congr 2
      omega
    rw [hl] at hsep
    have hoff : off ≤ out.length := hv.1.2.2.2.2
    obtain ⟨m1, e1, e2, e3, e4⟩ := copyLoop_eq M d len off m out hout hb.1 hoff (by omega)
    have hsrc2 : At m (s + 2) e := hsrc.tail.tail
    have hap : ∀ k, k < e.length → m1 (s + 2 + k) = m (s + 2 + k) := by
      intro k hk
      apply e4
      rcases hsep with hsep | ⟨k1, k2⟩ <;> omega
    obtain ⟨m', f1, f2, f3, f4⟩ := ih (by omega) (s + 2) m1 (copyBack off len out) e2 (hsrc2.congr hap)
      (by rw [e3]; exact hv.2) (by rw [e3]; omega) (by omega) (by
        rcases hsep with hsep | ⟨k1, k2⟩
        · left; omega
        · right
          refine ⟨?_, by omega⟩
          refine Nat.le_trans ?_ k1
          unfold later
          split
          · have : Nat.log2 (c / 2) = 0 := by rename_i hc1; rw [hc1]; decide
            rw [this]; omega
          · exact Nat.le_refl _)
    rw [e3] at f1 f4
    refine ⟨m', ?_, f2, f3, ?_⟩
    · rw [decodeLoop_round _ _ _ _ _ _ _ (by omega), token_span M m c s h1 h2 (by omega), Option.bind_some]
      dsimp only
      rw [hsrc.head, hsrc.tail.head, emit_span M d m out.length p q off len g3 hoff hb.1 g2 (by omega), e1, Option.bind_some]
      exact f1
    · intro a ha
      rw [f4 a (by omega), e4 a (by omega)]

theorem length_le_total {ts : List Tok} {n : Nat} (hv : Valid n ts) : ts.length ≤ total ts := by
  induction ts generalizing n with
  | nil => simp
  | cons t ts ih =>
    have := ih hv.2
    rw [total_cons, List.length_cons]
    have : 1 ≤ t.count := by
      have := hv.1
      cases t <;> simp [Tok.count, Tok.Ok] at *
      omega
    omega

/-- C140.  Decoding into the memory that holds the stream.  If the destination lies behind the stream, or ends at least one
byte per eight decoded bytes (after the first eight) before the end of the stream, the decoded data is that of separate
memory, nothing outside of the destination changes, and nothing outside of the memory is touched. -/
theorem C140_in_place (ts : List Tok) (e : List U8) (he : Encodes ts e) (hv : Valid 0 ts)
    (h64 : (expand ts []).length < 2 ^ 64) (M d s : Nat) (m : Mem)
    (hsrc : ∀ k, k < e.length → e[k]? = some (m (s + k))) (hMs : s + e.length ≤ M) (hMd : d + (expand ts []).length ≤ M)
    (hsep : s + e.length ≤ d ∨ d + (expand ts []).length + ((expand ts []).length - 1) / 8 ≤ s + e.length) :
    ∃ m', decode M d (expand ts []).length m s = some m' ∧
      (∀ j, j < (expand ts []).length → (expand ts [])[j]? = some (m' (d + j))) ∧
      ∀ a, ¬(d ≤ a ∧ a < d + (expand ts []).length) → m' a = m a := by
  have hlen : (expand ts []).length = total ts := by
    have := CE.Lziii.expand_length ts [] hv
    simpa using this
  have hn := length_le_total hv
  obtain ⟨m', h1, h2, h3, h4⟩ := decodeLoop_eq (CE.Lziii.encodes_encFrom he 0 hv) (by omega) M d (total ts) ((total ts - 1) / 8) s m []
    (fun k hk => by simp at hk) hsrc hv (by simp) (by omega) (by omega) hMs (by
      rcases hsep with hsep | hsep
      · left; exact hsep
      · right
        refine ⟨?_, by omega⟩
        unfold later
        rw [if_pos rfl]
        omega)
  refine ⟨m', ?_, ?_, ?_⟩
  · rw [hlen]; exact h1
  · exact h2
  · rw [hlen]; intro a ha; exact h4 a (by simpa using ha)

/-- C140.  A stream is at most one byte per eight longer than its data, so it fits into a buffer of that size ... -/
theorem C140_fits (ts : List Tok) (e : List U8) (he : Encodes ts e) (hv : Valid 0 ts) :
    e.length ≤ (expand ts []).length + ((expand ts []).length + 7) / 8 := by
  have hlen : (expand ts []).length = total ts := by
    have := CE.Lziii.expand_length ts [] hv
    simpa using this
  have hn := length_le_total hv
  have := encFrom_length (CE.Lziii.encodes_encFrom he 0 hv) (by omega)
  have h1 : Nat.log2 1 = 0 := by decide
  rw [h1] at this
  omega

/-- C140.  ... and can be decoded there, from its end to the beginning. -/
theorem C140_buffer (ts : List Tok) (e : List U8) (he : Encodes ts e) (hv : Valid 0 ts)
    (h64 : (expand ts []).length < 2 ^ 64) (M : Nat) (hM : M = (expand ts []).length + ((expand ts []).length + 7) / 8) (m : Mem)
    (hsrc : ∀ k, k < e.length → e[k]? = some (m (M - e.length + k))) :
    ∃ m', decode M 0 (expand ts []).length m (M - e.length) = some m' ∧
      ∀ j, j < (expand ts []).length → (expand ts [])[j]? = some (m' j) := by
  have hf := C140_fits ts e he hv
  obtain ⟨m', h1, h2, -⟩ := C140_in_place ts e he hv h64 M 0 (M - e.length) m hsrc (by omega) (by omega) (.inr (by omega))
  refine ⟨m', h1, ?_⟩
  simpa using h2

/-- the loop with a number of rounds, for evaluation; `none` if they are not enough -/
def rounds (M d D : Nat) : Nat → Mem → Nat → Nat → Nat → Option (Option Mem)
  | 0, _, _, _, _ => none
  | n + 1, m, i, c, s =>
    if i < D then
      match token M m c s with
      | none => some none
      | some (c, p, q, s) =>
        match emit M d m i p q with
        | none => some none
        | some (m, i) => rounds M d D n m i (c / 2) s
    else some (some m)

theorem rounds_eq (M d D : Nat) : ∀ (n : Nat) (m : Mem) (i c s : Nat) (r : Option Mem),
    rounds M d D n m i c s = some r → decodeLoop M d D m i c s = r := by
  intro n
  induction n with
  | zero => intro m i c s r h; cases h
  | succ n ih =>
    intro m i c s r h
    unfold rounds at h
    split at h
    · rename_i hi
      rw [decodeLoop_round _ _ _ _ _ _ _ hi]
      split at h
      · rename_i ht; injection h with h; rw [ht, ← h]; rfl
      · rename_i ht
        rw [ht, Option.bind_some]
        dsimp only
        split at h
        · rename_i he; injection h with h; rw [he, ← h]; rfl
        · rename_i he; rw [he, Option.bind_some]; exact ih _ _ _ _ _ h
    · rename_i hi
      injection h with h
      rw [decodeLoop_done _ _ _ _ _ _ _ hi, h]

/-- nine literals -/
def nine : List Tok := [.lit 1, .lit 2, .lit 3, .lit 4, .lit 5, .lit 6, .lit 7, .lit 8, .lit 9]

/-- their stream -/
def nineBytes : List U8 := [255, 1, 2, 3, 4, 5, 6, 7, 8, 1, 9]

theorem nine_encodes : Encodes nine nineBytes := by
  refine Encodes.group 255 [.lit 1, .lit 2, .lit 3, .lit 4, .lit 5, .lit 6, .lit 7, .lit 8] [.lit 9] [1, 9] (by simp)
    (.inl rfl) ?_ (Encodes.group 1 [.lit 9] [] [] (by simp) (.inr ⟨by decide, rfl⟩) ?_ .nil)
  · intro i t h
    match i with
    | 0 | 1 | 2 | 3 | 4 | 5 | 6 | 7 => simp at h; subst h; decide
    | i + 8 => simp at h
  · intro i t h
    match i with
    | 0 => simp at h; subst h; decide
    | i + 1 => simp at h

theorem nine_valid : Valid 0 nine := by
  simp [nine, Valid, Tok.Ok]

/-- the stream at address `a` -/
def nineMem (a : Nat) : Mem := fun j => nineBytes.getD (j - a) 0

/-- C140.  One byte less is not enough: with the stream of nine literals ending where the destination ends, every literal but
the first is overwritten before it is read. -/
theorem C140_less_false : Encodes nine nineBytes ∧ Valid 0 nine ∧ (expand nine []).length = 9 ∧
    (∀ k, k < nineBytes.length → nineBytes[k]? = some (nineMem 0 (0 + k))) ∧ 2 + 9 = 0 + nineBytes.length ∧
    ∃ m', decode 11 2 9 (nineMem 0) 0 = some m' ∧ (expand nine [])[1]? = some 2 ∧ m' (2 + 1) = 1 := by
  refine ⟨nine_encodes, nine_valid, by decide, by decide, by decide, ?_⟩
  have h : (rounds 11 2 9 20 (nineMem 0) 0 1 0).map (Option.map fun m => m (2 + 1)) = some (some 1) := by decide +kernel
  cases hr : rounds 11 2 9 20 (nineMem 0) 0 1 0 with
  | none => rw [hr] at h; cases h
  | some r =>
    rw [hr] at h
    cases r with
    | none => cases h
    | some m' =>
      refine ⟨m', rounds_eq 11 2 9 20 _ _ _ _ _ hr, by decide, ?_⟩
      simpa using h

/-- with one byte more it works -/
example : ∃ m', decode 11 1 9 (nineMem 0) 0 = some m' ∧ ∀ j, j < 9 → (expand nine [])[j]? = some (m' (1 + j)) := by
  obtain ⟨m', h1, h2, -⟩ := C140_in_place nine nineBytes nine_encodes nine_valid (by decide) 11 1 0 (nineMem 0) (by decide)
    (by decide) (by decide) (.inr (by decide))
  exact ⟨m', h1, h2⟩

/-- a span that repeats, decoded over the stream itself -/
def rep : List Tok := [.lit 7, .span 1 18]

/-- its stream -/
def repBytes : List U8 := [1, 7, 255, 255]

theorem rep_encodes : Encodes rep repBytes := by
  refine Encodes.group 1 rep [] [] (by simp [rep]) (.inr ⟨by decide, rfl⟩) ?_ .nil
  intro i t h
  match i with
  | 0 | 1 => simp [rep] at h; subst h; decide
  | i + 2 => simp [rep] at h

example : ∃ m', decode 22 0 19 (fun j => repBytes.getD (j - 18) 0) 18 = some m' ∧ ∀ j, j < 19 → m' j = 7 := by
  obtain ⟨m', h1, h2⟩ := C140_buffer rep repBytes rep_encodes (by simp [rep, Valid, Tok.Ok, Tok.count]) (by decide) 22 (by decide)
    (fun j => repBytes.getD (j - 18) 0) (by decide)
  refine ⟨m', h1, fun j hj => ?_⟩
  have := h2 j hj
  have h7 : ∀ j, j < 19 → (expand rep [])[j]? = some 7 := by decide
  rw [h7 j hj] at this
  injection this with this
  exact this.symm

end CE.LziiiMem
