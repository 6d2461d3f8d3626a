import Verif.Props.LziiiMem
/-!
# C146: how small and how large lziii streams are, and what may follow them
-/
namespace CE.LziiiLimits
open CE.Lziii

theorem encode_length (k : Nat) : ∀ ts : List Tok, ts.length ≤ k →
    (encode ts).length = (ts.flatMap Tok.payload).length + (ts.length + 7) / 8 := by
  induction k with
  | zero =>
    intro ts h
    have : ts = [] := by simpa using h
    subst this
    rw [encode]; simp
  | succ k ih =>
    intro ts h
    by_cases hn : ts = []
    · subst hn; rw [encode]; simp
    · have hl : ts.length ≠ 0 := by simpa using hn
      rw [encode, dif_neg hn, List.length_cons, List.length_append, ih _ (by rw [List.length_drop]; omega)]
      have e : (ts.flatMap Tok.payload).length = ((ts.take 8).flatMap Tok.payload).length + ((ts.drop 8).flatMap Tok.payload).length := by
        rw [← List.length_append, ← List.flatMap_append, List.take_append_drop]
      rw [e, List.length_drop]
      omega

theorem lits_valid (data : List U8) (n : Nat) : Valid n (data.map Tok.lit) := by
  induction data generalizing n with
  | nil => trivial
  | cons x data ih => exact ⟨trivial, ih _⟩

theorem lits_expand (data out : List U8) : expand (data.map Tok.lit) out = out ++ data := by
  induction data generalizing out with
  | nil => simp [expand]
  | cons x data ih => rw [List.map_cons, expand, ih, List.append_assoc]; rfl

theorem lits_payload (data : List U8) : (data.map Tok.lit).flatMap Tok.payload = data := by
  induction data with
  | nil => rfl
  | cons x data ih => rw [List.map_cons, List.flatMap_cons, ih]; rfl

/-- **Every data has a stream**: there is one of `n + (n + 7) / 8` bytes for any `n` bytes, which `size` measures and `decode`
turns back. -/
theorem C146_every (data : List U8) (h : data.length < 2 ^ 64) : ∃ e : List U8, e.length = data.length + (data.length + 7) / 8 ∧
    size e = some data.length ∧ ∃ dst, decode data.length e = some dst ∧ ∀ j, dst j = data[j]? := by
  have hx : expand (data.map Tok.lit) [] = data := by rw [lits_expand]; rfl
  have := C35_decode_expands _ _ (C35_encodable (data.map Tok.lit)) (lits_valid data 0) (by rw [hx]; exact h)
  rw [hx] at this
  refine ⟨encode (data.map Tok.lit), ?_, this⟩
  rw [encode_length _ _ (Nat.le_refl _), lits_payload, List.length_map]

/-- decoded bytes are paid for by the bytes of the stream and by the control bits at hand -/
theorem sizeLoop_ratio : ∀ (k : Nat) (src : List U8), src.length ≤ k → ∀ (c m N : Nat), 1 ≤ c →
    sizeLoop c m src = some N → 17 * N ≤ 17 * m + 144 * src.length + 18 * Nat.log2 c := by
  intro k
  induction k with
  | zero =>
    intro src hk c m N _ hs
    have : src = [] := by simpa using hk
    subst this
    rw [sizeLoop_nil] at hs
    cases hs
    omega
  | succ k ih =>
    intro src hk c m N hc hs
    by_cases hn : src = []
    · subst hn
      rw [sizeLoop_nil] at hs
      cases hs
      omega
    · rw [sizeLoop_round _ _ _ hn] at hs
      -- what the control byte gives
      have hf : ∃ c1 rest, fetch c src = some (c1, rest) ∧ 2 ≤ c1 ∧ rest.length ≤ k + 1 ∧
          144 * rest.length + 18 * Nat.log2 c1 ≤ 144 * src.length + 18 * Nat.log2 c ∧
          (rest.drop 1).length ≤ k := by
        by_cases h1 : c = 1
        · subst h1
          obtain ⟨x, rest, rfl⟩ := List.exists_cons_of_ne_nil hn
          refine ⟨_, rest, fetch_one x rest, ?_, ?_, ?_, ?_⟩
          · rw [or256 _ x.isLt]; omega
          · simp only [List.length_cons] at hk; omega
          · rw [CE.LziiiMem.log2_ctl, List.length_cons]
            have : Nat.log2 1 = 0 := by decide
            omega
          · simp only [List.length_cons] at hk
            rw [List.length_drop]; omega
        · refine ⟨c, src, fetch_ne _ _ h1, by omega, hk, Nat.le_refl _, ?_⟩
          rw [List.length_drop]; omega
      obtain ⟨c1, rest, e1, e2, e3, e4, e5⟩ := hf
      rw [e1, Option.bind_some] at hs
      dsimp only at hs
      have hlog := CE.LziiiMem.log2_half e2
      have w : ∀ a, w64 a ≤ a := fun a => Nat.mod_le _ _
      split at hs
      · cases hd : rest.drop 1 with
        | nil => rw [hd] at hs; cases hs
        | cons q rest' =>
          rw [hd] at hs
          dsimp only at hs
          have hl : rest'.length + 2 = rest.length := by
            have := congrArg List.length hd
            rw [List.length_drop, List.length_cons] at this
            omega
          have := ih rest' (by omega) (c1 / 2) _ N (by omega) hs
          have w1 := w (w64 (m + 1) + (2 + q.toNat / 16))
          have w2 := w (m + 1)
          have hq := q.isLt
          omega
      · have := ih (rest.drop 1) e5 (c1 / 2) _ N (by omega) hs
        have w2 := w (m + 1)
        rw [List.length_drop] at this
        omega

/-- **No stream expands more than 144 : 17.**  Whatever the bytes, well formed or not, the size asked for is at most 144/17
times the size given: memory for it can be provided before a byte is looked at. -/
theorem C146_expansion (src : List U8) (n : Nat) (h : size src = some n) : 17 * n ≤ 144 * src.length := by
  have := sizeLoop_ratio _ src (Nat.le_refl _) 1 0 n (Nat.le_refl _) h
  have h1 : Nat.log2 1 = 0 := by decide
  omega

theorem reps_valid (k n : Nat) (h : 1 ≤ n) : Valid n (List.replicate k (Tok.span 1 18)) := by
  induction k generalizing n with
  | zero => trivial
  | succ k ih =>
    rw [List.replicate_succ]
    exact ⟨⟨by omega, by omega, by omega, by omega, h⟩, ih _ (by simp only [Tok.count]; omega)⟩

theorem reps_payload (k : Nat) : ((List.replicate k (Tok.span 1 18)).flatMap Tok.payload).length = 2 * k := by
  induction k with
  | zero => rfl
  | succ k ih =>
    rw [List.replicate_succ, List.flatMap_cons, List.length_append, ih]
    simp only [Tok.payload, List.length_cons, List.length_nil]; omega

theorem copyBack_reps (x : U8) (len : Nat) : ∀ n, 1 ≤ n →
    copyBack 1 len (List.replicate n x) = List.replicate (n + len) x := by
  induction len with
  | zero => intro n _; rfl
  | succ len ih =>
    intro n hn
    have hx : (List.replicate n x).getD ((List.replicate n x).length - 1) 0 = x := by
      rw [List.length_replicate, List.getD_eq_getElem?_getD, List.getElem?_replicate, if_pos (by omega)]; rfl
    rw [copyBack, hx, ← List.replicate_succ', ih _ (by omega), Nat.add_right_comm]; rfl

theorem reps_expand (x : U8) (k : Nat) : ∀ n, 1 ≤ n →
    expand (List.replicate k (Tok.span 1 18)) (List.replicate n x) = List.replicate (n + 18 * k) x := by
  induction k with
  | zero => intro n _; rfl
  | succ k ih =>
    intro n hn
    rw [List.replicate_succ, expand, copyBack_reps _ _ _ hn, ih _ (by omega)]
    congr 1; omega

/-- The ratio is reached but for a constant: `127 + 144 k` equal bytes have a stream of `16 + 17 k`. -/
theorem C146_sharp (x : U8) (k : Nat) (h : 127 + 144 * k < 2 ^ 64) : ∃ e : List U8, e.length = 16 + 17 * k ∧
    size e = some (127 + 144 * k) ∧ ∃ dst, decode (127 + 144 * k) e = some dst ∧ ∀ j, j < 127 + 144 * k → dst j = some x := by
  have hv : Valid 0 (Tok.lit x :: List.replicate (7 + 8 * k) (Tok.span 1 18)) :=
    ⟨trivial, reps_valid _ _ (by simp [Tok.count])⟩
  have hx : expand (Tok.lit x :: List.replicate (7 + 8 * k) (Tok.span 1 18)) [] = List.replicate (127 + 144 * k) x := by
    have := reps_expand x (7 + 8 * k) 1 (Nat.le_refl _)
    rw [show 1 + 18 * (7 + 8 * k) = 127 + 144 * k by omega] at this
    exact this
  have := C35_decode_expands _ _ (C35_encodable _) hv (by rw [hx, List.length_replicate]; exact h)
  rw [hx, List.length_replicate] at this
  obtain ⟨h1, dst, h2, h3⟩ := this
  refine ⟨_, ?_, h1, dst, h2, fun j hj => ?_⟩
  · rw [encode_length _ _ (Nat.le_refl _), List.flatMap_cons, List.length_append, reps_payload, List.length_cons,
      List.length_replicate]
    simp only [Tok.payload, List.length_cons, List.length_nil]; omega
  · rw [h3 j, List.getElem?_replicate, if_pos hj]

/-! ### stopping early, and bytes behind the stream -/

theorem token_append {c : Nat} {src : List U8} {r : Nat × U8 × Option U8 × List U8} (h : token c src = some r) (junk : List U8) :
    token c (src ++ junk) = some (r.1, r.2.1, r.2.2.1, r.2.2.2 ++ junk) := by
  have key : ∀ (c' : Nat) (l : List U8) (r : Nat × U8 × Option U8 × List U8), c' ≠ 1 → token c' l = some r →
      token c' (l ++ junk) = some (r.1, r.2.1, r.2.2.1, r.2.2.2 ++ junk) := by
    intro c' l r hc h
    unfold token at h ⊢
    rw [fetch_ne _ _ hc] at h ⊢
    cases l with
    | nil => cases h
    | cons p l =>
      dsimp only [List.cons_append] at h ⊢
      split at h
      · next h2 =>
        rw [if_pos h2]
        cases l with
        | nil => cases h
        | cons q l =>
          dsimp only [List.cons_append] at h ⊢
          cases h; rfl
      · next h2 =>
        rw [if_neg h2]
        cases h; rfl
  by_cases hc : c = 1
  · subst hc
    cases src with
    | nil => rw [token_nil] at h; cases h
    | cons x src =>
      rw [token_fetch] at h
      rw [List.cons_append, token_fetch]
      exact key _ _ _ (ctl_ne_one x) h
  · exact key _ _ _ hc h

theorem decodeLoop_append (D : Nat) (junk : List U8) : ∀ (k : Nat) (src : List U8), src.length ≤ k → ∀ (dst : Cells) (i c : Nat) (d : Cells),
    decodeLoop D dst i c src = some d → decodeLoop D dst i c (src ++ junk) = some d := by
  intro k
  induction k with
  | zero =>
    intro src hk dst i c d h
    have : src = [] := by simpa using hk
    subst this
    by_cases hi : i < D
    · rw [decodeLoop_round _ _ _ _ _ hi, token_nil] at h; cases h
    · rw [decodeLoop_done _ _ _ _ _ hi] at h ⊢; exact h
  | succ k ih =>
    intro src hk dst i c d h
    by_cases hi : i < D
    · rw [decodeLoop_round _ _ _ _ _ hi] at h ⊢
      cases ht : token c src with
      | none => rw [ht] at h; cases h
      | some r =>
        rw [ht, Option.bind_some] at h
        rw [token_append ht, Option.bind_some]
        dsimp only at h ⊢
        cases he : emit D dst i r.2.1 r.2.2.1 with
        | none => rw [he] at h; cases h
        | some s =>
          rw [he, Option.bind_some] at h
          rw [Option.bind_some]
          obtain ⟨r1, r2, r3, r4⟩ := r
          have := token_length ht
          exact ih _ (by dsimp only; omega) _ _ _ _ h
    · rw [decodeLoop_done _ _ _ _ _ hi] at h ⊢; exact h

/-- Bytes behind the stream do not matter: where `decode` succeeds it gives the same with anything appended. -/
theorem C146_behind (D : Nat) (src junk : List U8) (d : Cells) (h : decode D src = some d) :
    decode D (src ++ junk) = some d :=
  decodeLoop_append D junk _ src (Nat.le_refl _) _ _ _ _ h

theorem count_pos {n : Nat} {t : Tok} (h : t.Ok n) : 0 < t.count := by
  cases t <;> simp [Tok.count, Tok.Ok] at *
  omega

theorem decodeLoop_stop {c : Nat} {ts : List Tok} {e : List U8} (h : EncFrom c ts e) : ∀ (ts1 ts2 : List Tok), ts = ts1 ++ ts2 →
    ∀ (D : Nat) (dst : Cells) (out : List U8), Holds dst out → Valid out.length ts1 →
    out.length + total ts1 = D → D < 2 ^ 64 →
    ∃ d, decodeLoop D dst out.length c e = some d ∧ Holds d (expand ts1 out) := by
  induction h with
  | nil c =>
    intro ts1 ts2 hs D dst out hd hv hD hD64
    have : ts1 = [] := (List.append_eq_nil_iff.1 hs.symm).1
    subst this
    simp [total] at hD
    exact ⟨dst, decodeLoop_done _ _ _ _ _ (by omega), hd⟩
  | fetch ctl t ts e h ih =>
    intro ts1 ts2 hs D dst out hd hv hD hD64
    cases ts1 with
    | nil =>
      simp [total] at hD
      exact ⟨dst, decodeLoop_done _ _ _ _ _ (by omega), hd⟩
    | cons t1 ts1 =>
      obtain ⟨d, h1, h2⟩ := ih (t1 :: ts1) ts2 hs D dst out hd hv hD hD64
      refine ⟨d, ?_, h2⟩
      have hlt : out.length < D := by
        rw [total_cons] at hD
        have := count_pos hv.1
        omega
      rw [decodeLoop_round _ _ _ _ _ hlt] at h1 ⊢
      rw [token_fetch]; exact h1
  | lit c x ts e h1 h2 h ih =>
    intro ts1 ts2 hs D dst out hd hv hD hD64
    cases ts1 with
    | nil =>
      simp [total] at hD
      exact ⟨dst, decodeLoop_done _ _ _ _ _ (by omega), hd⟩
    | cons t1 ts1 =>
      rw [List.cons_append, List.cons.injEq] at hs
      obtain ⟨rfl, hs⟩ := hs
      rw [total_cons] at hD
      simp only [Tok.count] at hD
      obtain ⟨d, e1, e2⟩ := holds_push D dst out x hd (by omega)
      obtain ⟨d', f1, f2⟩ := ih ts1 ts2 hs D d (out ++ [x]) e2 (by rw [List.length_append]; exact hv.2) (by simp; omega) hD64
      refine ⟨d', ?_, f2⟩
      have ht : token c (x :: e) = some (c, x, none, e) := by
        unfold token; rw [fetch_ne _ _ h1]; simp [h2]
      rw [decodeLoop_round _ _ _ _ _ (by omega), ht]
      rw [List.length_append, List.length_singleton] at f1
      rw [Option.bind_some]
      dsimp only
      rw [emit_lit, e1, Option.bind_some, Option.bind_some]
      exact f1
  | span c off len ts e h1 h2 hb h ih =>
    intro ts1 ts2 hs D dst out hd hv hD hD64
    cases ts1 with
    | nil =>
      simp [total] at hD
      exact ⟨dst, decodeLoop_done _ _ _ _ _ (by omega), hd⟩
    | cons t1 ts1 =>
      rw [List.cons_append, List.cons.injEq] at hs
      obtain ⟨rfl, hs⟩ := hs
      rw [total_cons] at hD
      simp only [Tok.count] at hD
      obtain ⟨p, q, g1, g2, g3⟩ := span_bytes off len hb
      have hok := hv.1
      have hoff : off ≤ out.length := hok.2.2.2.2
      obtain ⟨d, e1, e2, e3⟩ := copyLoop_eq D len off dst out hd hb.1 hoff (by omega)
      obtain ⟨d', f1, f2⟩ := ih ts1 ts2 hs D d _ e2 (by rw [e3]; exact hv.2) (by rw [e3]; omega) hD64
      refine ⟨d', ?_, f2⟩
      have ht : token c (p :: q :: e) = some (c, p, some q, e) := by
        unfold token; rw [fetch_ne _ _ h1]; simp [h2]
      rw [g1, List.cons_append, List.cons_append, List.nil_append,
        decodeLoop_round _ _ _ _ _ (by omega), ht]
      rw [e3] at f1
      rw [Option.bind_some]
      dsimp only
      rw [emit_span D dst out.length p q off len g3 hoff hb.1 g2 (by omega), e1, Option.bind_some]
      exact f1

/-- **Decoding the beginning.**  A destination that ends where a token ends receives exactly the beginning of the data, and
the rest of the stream is not needed. -/
theorem C146_beginning (ts1 ts2 : List Tok) (e : List U8) (he : Encodes (ts1 ++ ts2) e) (hv : Valid 0 (ts1 ++ ts2))
    (h64 : (expand ts1 []).length < 2 ^ 64) :
    (∃ dst, decode (expand ts1 []).length e = some dst ∧ ∀ j, dst j = (expand ts1 [])[j]?) ∧
    expand ts1 [] <+: expand (ts1 ++ ts2) [] := by
  have hv1 := (valid_append 0 ts1 ts2 hv).1
  have hlen : (expand ts1 []).length = total ts1 := by
    have := expand_length ts1 [] hv1; simpa using this
  constructor
  · obtain ⟨d, h1, h2⟩ := decodeLoop_stop (encodes_encFrom he 0 hv) ts1 ts2 rfl (total ts1) (fun _ => none) [] (fun j => by simp) hv1
      (by simp) (by rw [← hlen]; exact h64)
    rw [hlen]
    exact ⟨d, h1, h2⟩
  · have cb : ∀ off len (out : List U8), out <+: copyBack off len out := by
      intro off len
      induction len with
      | zero => intro out; exact List.prefix_rfl
      | succ len ih => intro out; exact (List.prefix_append _ _).trans (ih _)
    have ex : ∀ (ts : List Tok) (out : List U8), out <+: expand ts out := by
      intro ts
      induction ts with
      | nil => intro out; exact List.prefix_rfl
      | cons t ts ih =>
        intro out
        cases t with
        | lit x => exact (List.prefix_append _ _).trans (ih _)
        | span off len => exact (cb off len out).trans (ih _)
    have ap : ∀ (ts : List Tok) (out : List U8), expand (ts ++ ts2) out = expand ts2 (expand ts out) := by
      intro ts
      induction ts with
      | nil => intro out; rfl
      | cons t ts ih => intro out; cases t <;> exact ih _
    rw [ap]
    exact ex _ _

/-- A destination that ends within a span is overrun. -/
theorem C146_within_false : ∃ e : List U8, size e = some 4 ∧ decode 2 e = none := by
  refine ⟨[1, 7, 255, 15], ?_, ?_⟩
  · unfold size
    rw [sizeLoop_round _ _ _ (by simp), fetch_one, Option.bind_some]
    dsimp only
    rw [if_neg (by decide), sizeLoop_round _ _ _ (by simp), fetch_ne _ _ (by decide), Option.bind_some]
    dsimp only
    rw [if_pos (by decide)]
    exact sizeLoop_nil _ _
  · unfold decode
    rw [decodeLoop_round _ _ _ _ _ (by omega)]
    have : token 1 [1, 7, 255, 15] = some (257, 7, none, [255, 15]) := rfl
    rw [this, Option.bind_some]
    dsimp only
    rw [emit_lit]
    simp only [wr, Option.bind_some, if_true, Nat.zero_lt_succ]
    rw [decodeLoop_round _ _ _ _ _ (by omega)]
    have : token (257 / 2) [255, 15] = some (128, 255, some 15, []) := rfl
    rw [this, Option.bind_some]
    dsimp only
    rw [emit_span 2 _ (0 + 1) 255 15 1 3 (by decide) (by decide) (by decide) (by decide) (by decide)]
    rfl

/-- the hypotheses are met: a literal, then a copy -/
example : Encodes ([Tok.lit 7] ++ [Tok.span 1 18]) (encode [Tok.lit 7, Tok.span 1 18]) ∧ Valid 0 ([Tok.lit 7] ++ [Tok.span 1 18]) :=
  ⟨C35_encodable _, trivial, ⟨by omega, by omega, by omega, by omega, by simp [Tok.count]⟩, trivial⟩

end CE.LziiiLimits
