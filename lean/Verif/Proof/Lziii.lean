import Verif.Model.Lziii
import Verif.Spec.Lziii
namespace CE.Lziii

/-- encodings seen from inside a group, `c` being the remaining control bits below a marker bit -/
inductive EncFrom : Nat → List Tok → List U8 → Prop where
  | nil (c) : EncFrom c [] []
  | fetch (ctl : U8) (t ts e) (h : EncFrom (ctl.toNat ||| 0x100) (t :: ts) e) :
      EncFrom 1 (t :: ts) (ctl :: e)
  | lit (c x ts e) (h1 : c ≠ 1) (h2 : c % 2 = 1) (h : EncFrom (c / 2) ts e) :
      EncFrom c (.lit x :: ts) (x :: e)
  | span (c off len ts e) (h1 : c ≠ 1) (h2 : c % 2 = 0)
      (hb : 1 ≤ off ∧ off ≤ 4096 ∧ 3 ≤ len ∧ len ≤ 18) (h : EncFrom (c / 2) ts e) :
      EncFrom c (.span off len :: ts) (Tok.payload (.span off len) ++ e)

def total (ts : List Tok) : Nat := (ts.map Tok.count).sum

theorem or256 (x : Nat) (h : x < 256) : x ||| 0x100 = x + 256 := by
  have := Nat.two_pow_add_eq_or_of_lt (i := 8) (b := x) (by simpa using h) 1
  rw [Nat.or_comm]
  simp only [Nat.mul_one] at this
  rw [show (0x100 : Nat) = 2 ^ 8 by decide, ← this]; omega

theorem ctl_bit (ctl : U8) (j : Nat) (hj : j < 8) :
    (ctl.toNat ||| 0x100) / 2 ^ j % 2 = (ctl.getLsbD j).toNat := by
  have h1 : (ctl.toNat ||| 0x100).testBit j = ctl.getLsbD j := by
    rw [Nat.testBit_or, show (0x100 : Nat) = 2 ^ 8 by decide, Nat.testBit_two_pow]
    simp [BitVec.getLsbD]; omega
  rw [← h1, Nat.toNat_testBit]

theorem ctl_ne (ctl : U8) (j : Nat) (hj : j < 8) : (ctl.toNat ||| 0x100) / 2 ^ j ≠ 1 := by
  rw [or256 _ ctl.isLt]
  intro h
  have h1 : 2 ^ j ≤ 128 := by
    have : 2 ^ j ≤ 2 ^ 7 := Nat.pow_le_pow_right (by omega) (by omega)
    simpa using this
  have h2 := Nat.lt_mul_div_succ (ctl.toNat + 256) (show 0 < 2 ^ j from Nat.two_pow_pos j)
  rw [h] at h2
  omega

theorem ctl_one (ctl : U8) : (ctl.toNat ||| 0x100) / 2 ^ 8 = 1 := by
  have := ctl.isLt
  rw [or256 _ this]
  omega

theorem valid_append (n : Nat) (a b : List Tok) (h : Valid n (a ++ b)) :
    Valid n a ∧ Valid (n + total a) b := by
  induction a generalizing n with
  | nil => simpa [Valid, total] using h
  | cons t a ih =>
    obtain ⟨h1, h2⟩ := h
    obtain ⟨h3, h4⟩ := ih _ h2
    refine ⟨⟨h1, h3⟩, ?_⟩
    simp only [total, List.map_cons, List.sum_cons] at h4 ⊢
    rw [← Nat.add_assoc]; exact h4

theorem encodes_encFrom {ts : List Tok} {e : List U8} (h : Encodes ts e) (n : Nat) (hv : Valid n ts) :
    EncFrom 1 ts e := by
  induction h generalizing n with
  | nil => exact .nil _
  | group ctl g rest e hg hlen hbits h ih =>
    have hr := ih _ (valid_append n g rest hv).2
    have key : ∀ (g' : List Tok) (j m : Nat), j + g'.length = g.length → Valid m g' →
        (∀ (i : Nat) (t : Tok), g'[i]? = some t → ctl.getLsbD (j + i) = t.isLit) →
        EncFrom ((ctl.toNat ||| 0x100) / 2 ^ j) (g' ++ rest) (g'.flatMap Tok.payload ++ e) := by
      intro g'
      induction g' with
      | nil =>
        intro j m hj _ _
        rcases hlen with hl | ⟨hl, rfl⟩
        · have : j = 8 := by simp at hj; omega
          subst this
          rw [ctl_one]; exact hr
        · cases hr; exact .nil _
      | cons t g' ihg =>
        intro j m hj hvm hb
        have hj8 : j < 8 := by simp at hj; omega
        have hstep := ihg (j + 1) _ (by simp at hj; omega) hvm.2 (fun i t' hi => by
          rw [Nat.add_assoc, Nat.add_comm 1 i]; exact hb (i + 1) t' (by simpa using hi))
        have hbit := hb 0 t (by simp)
        have hc := ctl_bit ctl j hj8
        rw [Nat.add_zero] at hbit
        rw [hbit] at hc
        rw [Nat.pow_succ, ← Nat.div_div_eq_div_mul] at hstep
        have ht := hvm.1
        cases t with
        | lit x => exact .lit _ x _ _ (ctl_ne ctl j hj8) (by simpa [Tok.isLit] using hc) hstep
        | span off len =>
          rw [List.flatMap_cons, List.append_assoc]
          exact .span _ off len _ _ (ctl_ne ctl j hj8) (by simpa [Tok.isLit] using hc)
            ⟨ht.1, ht.2.1, ht.2.2.1, ht.2.2.2.1⟩ hstep
    have := key g 0 n (by simp) (valid_append n g rest hv).1 (fun i t h => by simpa using hbits i t h)
    rw [Nat.pow_zero, Nat.div_one] at this
    cases g with
    | nil => exact absurd rfl hg
    | cons t g => exact .fetch ctl t _ _ this

theorem fetch_one (x : U8) (src : List U8) : fetch 1 (x :: src) = some (x.toNat ||| 0x100, src) := rfl
theorem fetch_ne (c : Nat) (src : List U8) (h : c ≠ 1) : fetch c src = some (c, src) := by
  simp [fetch, h]
theorem ctl_ne_one (ctl : U8) : ctl.toNat ||| 0x100 ≠ 1 := by
  rw [or256 _ ctl.isLt]; omega

theorem w64_eq (n : Nat) (h : n < 2 ^ 64) : w64 n = n := Nat.mod_eq_of_lt h

/-- the two bytes of a span -/
theorem span_bytes (off len : Nat) (hb : 1 ≤ off ∧ off ≤ 4096 ∧ 3 ≤ len ∧ len ≤ 18) :
    ∃ p q : U8, Tok.payload (.span off len) = [p, q] ∧ q.toNat / 16 + 3 = len ∧
      q.toNat % 16 * 256 + p.toNat + off = 4096 := by
  refine ⟨_, _, rfl, ?_, ?_⟩
  · rw [BitVec.toNat_ofNat]; omega
  · rw [BitVec.toNat_ofNat, BitVec.toNat_ofNat]; omega

/-- one round of `size` -/
theorem sizeLoop_round (c n : Nat) (src : List U8) (h : src ≠ []) :
    sizeLoop c n src = (fetch c src).bind fun r =>
      if r.1 % 2 = 0 then
        match r.2.drop 1 with
        | [] => none
        | q :: rest => sizeLoop (r.1 / 2) (w64 (w64 (n + 1) + (2 + q.toNat / 16))) rest
      else sizeLoop (r.1 / 2) (w64 (n + 1)) (r.2.drop 1) := by
  rw [sizeLoop, dif_neg h]
  split
  · rename_i hf; rw [hf]; rfl
  · rename_i c' rest hf
    rw [hf]
    simp only [Option.bind_some]
    split
    · split
      · rename_i h2; rw [h2]
      · rename_i h2; rw [h2]
    · rfl

theorem sizeLoop_nil (c n : Nat) : sizeLoop c n [] = some n := by rw [sizeLoop, dif_pos rfl]

theorem encFrom_ne_nil {c : Nat} {t : Tok} {ts : List Tok} {e : List U8} (h : EncFrom c (t :: ts) e) :
    e ≠ [] := by
  generalize hts : t :: ts = l at h
  cases h with
  | nil => cases hts
  | fetch => simp
  | lit => simp
  | span => simp [Tok.payload]

theorem sizeLoop_eq {c : Nat} {ts : List Tok} {e : List U8} (h : EncFrom c ts e) (n : Nat)
    (hn : n + total ts < 2 ^ 64) : sizeLoop c n e = some (n + total ts) := by
  induction h generalizing n with
  | nil c => rw [sizeLoop_nil]; rfl
  | fetch ctl t ts e h ih =>
    have := ih n hn
    have he : e ≠ [] := by
      intro he
      subst he
      exact encFrom_ne_nil h rfl
    rw [sizeLoop_round _ _ _ he, fetch_ne _ _ (ctl_ne_one ctl)] at this
    rw [sizeLoop_round _ _ _ (by simp), fetch_one]
    exact this
  | lit c x ts e h1 h2 h ih =>
    have ht : total (.lit x :: ts) = 1 + total ts := by simp [total, Tok.count]
    rw [ht] at hn ⊢
    rw [sizeLoop_round _ _ _ (by simp), fetch_ne _ _ h1]
    simp only [Option.bind_some]
    rw [if_neg (by omega), w64_eq _ (by omega), List.drop_succ_cons, List.drop_zero, ih _ (by omega),
      Nat.add_assoc]
  | span c off len ts e h1 h2 hb h ih =>
    have ht : total (.span off len :: ts) = len + total ts := by simp [total, Tok.count]
    rw [ht] at hn ⊢
    obtain ⟨p, q, e1, e2, e3⟩ := span_bytes off len hb
    rw [e1, sizeLoop_round _ _ _ (by simp), fetch_ne _ _ h1]
    simp only [Option.bind_some, List.cons_append, List.nil_append, List.drop_succ_cons, List.drop_zero]
    rw [if_pos h2, w64_eq (n + 1) (by omega), w64_eq _ (by omega), ih _ (by omega)]
    congr 1; omega

theorem copyLoop_index (D k : Nat) (dst dst' : Cells) (i b i' : Nat)
    (h : copyLoop D k dst i b = some (dst', i')) : i' = i + k := by
  induction k generalizing dst i b with
  | zero => simp [copyLoop] at h; omega
  | succ k ih =>
    unfold copyLoop at h
    cases hr : rd D dst b with
    | none => simp [hr] at h
    | some x =>
      cases hw : wr D dst i x with
      | none => simp [hr, hw] at h
      | some d => simp [hr, hw] at h; have := ih d _ _ h; omega

/-- destination holds `out` and nothing else was written -/
def Holds (dst : Cells) (out : List U8) : Prop := ∀ j, dst j = out[j]?

theorem holds_push (D : Nat) (dst : Cells) (out : List U8) (x : U8) (h : Holds dst out)
    (hD : out.length < D) : ∃ d, wr D dst out.length x = some d ∧ Holds d (out ++ [x]) := by
  refine ⟨_, if_pos hD, fun j => ?_⟩
  show (if j = out.length then some x else dst j) = _
  split
  · rename_i hj; subst hj; simp
  · rename_i hj
    rw [h j]
    by_cases hlt : j < out.length
    · rw [List.getElem?_append_left hlt]
    · rw [List.getElem?_eq_none (by omega), List.getElem?_eq_none (by simp; omega)]

theorem copyLoop_eq (D k off : Nat) (dst : Cells) (out : List U8) (h : Holds dst out) (h1 : 1 ≤ off)
    (h2 : off ≤ out.length) (hD : out.length + k ≤ D) :
    ∃ d, copyLoop D k dst out.length (out.length - off) = some (d, out.length + k) ∧
      Holds d (copyBack off k out) ∧ (copyBack off k out).length = out.length + k := by
  induction k generalizing dst out with
  | zero => exact ⟨dst, rfl, h, rfl⟩
  | succ k ih =>
    have hr : rd D dst (out.length - off) = some (out.getD (out.length - off) 0) := by
      unfold rd
      rw [if_pos (by omega), h]
      rw [List.getD_eq_getElem?_getD, List.getElem?_eq_getElem (by omega)]; rfl
    obtain ⟨d, e1, e2⟩ := holds_push D dst out (out.getD (out.length - off) 0) h (by omega)
    obtain ⟨d', f1, f2, f3⟩ := ih d _ e2 (by simp; omega) (by simp; omega)
    refine ⟨d', ?_, f2, ?_⟩
    · unfold copyLoop
      rw [hr]
      simp only [Option.bind_eq_bind, Option.bind_some]
      rw [e1]
      simp only [Option.bind_some]
      rw [List.length_append, List.length_singleton,
        show out.length + 1 - off = out.length - off + 1 by omega] at f1
      rw [f1]; congr 2; omega
    · rw [copyBack, f3]; simp; omega

theorem token_fetch (x : U8) (src : List U8) :
    token 1 (x :: src) = token (x.toNat ||| 0x100) src := by
  unfold token
  rw [fetch_one, fetch_ne _ _ (ctl_ne_one x)]

theorem decodeLoop_round (D : Nat) (dst : Cells) (i c : Nat) (src : List U8) (h : i < D) :
    decodeLoop D dst i c src = (token c src).bind fun r =>
      (emit D dst i r.2.1 r.2.2.1).bind fun s => decodeLoop D s.1 s.2 (r.1 / 2) r.2.2.2 := by
  rw [decodeLoop, if_pos h]
  split
  · rename_i ht; rw [ht]; rfl
  · rename_i ht
    rw [ht]
    simp only [Option.bind_some]
    split
    · rename_i he; rw [he]; rfl
    · rename_i he; rw [he]; rfl

theorem decodeLoop_done (D : Nat) (dst : Cells) (i c : Nat) (src : List U8) (h : ¬ i < D) :
    decodeLoop D dst i c src = some dst := by rw [decodeLoop, if_neg h]

theorem spanBegin_eq (i : Nat) (p q : U8) (off : Nat) (hi : i < 2 ^ 64)
    (h : q.toNat % 16 * 256 + p.toNat + off = 4096) (h1 : off ≤ i) (h2 : 1 ≤ off) :
    spanBegin i p q = i - off := by
  unfold spanBegin w64
  rw [show i + q.toNat % 16 * 256 + p.toNat + (2 ^ 64 - 4096) = (i - off) + 2 ^ 64 by omega,
    Nat.add_mod_right, Nat.mod_eq_of_lt (by omega)]

theorem spanBegin_wrap (i : Nat) (p q : U8) (off : Nat)
    (h : q.toNat % 16 * 256 + p.toNat + off = 4096) (h1 : i < off) :
    spanBegin i p q = i + 2 ^ 64 - off := by
  unfold spanBegin w64
  rw [show i + q.toNat % 16 * 256 + p.toNat + (2 ^ 64 - 4096) = i + 2 ^ 64 - off by omega,
    Nat.mod_eq_of_lt (by omega)]

theorem emit_span (D : Nat) (dst : Cells) (i : Nat) (p q : U8) (off len : Nat)
    (h : q.toNat % 16 * 256 + p.toNat + off = 4096) (h1 : off ≤ i) (h2 : 1 ≤ off)
    (hl : q.toNat / 16 + 3 = len) (hi : i + len < 2 ^ 64) :
    emit D dst i p (some q) = copyLoop D len dst i (i - off) := by
  have hend : spanEnd (i - off) q = i - off + len := by
    unfold spanEnd; rw [w64_eq _ (by omega)]; omega
  unfold emit
  dsimp only
  rw [spanBegin_eq i p q off (by omega) h h1 h2, hend, Nat.add_sub_cancel_left]

theorem emit_lit (D : Nat) (dst : Cells) (i : Nat) (p : U8) :
    emit D dst i p none = (wr D dst i p).bind fun d => some (d, i + 1) := rfl

theorem total_cons (t : Tok) (ts : List Tok) : total (t :: ts) = t.count + total ts := by
  simp [total]

theorem decodeLoop_eq {c : Nat} {ts : List Tok} {e : List U8} (h : EncFrom c ts e) (D : Nat)
    (dst : Cells) (out : List U8) (hd : Holds dst out) (hv : Valid out.length ts)
    (hD : out.length + total ts = D) (hD64 : D < 2 ^ 64) :
    ∃ d, decodeLoop D dst out.length c e = some d ∧ Holds d (expand ts out) ∧
      (expand ts out).length = D := by
  induction h generalizing dst out with
  | nil c =>
    simp [total] at hD
    exact ⟨dst, decodeLoop_done _ _ _ _ _ (by omega), hd, by simpa [expand] using hD⟩
  | fetch ctl t ts e h ih =>
    obtain ⟨d, h1, h2⟩ := ih dst out hd hv hD
    refine ⟨d, ?_, h2⟩
    have hlt : out.length < D := by
      rw [total_cons] at hD
      have : 0 < t.count := by
        have := hv.1
        cases t <;> simp [Tok.count, Tok.Ok] at *
        omega
      omega
    rw [decodeLoop_round _ _ _ _ _ hlt] at h1 ⊢
    rw [token_fetch]; exact h1
  | lit c x ts e h1 h2 h ih =>
    rw [total_cons] at hD
    simp only [Tok.count] at hD
    obtain ⟨d, e1, e2⟩ := holds_push D dst out x hd (by omega)
    obtain ⟨d', f1, f2⟩ := ih d (out ++ [x]) e2 (by rw [List.length_append]; exact hv.2) (by simp; omega)
    refine ⟨d', ?_, f2⟩
    have ht : token c (x :: e) = some (c, x, none, e) := by
      unfold token; rw [fetch_ne _ _ h1]; simp [h2]
    rw [decodeLoop_round _ _ _ _ _ (by omega), ht]
    rw [List.length_append, List.length_singleton] at f1
    rw [Option.bind_some]
    dsimp only
    rw [emit_lit, e1, Option.bind_some, Option.bind_some]
    exact f1
  | span c off len ts e h1 h2 hb h ih =>
    rw [total_cons] at hD
    simp only [Tok.count] at hD
    obtain ⟨p, q, g1, g2, g3⟩ := span_bytes off len hb
    have hok := hv.1
    have hoff : off ≤ out.length := hok.2.2.2.2
    obtain ⟨d, e1, e2, e3⟩ := copyLoop_eq D len off dst out hd hb.1 hoff (by omega)
    obtain ⟨d', f1, f2⟩ := ih d _ e2 (by rw [e3]; exact hv.2) (by rw [e3]; omega)
    refine ⟨d', ?_, f2⟩
    have ht : token c (p :: q :: e) = some (c, p, some q, e) := by
      unfold token; rw [fetch_ne _ _ h1]; simp [h2]
    rw [g1, List.cons_append, List.cons_append, List.nil_append,
      decodeLoop_round _ _ _ _ _ (by omega), ht]
    rw [e3] at f1
    rw [Option.bind_some]
    dsimp only
    rw [emit_span D dst out.length p q off len g3 hoff hb.1 g2 (by omega), e1, Option.bind_some]
    exact f1

theorem sizeLoop_le (k : Nat) (src : List U8) (hk : src.length ≤ k) (c n N : Nat)
    (hs : sizeLoop c n src = some N) (hn : n + 19 * src.length < 2 ^ 64) : n ≤ N := by
  induction k generalizing src c n with
  | zero =>
    have : src = [] := by simpa using hk
    subst this
    rw [sizeLoop_nil] at hs
    simp only [Option.some.injEq] at hs
    omega
  | succ k ih =>
    by_cases hsrc : src = []
    · exact ih src (by simp [hsrc]) c n hs hn
    rw [sizeLoop_round _ _ _ hsrc] at hs
    have hne : src.length ≠ 0 := by simpa using hsrc
    cases hf : fetch c src with
    | none => rw [hf] at hs; cases hs
    | some r =>
      obtain ⟨c1, rest⟩ := r
      rw [hf, Option.bind_some] at hs
      have hl := fetch_length hf
      dsimp only at hs
      split at hs
      · split at hs
        · cases hs
        · rename_i q rest' h2
          have := congrArg List.length h2
          simp only [List.length_drop, List.length_cons] at this
          have hq := q.isLt
          rw [w64_eq (n + 1) (by omega), w64_eq _ (by omega)] at hs
          have := ih rest' (by omega) _ _ hs (by omega)
          omega
      · rw [w64_eq (n + 1) (by omega)] at hs
        have := ih (rest.drop 1) (by simp; omega) _ _ hs (by simp; omega)
        omega

theorem token_nil (c : Nat) : token c [] = none := by
  unfold token fetch
  by_cases hc : c = 1 <;> simp [hc]

/-- converse: a stream that `size` and `decode` handle without a bad access is well formed -/
theorem decode_wf (k : Nat) (src : List U8) (hk : src.length ≤ k) (c n N : Nat)
    (hs : sizeLoop c n src = some N) (hn : n + 19 * src.length < 2 ^ 64)
    (D : Nat) (hD : D ≤ 2 ^ 64 - 4096) (dst d' : Cells) (i : Nat) (hi : N + i ≤ D + n)
    (hd : decodeLoop D dst i c src = some d') :
    (∃ ts, EncFrom c ts src ∧ Valid i ts) ∧ N + i = D + n := by
  induction k generalizing src c n dst i with
  | zero =>
    have : src = [] := by simpa using hk
    subst this
    rw [sizeLoop_nil] at hs
    simp only [Option.some.injEq] at hs
    subst hs
    by_cases hlt : i < D
    · rw [decodeLoop_round _ _ _ _ _ hlt, token_nil] at hd; cases hd
    · exact ⟨⟨[], .nil _, trivial⟩, by omega⟩
  | succ k ih =>
    by_cases hsrc : src = []
    · exact ih src (by simp [hsrc]) c n hs hn dst i hi hd
    -- after the fetch
    have key : ∀ (c : Nat) (src : List U8), c ≠ 1 → src.length ≤ k + 1 →
        n + 19 * src.length < 2 ^ 64 →
        (if c % 2 = 0 then
          match src.drop 1 with
          | [] => none
          | q :: rest => sizeLoop (c / 2) (w64 (w64 (n + 1) + (2 + q.toNat / 16))) rest
        else sizeLoop (c / 2) (w64 (n + 1)) (src.drop 1)) = some N →
        (((token c src).bind fun r =>
          (emit D dst i r.2.1 r.2.2.1).bind fun s => decodeLoop D s.1 s.2 (r.1 / 2) r.2.2.2) =
            some d') →
        (∃ t ts, EncFrom c (t :: ts) src ∧ Valid i (t :: ts)) ∧ N + i = D + n := by
      intro c src hc hl hn hs hd
      unfold token at hd
      rw [fetch_ne _ _ hc] at hd
      cases src with
      | nil => cases hd
      | cons p rest =>
        simp only [List.drop_succ_cons, List.drop_zero] at hs
        simp only [List.length_cons] at hl hn
        by_cases h2 : c % 2 = 0
        · rw [if_pos h2] at hs
          simp only [h2, if_true] at hd
          cases rest with
          | nil => cases hd
          | cons q rest =>
            simp only [List.length_cons] at hl hn
            rw [Option.bind_some] at hd
            dsimp only at hs hd
            have hq := q.isLt
            have hp := p.isLt
            rw [w64_eq (n + 1) (by omega), w64_eq _ (by omega)] at hs
            generalize hlen : q.toNat / 16 + 3 = len at *
            obtain ⟨off, hsum⟩ : ∃ off, q.toNat % 16 * 256 + p.toNat + off = 4096 :=
              ⟨4096 - (q.toNat % 16 * 256 + p.toNat), by omega⟩
            have hlen2 : n + 1 + (2 + q.toNat / 16) = n + len := by omega
            rw [hlen2] at hs
            have hmono := sizeLoop_le _ rest (Nat.le_refl _) _ _ _ hs (by omega)
            by_cases hoi : off ≤ i
            · rw [emit_span D dst i p q off len hsum hoi (by omega) hlen (by omega)] at hd
              cases hcp : copyLoop D len dst i (i - off) with
              | none => rw [hcp] at hd; cases hd
              | some s =>
                obtain ⟨d1, i1⟩ := s
                rw [hcp, Option.bind_some] at hd
                have hidx := copyLoop_index _ _ _ _ _ _ _ hcp
                subst hidx
                obtain ⟨⟨ts, a2, a3⟩, a4⟩ := ih rest (by omega) (c / 2) (n + len) hs (by omega) d1
                  (i + len) (by omega) hd
                refine ⟨⟨.span off len, ts, ?_, ⟨by omega, by omega, by omega, by omega, hoi⟩, a3⟩,
                  by omega⟩
                have hpay : Tok.payload (.span off len) = [p, q] := by
                  unfold Tok.payload
                  dsimp only
                  congr 1
                  · apply BitVec.eq_of_toNat_eq; rw [BitVec.toNat_ofNat]; omega
                  · congr 1
                    apply BitVec.eq_of_toNat_eq; rw [BitVec.toNat_ofNat]; omega
                have := EncFrom.span c off len ts rest hc h2 ⟨by omega, by omega, by omega, by omega⟩ a2
                rw [hpay] at this; exact this
            · exfalso
              have hbeg := spanBegin_wrap i p q off hsum (by omega)
              unfold emit at hd
              dsimp only at hd
              rw [hbeg] at hd
              generalize hkk : spanEnd (i + 2 ^ 64 - off) q - (i + 2 ^ 64 - off) = kk at hd
              cases kk with
              | zero =>
                unfold copyLoop at hd
                rw [Option.bind_some] at hd
                have := ih rest (by omega) (c / 2) (n + len) hs (by omega) dst i (by omega) hd
                omega
              | succ kk =>
                unfold copyLoop at hd
                have : rd D dst (i + 2 ^ 64 - off) = none := if_neg (by omega)
                rw [this] at hd
                cases hd
        · rw [if_neg h2] at hs
          simp only [h2, if_false] at hd
          rw [Option.bind_some] at hd
          dsimp only at hd
          rw [emit_lit] at hd
          rw [w64_eq _ (by omega)] at hs
          unfold wr at hd
          by_cases hiD : i < D
          · rw [if_pos hiD, Option.bind_some, Option.bind_some] at hd
            obtain ⟨⟨ts, a2, a3⟩, a4⟩ := ih rest (by omega) (c / 2) (n + 1) hs (by omega) _ (i + 1)
              (by omega) hd
            exact ⟨⟨.lit p, ts, .lit c p ts rest hc (by omega) a2, trivial, a3⟩, by omega⟩
          · rw [if_neg hiD] at hd; cases hd
    have hne : src.length ≠ 0 := by simpa using hsrc
    rw [sizeLoop_round _ _ _ hsrc] at hs
    have hlt : i < D := by
      cases hf : fetch c src with
      | none => rw [hf] at hs; cases hs
      | some r =>
        obtain ⟨c1, rest⟩ := r
        have hl := fetch_length hf
        rw [hf, Option.bind_some] at hs
        dsimp only at hs
        split at hs
        · split at hs
          · cases hs
          · rename_i q rest' h2
            have := congrArg List.length h2
            simp only [List.length_drop, List.length_cons] at this
            have hq := q.isLt
            rw [w64_eq (n + 1) (by omega), w64_eq _ (by omega)] at hs
            have := sizeLoop_le _ rest' (Nat.le_refl _) _ _ _ hs (by omega)
            omega
        · rw [w64_eq (n + 1) (by omega)] at hs
          have := sizeLoop_le _ (rest.drop 1) (Nat.le_refl _) _ _ _ hs (by simp; omega)
          omega
    rw [decodeLoop_round _ _ _ _ _ hlt] at hd
    by_cases hc : c = 1
    · subst hc
      cases src with
      | nil => exact absurd rfl hsrc
      | cons x rest =>
        rw [token_fetch] at hd
        rw [fetch_one, Option.bind_some] at hs
        simp only [List.length_cons] at hk hn
        obtain ⟨⟨t, ts, a2, a3⟩, a4⟩ := key _ rest (ctl_ne_one x) (by omega) (by omega) hs hd
        exact ⟨⟨t :: ts, .fetch x t ts rest a2, a3⟩, a4⟩
    · rw [fetch_ne _ _ hc, Option.bind_some] at hs
      obtain ⟨⟨t, ts, a2, a3⟩, a4⟩ := key c src hc hk hn hs hd
      exact ⟨⟨t :: ts, a2, a3⟩, a4⟩

/-- from the view inside a group back to groups -/
theorem encFrom_encodes (k : Nat) (e : List U8) (hk : e.length ≤ k) (ts : List Tok)
    (h : EncFrom 1 ts e) : Encodes ts e := by
  induction k generalizing e ts with
  | zero =>
    cases h with
    | nil => exact .nil
    | fetch => simp at hk
    | lit => simp at hk
    | span => simp [Tok.payload] at hk
  | succ k ih =>
    have key : ∀ (n j : Nat) (c : Nat) (ctl : U8) (ts : List Tok) (e : List U8), e.length ≤ k → j + n = 8 →
        c = (ctl.toNat ||| 0x100) / 2 ^ j → EncFrom c ts e →
        ∃ g rest e', ts = g ++ rest ∧ e = g.flatMap Tok.payload ++ e' ∧ Encodes rest e' ∧
          (g.length = n ∨ (g.length < n ∧ rest = [])) ∧
          ∀ (i : Nat) (t : Tok), g[i]? = some t → ctl.getLsbD (j + i) = t.isLit := by
      intro n
      induction n with
      | zero =>
        intro j c ctl ts e hl hj hc h
        have : j = 8 := by omega
        subst this
        rw [ctl_one] at hc
        subst hc
        exact ⟨[], ts, e, rfl, rfl, ih e hl ts h, .inl rfl, fun i t h => by simp at h⟩
      | succ n ihn =>
        intro j c ctl ts e hl hj hc h
        have hb := ctl_bit ctl j (by omega)
        have hne := ctl_ne ctl j (by omega)
        rw [← hc] at hb hne
        have glue : ∀ (t : Tok) (ts : List Tok) (e : List U8), e.length ≤ k →
            ctl.getLsbD j = t.isLit → EncFrom (c / 2) ts e →
            ∃ g rest e', t :: ts = g ++ rest ∧ t.payload ++ e = g.flatMap Tok.payload ++ e' ∧
              Encodes rest e' ∧ (g.length = n + 1 ∨ (g.length < n + 1 ∧ rest = [])) ∧
              ∀ (i : Nat) (t : Tok), g[i]? = some t → ctl.getLsbD (j + i) = t.isLit := by
          intro t ts e hl hbit h
          obtain ⟨g, rest, e', h1, h2, h3, h4, h5⟩ := ihn (j + 1) (c / 2) ctl ts e hl (by omega)
            (by rw [Nat.pow_succ, ← Nat.div_div_eq_div_mul, ← hc]) h
          refine ⟨t :: g, rest, e', by rw [h1]; rfl, by rw [h2]; simp, h3, ?_, ?_⟩
          · rcases h4 with h4 | ⟨h4, h6⟩
            · left; simp [h4]
            · right; exact ⟨by simpa using h4, h6⟩
          · intro i t' hi
            cases i with
            | zero => simp at hi; rw [← hi]; exact hbit
            | succ i =>
              rw [show j + (i + 1) = j + 1 + i by omega]
              exact h5 i t' (by simpa using hi)
        cases h with
        | nil => exact ⟨[], [], [], rfl, rfl, .nil, .inr ⟨by simp, rfl⟩, fun i t h => by simp at h⟩
        | fetch => exact absurd rfl hne
        | lit _ x ts e h1 h2 h =>
          exact glue (.lit x) ts e (by simp at hl; omega)
            (by rw [h2] at hb; cases hx : ctl.getLsbD j <;> simp [hx, Tok.isLit] at *) h
        | span _ off len ts e h1 h2 hbd h =>
          exact glue (.span off len) ts e (by simp [Tok.payload] at hl; omega)
            (by rw [h2] at hb; cases hx : ctl.getLsbD j <;> simp [hx, Tok.isLit] at *) h
    generalize hc1 : (1 : Nat) = c1 at h
    cases h with
    | nil => exact .nil
    | fetch ctl t ts e h =>
      obtain ⟨g, rest, e', h1, h2, h3, h4, h5⟩ := key 8 0 _ ctl (t :: ts) e (by simp at hk; omega)
        rfl (by simp) h
      rw [h1, h2]
      refine .group ctl g rest e' ?_ h4 (fun i t hi => by simpa using h5 i t hi) h3
      rintro rfl
      rcases h4 with h4 | ⟨_, rfl⟩
      · simp at h4
      · simp at h1
    | lit _ x ts e h1 h2 h => exact absurd hc1.symm h1
    | span _ off len ts e h1 h2 hb h => exact absurd hc1.symm h1

/-- the encoder produces encodings -/
theorem control_bit (g : List Tok) (hg : g.length ≤ 8) (i : Nat) (t : Tok) (h : g[i]? = some t) :
    (control g).getLsbD i = t.isLit := by
  have key : ∀ (g : List Tok) (i : Nat) (t : Tok), g[i]? = some t →
      (g.foldr (fun (t : Tok) n => 2 * n + t.isLit.toNat) 0).testBit i = t.isLit := by
    intro g
    induction g with
    | nil => intro i t h; simp at h
    | cons a g ih =>
      intro i t h
      cases i with
      | zero =>
        simp at h; subst h
        simp only [List.foldr_cons, Nat.testBit_zero]
        cases a.isLit <;> simp <;> omega
      | succ i =>
        rw [List.foldr_cons, Nat.testBit_succ]
        rw [show (2 * (g.foldr (fun (t : Tok) n => 2 * n + t.isLit.toNat) 0) + a.isLit.toNat) / 2 =
          g.foldr (fun (t : Tok) n => 2 * n + t.isLit.toNat) 0 by
          have : a.isLit.toNat ≤ 1 := Bool.toNat_le _
          omega]
        exact ih i t (by simpa using h)
  have hi : i < g.length := by
    rcases Nat.lt_or_ge i g.length with h' | h'
    · exact h'
    · rw [List.getElem?_eq_none h'] at h; cases h
  unfold control
  rw [BitVec.getLsbD_ofNat]
  rw [key g i t h]
  simp; omega

theorem encode_encodes (k : Nat) (ts : List Tok) (hk : ts.length ≤ k) : Encodes ts (encode ts) := by
  induction k generalizing ts with
  | zero =>
    have : ts = [] := by simpa using hk
    subst this
    unfold encode; rw [dif_pos rfl]; exact .nil
  | succ k ih =>
    unfold encode
    by_cases h : ts = []
    · subst h; rw [dif_pos rfl]; exact .nil
    · rw [dif_neg h]
      have hne : ts.length ≠ 0 := by simpa using h
      have := ih (ts.drop 8) (by simp; omega)
      conv => lhs; rw [← List.take_append_drop 8 ts]
      refine .group _ _ _ _ (by simp [h]) ?_ (fun i t hi => control_bit _ (by simp; omega) i t hi) this
      by_cases h8 : 8 ≤ ts.length
      · left; simp; omega
      · right; exact ⟨by simp; omega, by simp; omega⟩

end CE.Lziii
