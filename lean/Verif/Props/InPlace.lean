import Verif.Model.InPlace
import Mathlib.Tactic.Ring
import Mathlib.Tactic.Linarith
/-!
# C137: working in place

`base64::decode` may write over the text it decodes and `z_query` over the array it searches, as long as the output does
not begin behind the input.  The result of `intersect` may be its first point, and no other.
-/
namespace CE.InPlace

theorem upd_same {X : Type} (m : Nat → X) (r : Nat) (v : X) : upd m r v r = v := if_pos rfl

theorem upd_other {X : Type} (m : Nat → X) {r k : Nat} (v : X) (h : k ≠ r) : upd m r v k = m k := if_neg h

theorem upd_upd {X : Type} (m : Nat → X) (r : Nat) (v w : X) : upd (upd m r v) r w = upd m r w := by
  funext k; unfold upd; split <;> rfl

/-! ## intersect -/

section
open CE.Vec

theorem upd_first {m : Nat → V2} (r p0 : Nat) : upd m r (m p0) p0 = m p0 := by
  unfold upd; split
  · rfl
  · rfl

/-- C137.  When the result is not the end of the first line nor on the second line, it may be the start of the first line
or any other object: the answer is that for separate objects, and nothing else changes. -/
theorem C137_intersect_first (strict : Bool) (m : Nat → V2) (p0 p1 q0 q1 r : Nat) (h1 : r ≠ p1) (h2 : r ≠ q0) (h3 : r ≠ q1) :
    intersect strict m p0 p1 q0 q1 r =
      (Vec.intersect strict (m p0) (m p1) (m q0) (m q1)).map (fun a => (a.1, upd m r a.2)) := by
  unfold intersect Vec.intersect
  dsimp only
  rw [upd_first, upd_other m _ (Ne.symm h1), upd_other m _ (Ne.symm h2), upd_other m _ (Ne.symm h3)]
  simp only [upd_upd]
  cases bin2 .sub (m p1) (m p0) with
  | none => rfl
  | some p =>
    cases bin2 .sub (m q1) (m q0) with
    | none => rfl
    | some q =>
      simp only [Option.bind_eq_bind, Option.bind_some]
      cases crossx2 p q with
      | none => rfl
      | some d =>
        simp only [Option.bind_some]
        split
        · rfl
        · cases bin2 .sub (m q0) (m p0) with
          | none => rfl
          | some u =>
            simp only [Option.bind_some]
            cases crossx2 u q with
            | none => rfl
            | some t =>
              simp only [Option.bind_some]
              cases muldiv64 strict p t d with
              | none => rfl
              | some k =>
                simp only [Option.bind_some]
                cases bin2 .add (m p0) k with
                | none => rfl
                | some s => rfl

theorem i32_some {n v : Int} (h : i32 n = some v) : v = n := by
  unfold i32 at h
  split at h
  · injection h with h; exact h.symm
  · cases h

theorem i64_some {n v : Int} (h : i64 n = some v) : v = n := by
  unfold i64 at h
  split at h
  · injection h with h; exact h.symm
  · cases h

theorem sub_some {a b v : V2} (h : bin2 .sub a b = some v) : v = ⟨a.x - b.x, a.y - b.y⟩ := by
  unfold bin2 Arith.eval at h
  simp only [Option.bind_eq_bind, Option.bind_eq_some_iff] at h
  obtain ⟨x, hx, y, hy, hv⟩ := h
  injection hv with hv
  rw [← hv, i32_some hx, i32_some hy]

theorem add_some {a b v : V2} (h : bin2 .add a b = some v) : v = ⟨a.x + b.x, a.y + b.y⟩ := by
  unfold bin2 Arith.eval at h
  simp only [Option.bind_eq_bind, Option.bind_eq_some_iff] at h
  obtain ⟨x, hx, y, hy, hv⟩ := h
  injection hv with hv
  rw [← hv, i32_some hx, i32_some hy]

theorem cross_some {a b : V2} {v : Int} (h : crossx2 a b = some v) : v = a.x * b.y - a.y * b.x := by
  unfold crossx2 at h
  simp only [Option.bind_eq_bind, Option.bind_eq_some_iff] at h
  obtain ⟨x, hx, y, hy, hv⟩ := h
  rw [i64_some hv, i64_some hx, i64_some hy]

theorem muldiv_zero {strict : Bool} {p k : V2} {d : Int} (h : muldiv64 strict p 0 d = some k) : k = p ∨ k = ⟨0, 0⟩ := by
  unfold muldiv64 at h
  dsimp only at h
  split at h
  · injection h with h; exact Or.inl h.symm
  · right
    have e : shl16 strict 0 = some 0 := by
      unfold shl16 i64 to64; cases strict <;> rfl
    simp only [e, Option.bind_eq_bind, Option.bind_some, Option.bind_eq_some_iff] at h
    obtain ⟨t, ht, x, hx, y, hy, hv⟩ := h
    have ht := i64_some ht
    rw [Int.zero_tdiv] at ht
    subst ht
    have hx := i64_some hx
    have hy := i64_some hy
    rw [Int.mul_zero] at hx hy
    subst hx hy
    injection hv with hv
    rw [← hv]; rfl

/-- the steps of a call -/
theorem intersect_steps {strict : Bool} {m m' : Nat → V2} {p0 p1 q0 q1 r : Nat} {b : Bool}
    (h : intersect strict m p0 p1 q0 q1 r = some (b, m')) :
    ∃ n : Nat → V2, n = upd m r (m p0) ∧ ∃ p q : V2, ∃ d : Int,
      p = ⟨(n p1).x - (n p0).x, (n p1).y - (n p0).y⟩ ∧ q = ⟨(n q1).x - (n q0).x, (n q1).y - (n q0).y⟩ ∧
      d = p.x * q.y - p.y * q.x ∧
      ((d = 0 ∧ b = false ∧ m' = n) ∨
       (d ≠ 0 ∧ b = true ∧ ∃ t : Int, ∃ k : V2,
          t = ((n q0).x - (n p0).x) * q.y - ((n q0).y - (n p0).y) * q.x ∧ muldiv64 strict p t d = some k ∧
          m' = upd n r ⟨(n p0).x + k.x, (n p0).y + k.y⟩)) := by
  unfold intersect at h
  dsimp only at h
  refine ⟨_, rfl, ?_⟩
  generalize upd m r (m p0) = n at *
  simp only [Option.bind_eq_bind, Option.bind_eq_some_iff] at h
  obtain ⟨p, hp, q, hq, d, hd, h⟩ := h
  refine ⟨p, q, d, sub_some hp, sub_some hq, cross_some hd, ?_⟩
  split at h
  · next h0 => injection h with h; injection h with h1 h2; exact Or.inl ⟨h0, h1.symm, h2.symm⟩
  · next h0 =>
    simp only [Option.bind_eq_some_iff] at h
    obtain ⟨u, hu, t, ht, k, hk, s, hs, h⟩ := h
    injection h with h
    injection h with h1 h2
    have hu := sub_some hu
    have ht := cross_some ht
    subst hu
    exact Or.inr ⟨h0, h1.symm, t, k, ht, hk, by rw [← h2, add_some hs]⟩

/-- C137.  With the end of the first line as the result, `intersect` never finds an intersection and replaces the end by
the start. -/
theorem C137_intersect_end (strict : Bool) (m m' : Nat → V2) (p0 p1 q0 q1 : Nat) (b : Bool)
    (h : intersect strict m p0 p1 q0 q1 p1 = some (b, m')) : b = false ∧ m' = upd m p1 (m p0) := by
  obtain ⟨n, hn, p, q, d, hp, -, hd, h⟩ := intersect_steps h
  have e : n p1 = n p0 := by rw [hn, upd_same, upd_first]
  have : d = 0 := by rw [hd, hp, e]; simp
  rcases h with ⟨-, hb, hm⟩ | ⟨h0, -⟩
  · exact ⟨hb, hm.trans hn⟩
  · exact absurd this h0

/-- C137.  With an end of the second line as the result, an intersection that is reported is one of the two ends of the
first line, wherever the lines cross. -/
theorem C137_intersect_other (strict : Bool) (m m' : Nat → V2) (p0 p1 q0 q1 r : Nat) (hr : r = q0 ∨ r = q1)
    (h : intersect strict m p0 p1 q0 q1 r = some (true, m')) : m' r = m p0 ∨ m' r = m p1 := by
  obtain ⟨n, hn, p, q, d, hp, hq, hd, h⟩ := intersect_steps h
  have e0 : n p0 = m p0 := by rw [hn, upd_first]
  have er : n r = m p0 := by rw [hn, upd_same]
  rcases h with ⟨-, hb, -⟩ | ⟨h0, -, t, k, ht, hk, hm⟩
  · cases hb
  · have hne : p1 ≠ r := by
      intro hc
      subst hc
      apply h0
      rw [hd, hp, er, e0]; simp
    have e1 : n p1 = m p1 := by rw [hn, upd_other m _ hne]
    have ht0 : t = 0 := by
      rcases hr with rfl | rfl
      · rw [ht, er, e0]; simp
      · rw [ht, hq, er, e0]; simp only; ring
    rw [ht0] at hk
    rw [hm, upd_same, e0]
    rcases muldiv_zero hk with h | h
    · right
      rw [h, hp, e0, e1]
      ext <;> simp
    · left
      rw [h]
      ext <;> simp

/-- the two lines of the counterexample: from (0, 0) to (2^16, 0), and across its middle -/
def cross : Nat → V2
  | 0 => ⟨0, 0⟩
  | 1 => ⟨65536, 0⟩
  | 2 => ⟨32768, -32768⟩
  | 3 => ⟨32768, 32768⟩
  | _ => ⟨7, 7⟩

/-- C137.  The result may not be any of the other three points: the lines cross at (2^15, 0), which is found with a separate
result and with the first point, but not with the others. -/
theorem C137_intersect_alias_false :
    (intersect false cross 0 1 2 3 4).map (fun a => (a.1, a.2 4)) = some (true, ⟨32768, 0⟩) ∧
    (intersect false cross 0 1 2 3 0).map (fun a => (a.1, a.2 0)) = some (true, ⟨32768, 0⟩) ∧
    (intersect false cross 0 1 2 3 1).map (fun a => (a.1, a.2 1)) = some (false, ⟨0, 0⟩) ∧
    (intersect false cross 0 1 2 3 2).map (fun a => (a.1, a.2 2)) = some (true, ⟨0, 0⟩) ∧
    (intersect false cross 0 1 2 3 3).map (fun a => (a.1, a.2 3)) = some (true, ⟨0, 0⟩) := by
  decide +kernel

end

/-! ## z_query -/

section
open CE.Zorder

/-- a search looks at its range only -/
theorem lowerLoop_congr {f g : Nat → Nat} (z : Nat) : ∀ n a, (∀ k, a ≤ k → k < a + n → f k = g k) →
    lowerLoop f z a n = lowerLoop g z a n := by
  intro n
  induction n using Nat.strong_induction_on with
  | _ n ih =>
    intro a h
    rw [lowerLoop, lowerLoop]
    split
    · next h0 =>
      dsimp only
      rw [h (a + n / 2) (by omega) (by omega)]
      split
      · exact ih _ (by omega) _ (fun k h1 h2 => h k (by omega) (by omega))
      · exact ih _ (by omega) _ (fun k h1 h2 => h k (by omega) (by omega))
    · rfl

theorem lowerBound_congr {f g : Nat → Nat} {a b : Nat} (z : Nat) (h : ∀ k, a ≤ k → k < b → f k = g k) :
    lowerBound f a b z = lowerBound g a b z :=
  lowerLoop_congr z _ _ (fun k h1 h2 => h k h1 (by omega))

/-- a search in a part of memory -/
theorem lowerLoop_shift (m : Nat → Nat) (d z : Nat) : ∀ n a, lowerLoop m z (d + a) n = d + lowerLoop (fun k => m (d + k)) z a n := by
  intro n
  induction n using Nat.strong_induction_on with
  | _ n ih =>
    intro a
    rw [lowerLoop, lowerLoop]
    split
    · next h0 =>
      dsimp only
      rw [Nat.add_assoc d a]
      split
      · rw [Nat.add_assoc d]; exact ih _ (by omega) _
      · exact ih _ (by omega) _
    · rfl

theorem lowerBound_shift (m : Nat → Nat) (d z a b : Nat) :
    lowerBound m (d + a) (d + b) z = d + lowerBound (fun k => m (d + k)) a b z := by
  unfold lowerBound
  rw [show d + b - (d + a) = b - a by omega]
  exact lowerLoop_shift m d z _ _

/-- the loop, while the output has not overtaken the input -/
theorem queryLoop_inPlace (m0 : Nat → Nat) (out last d : Nat) : ∀ j i (b : Boxes) (m : Nat → Nat) (size : Nat), last - i ≤ j →
    out + size ≤ d + i → (∀ k, i ≤ k → m (d + k) = m0 (d + k)) →
    queryLoop out (d + last) (d + i) b m size =
      (Zorder.queryLoop (fun k => m0 (d + k)) last i b).map (fun l =>
        (size + l.length, fun k => if out + size ≤ k ∧ k < out + size + l.length then l.getD (k - (out + size)) 0 else m k)) := by
  have nil : ∀ (m : Nat → Nat) (s : Nat), some (s, m) = (some ([] : List Nat)).map (fun l =>
      (s + l.length, fun k => if out + s ≤ k ∧ k < out + s + l.length then l.getD (k - (out + s)) 0 else m k)) := by
    intro m s
    simp only [Option.map_some, List.length_nil, Nat.add_zero]
    congr 2
    funext k
    rw [if_neg (by omega)]
  intro j
  induction j with
  | zero =>
    intro i b m size hj ho hm
    rw [queryLoop, Zorder.queryLoop, dif_neg (by omega), dif_neg (by omega)]
    exact nil m size
  | succ j ih =>
    intro i b m size hj ho hm
    rw [queryLoop, Zorder.queryLoop]
    by_cases hi : i < last
    · rw [dif_pos (by omega), dif_pos hi]
      dsimp only
      rw [hm i le_rfl]
      cases popTo (m0 (d + i)) b.lo b.hi b.stack with
      | none => exact nil m size
      | some b =>
        dsimp only
        cases look (m0 (d + i)) 64 b with
        | overflow => rfl
        | jump b =>
          dsimp only
          have e : lowerBound m (d + i + 1) (d + last) b.lo = d + lowerBound (fun k => m0 (d + k)) (i + 1) last b.lo := by
            rw [Nat.add_assoc, lowerBound_shift]
            congr 1
            exact lowerBound_congr _ (fun k h1 _ => hm k (by omega))
          rw [e, show max (d + i + 1) (d + lowerBound (fun k => m0 (d + k)) (i + 1) last b.lo) =
            d + max (i + 1) (lowerBound (fun k => m0 (d + k)) (i + 1) last b.lo) by omega]
          exact ih _ b m size (by omega) (by omega) (fun k hk => hm k (by omega))
        | emit b =>
          dsimp only
          rw [Nat.add_assoc d i 1, ih (i + 1) b _ (size + 1) (by omega) (by omega)
            (fun k hk => by rw [upd_other _ _ (by omega)]; exact hm k (by omega))]
          cases Zorder.queryLoop (fun k => m0 (d + k)) last (i + 1) b with
          | none => rfl
          | some l =>
            simp only [Option.map_some, List.length_cons]
            congr 2
            · omega
            · funext k
              by_cases hk : k = out + size
              · subst hk
                rw [if_neg (by omega), if_pos (by omega), upd_same]
                simp
              · by_cases h2 : out + (size + 1) ≤ k ∧ k < out + (size + 1) + l.length
                · rw [if_pos h2, if_pos (by omega)]
                  rw [show k - (out + size) = (k - (out + (size + 1))) + 1 by omega]
                  rfl
                · rw [if_neg h2, if_neg (by omega), upd_other _ _ hk]
    · rw [dif_neg (by omega), dif_neg hi]
      exact nil m size

/-- C137.  `z_query` may write over the array it searches, or anywhere that does not begin behind it: the number of elements
and the elements are those of a query of the array as it was, and nothing else changes. -/
theorem C137_query_in_place (out lo hi size data : Nat) (m : Nat → Nat) (h : out ≤ data) :
    query out lo hi size data m =
      (Zorder.query lo hi size (fun k => m (data + k))).map (fun l =>
        (l.length, fun k => if out ≤ k ∧ k < out + l.length then l.getD (k - out) 0 else m k)) := by
  unfold query Zorder.query
  have e := lowerBound_shift m data (add64 hi 0xffff) 0 size
  rw [Nat.add_zero] at e
  rw [e]
  have := queryLoop_inPlace m out (lowerBound (fun k => m (data + k)) 0 size (add64 hi 0xffff)) data
    _ 0 ⟨lo, hi, []⟩ m 0 le_rfl (by omega) (fun k _ => rfl)
  rw [Nat.add_zero] at this
  rw [this]
  congr 1
  funext l
  simp only [Nat.zero_add, Nat.add_zero]

/-- C137.  Output that begins one element behind the input destroys what is to be read: of two points of the box, the
first is found twice. -/
theorem C137_query_behind_false :
    Zorder.query 0 0x30000 2 (fun k => if k = 0 then 1 else 2) = some [1, 2] ∧
    (query 1 0 0x30000 2 0 (fun k => if k = 0 then 1 else 2)).map (fun a => (a.1, a.2 1, a.2 2)) = some (2, 1, 1) := by
  decide +kernel

end

/-! ## base64 -/

section
open CE.Base64

theorem decodeLoop_inPlace (m0 : Nat → Nat) (dst src len size : Nat) (hd : dst ≤ src) (hs : size ≤ 2 ^ 62) : ∀ n i (m : Nat → Nat),
    i + n = size → (∀ k, dst + i ≤ k → m k = m0 k) →
    decodeLoop dst src len n i m =
      ((List.range' i n).mapM (decodeByte ((List.range (len - src)).map (fun k => m0 (src + k))))).map (fun l =>
        fun k => if dst + i ≤ k ∧ k < dst + i + l.length then l.getD (k - (dst + i)) 0 else m k) := by
  intro n
  induction n with
  | zero =>
    intro i m hi hm
    simp only [decodeLoop, List.range'_zero, List.mapM_nil]
    show some m = some _
    congr 1
    funext k
    dsimp only
    rw [if_neg (by rw [List.length_nil]; omega)]
  | succ n ih =>
    intro i m hi hm
    have hmod : i * 4 % 2 ^ 64 = i * 4 := Nat.mod_eq_of_lt (by omega)
    have hge : i ≤ i * 4 / 3 := by omega
    have rd : ∀ c, src + c < len → ((List.range (len - src)).map (fun k => m0 (src + k)))[c]? = some (m0 (src + c)) := by
      intro c hc
      rw [List.getElem?_map, List.getElem?_range (by omega)]
      rfl
    have rdn : ∀ c, ¬ src + c < len → ((List.range (len - src)).map (fun k => m0 (src + k)))[c]? = none := by
      intro c hc
      rw [List.getElem?_eq_none]
      simp; omega
    rw [decodeLoop, List.range'_succ, List.mapM_cons]
    split
    · next hlt =>
      dsimp only
      have hb : decodeByte ((List.range (len - src)).map (fun k => m0 (src + k))) i =
          some (((dec (m0 (src + i * 4 % 2 ^ 64 / 3)) <<< (i % 3 * 2 + 2)) +
            (dec (m0 (src + i * 4 % 2 ^ 64 / 3 + 1)) >>> (6 - (i % 3 * 2 + 2)))) % 256) := by
        unfold decodeByte
        rw [rd _ (by omega), rd _ (by omega)]
        rfl
      rw [hb, hm (src + i * 4 % 2 ^ 64 / 3) (by omega), hm (src + i * 4 % 2 ^ 64 / 3 + 1) (by omega)]
      generalize ((dec (m0 (src + i * 4 % 2 ^ 64 / 3)) <<< (i % 3 * 2 + 2)) +
            (dec (m0 (src + i * 4 % 2 ^ 64 / 3 + 1)) >>> (6 - (i % 3 * 2 + 2)))) % 256 = v
      rw [ih (i + 1) _ (by omega) (fun k hk => by rw [upd_other _ _ (by omega)]; exact hm k (by omega))]
      show _ = Option.map _ (Option.bind (some v) _)
      rw [Option.bind_some]
      cases (List.range' (i + 1) n).mapM (decodeByte ((List.range (len - src)).map (fun k => m0 (src + k)))) with
      | none => rfl
      | some l =>
        show some _ = some _
        congr 1
        funext k
        dsimp only
        by_cases hk : k = dst + i
        · subst hk
          rw [if_neg (by omega), if_pos (by rw [List.length_cons]; omega), upd_same]
          simp
        · by_cases h2 : dst + (i + 1) ≤ k ∧ k < dst + (i + 1) + l.length
          · rw [if_pos h2, if_pos (by rw [List.length_cons]; omega)]
            rw [show k - (dst + i) = (k - (dst + (i + 1))) + 1 by omega]
            rfl
          · rw [if_neg h2, if_neg (by rw [List.length_cons]; omega), upd_other _ _ hk]
    · next hlt =>
      have hb : decodeByte ((List.range (len - src)).map (fun k => m0 (src + k))) i = none := by
        unfold decodeByte
        rw [rdn (i * 4 % 2 ^ 64 / 3 + 1) (by omega)]
        cases ((List.range (len - src)).map (fun k => m0 (src + k)))[i * 4 % 2 ^ 64 / 3 + 0]? <;> rfl
      rw [hb]
      rfl

/-- C137.  `base64::decode` may write over the text it decodes, or anywhere that does not begin behind it: the bytes are
those decoded from the text as it was, and nothing else changes. -/
theorem C137_decode_in_place (size dst src len : Nat) (m : Nat → Nat) (hd : dst ≤ src) (hs : size ≤ 2 ^ 62) :
    decode size dst src len m =
      (Base64.decode size ((List.range (len - src)).map (fun k => m (src + k)))).map (fun l =>
        fun k => if dst ≤ k ∧ k < dst + l.length then l.getD (k - dst) 0 else m k) := by
  unfold decode Base64.decode
  rw [decodeLoop_inPlace m dst src len size hd hs size 0 m (by omega) (fun k _ => rfl), List.range_eq_range']
  simp only [Nat.add_zero]
  rw [List.range_eq_range']

/-- "TWFu" and a terminator at address 0 -/
def text : Nat → Nat := fun k => [84, 87, 70, 117, 0].getD k 0

/-- C137.  The text "TWFu" of "Man" is decoded in place; one byte behind it is not. -/
theorem C137_decode_behind_false :
    (decode 3 0 0 5 text).map (fun m => (m 0, m 1, m 2)) = some (77, 97, 110) ∧
    (decode 3 1 0 5 text).map (fun m => (m 1, m 2, m 3)) ≠ some (77, 97, 110) := by
  decide +kernel

end

/-! ## The hypotheses are met -/

example : intersect false cross 0 1 2 3 0 =
    (Vec.intersect false (cross 0) (cross 1) (cross 2) (cross 3)).map (fun a => (a.1, upd cross 0 a.2)) :=
  C137_intersect_first false cross 0 1 2 3 0 (by decide) (by decide) (by decide)

example (m' : Nat → Vec.V2) (b : Bool) (h : intersect false cross 0 1 2 3 1 = some (b, m')) : b = false :=
  (C137_intersect_end false cross m' 0 1 2 3 b h).1

/-- a query over its own array that keeps two of three elements -/
example : (query 0 0 0x30000 3 0 (fun k => [1, 2, 0x70000].getD k 0)).map (fun a => (a.1, a.2 0, a.2 1, a.2 2)) =
    some (2, 1, 2, 0x70000) := by decide +kernel

end CE.InPlace
