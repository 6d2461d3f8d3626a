import Verif.Props.Equidistribution
import Mathlib.Data.List.Permutation
import Mathlib.Data.Set.Card
/-!
# Shuffling with the generators (C154)
-/
namespace CE.Random

open CE.Crc (U8 U32 U64)

variable {α G : Type}

/-- `swap(a[0], a[d])` on `x :: l`: the new `a[0]` and the rest -/
def swapOut (x : α) (l : List α) : Nat → Option (α × List α)
  | 0 => some (x, l)
  | e + 1 => l[e]?.map (fun y => (y, l.set e x))

/-- `for (; n > 0; --n, ++a) swap(a[0], a[next_unbiased(g, n)])` -/
def shuffleN (read : G → U32) (step : G → G) (fuel : Nat) : Nat → G → List α → Option (List α × G)
  | 0, g, l => some (l, g)
  | _ + 1, _, [] => none
  | n + 1, g, x :: l => do
    let (d, g) ← nextUnbiased read step fuel g (BitVec.ofNat 32 (n + 1))
    let (y, l) ← swapOut x l d.toNat
    let (t, g) ← shuffleN read step fuel n g l
    return (y :: t, g)

/-- the usual shuffle, written by a user of `next_unbiased` -/
def shuffle (read : G → U32) (step : G → G) (fuel : Nat) (g : G) (l : List α) : Option (List α × G) :=
  shuffleN read step fuel l.length g l

theorem swapOut_fst (x : α) (l : List α) (d : Nat) : (swapOut x l d).map Prod.fst = (x :: l)[d]? := by
  cases d with
  | zero => rfl
  | succ e => simp [swapOut, Function.comp_def]

theorem swapOut_perm {x y : α} {l l1 : List α} {d : Nat} (h : swapOut x l d = some (y, l1)) : (y :: l1).Perm (x :: l) := by
  cases d with
  | zero =>
    simp only [swapOut, Option.some.injEq, Prod.mk.injEq] at h
    rw [h.1, h.2]
  | succ e =>
    simp only [swapOut, Option.map_eq_some_iff, Prod.mk.injEq] at h
    obtain ⟨z, hz, rfl, rfl⟩ := h
    obtain ⟨he, rfl⟩ := List.getElem?_eq_some_iff.1 hz
    have h1 : (l.set e x).Perm (x :: l.eraseIdx e) := List.set_perm_cons_eraseIdx he x
    have h2 : (l[e] :: l.eraseIdx e).Perm l := List.getElem_cons_eraseIdx_perm he
    exact ((h1.cons _).trans (List.Perm.swap _ _ _)).trans (h2.cons _)

theorem swapOut_some (x : α) (l : List α) {d : Nat} (h : d < l.length + 1) : ∃ y l1, swapOut x l d = some (y, l1) := by
  cases h1 : swapOut x l d with
  | none =>
    have := swapOut_fst x l d
    rw [h1] at this
    have h2 := List.getElem?_eq_none_iff.1 this.symm
    simp at h2
    omega
  | some p => exact ⟨p.1, p.2, rfl⟩

theorem scale_lt (n : Nat) (hn : n + 1 < 2 ^ 32) (r : U32) : (scale (BitVec.ofNat 32 (n + 1)) r).toNat < n + 1 := by
  have h := (C18_next_ranged_exact (fun g : U32 => g) id r (BitVec.ofNat 32 (n + 1))).2.1
  have e : (BitVec.ofNat 32 (n + 1)).toNat = n + 1 := by simp; omega
  rw [e] at h
  exact h (by omega)

theorem shuffleN_perm (read : G → U32) (step : G → G) (fuel : Nat) (hf : 0 < fuel) (n : Nat) (hn : n < 2 ^ 32) (g : G)
    (l : List α) (hl : l.length = n) : ∃ l', shuffleN read step fuel n g l = some (l', step^[n] g) ∧ l'.Perm l := by
  induction n generalizing g l with
  | zero => exact ⟨l, rfl, .refl _⟩
  | succ n ih =>
    cases l with
    | nil => simp at hl
    | cons x l =>
      have hl' : l.length = n := by simpa using hl
      obtain ⟨y, l1, h1⟩ := swapOut_some x l (d := (scale (BitVec.ofNat 32 (n + 1)) (read g)).toNat)
        (by rw [hl']; exact scale_lt n hn _)
      have hp := swapOut_perm h1
      obtain ⟨t, h2, h3⟩ := ih (by omega) (step g) l1 (by have := hp.length_eq; simp at this; omega)
      refine ⟨y :: t, ?_, (h3.cons y).trans hp⟩
      simp only [shuffleN, unbiased_eq _ _ _ hf, Option.bind_eq_bind, Option.bind_some, h1, h2, Option.pure_def]
      rfl

/-- **A shuffle permutes**, draws once per element and always ends, whatever the generator. -/
theorem C154_permutes (read : G → U32) (step : G → G) (fuel : Nat) (hf : 0 < fuel) (g : G) (l : List α) (hl : l.length < 2 ^ 32) :
    ∃ l', shuffle read step fuel g l = some (l', step^[l.length] g) ∧ l'.Perm l :=
  shuffleN_perm read step fuel hf _ hl g l rfl

/-! ## Counting -/

/-- the outputs, `n` of them, that make a shuffle of `l` give `l'`; the generator is one that gives those outputs -/
def rolls (n : Nat) (l l' : List α) : Set (List U32) :=
  { rs | rs.length = n ∧ (shuffleN (fun rs : List U32 => rs.headD 0) List.tail 1 n rs l).map Prod.fst = some l' }

theorem ncard_draw (f : U32 → U32) (v : Nat) : Set.ncard { r : U32 | (f r).toNat = v } = drawCount f v := by
  unfold drawCount
  rw [← Set.ncard_coe_finset]
  symm
  apply Set.ncard_congr (fun r _ => BitVec.ofNat 32 r)
  · intro r hr
    simp only [Finset.coe_filter, Set.mem_ofPred_eq] at hr
    exact hr.2
  · intro a b ha hb e
    simp only [Finset.coe_filter, Finset.mem_range, Set.mem_ofPred_eq] at ha hb
    have := congrArg BitVec.toNat e
    rwa [BitVec.toNat_ofNat, BitVec.toNat_ofNat, Nat.mod_eq_of_lt ha.1, Nat.mod_eq_of_lt hb.1] at this
  · intro r hr
    refine ⟨r.toNat, ?_, by simp⟩
    simp only [Finset.coe_filter, Finset.mem_range, Set.mem_ofPred_eq]
    refine ⟨r.isLt, ?_⟩
    simpa using hr

theorem rolls_cons {x y : α} {l l1 t : List α} {n d : Nat} (hl : l.length = n) (hn : n + 1 < 2 ^ 32) (hx : (x :: l).Nodup)
    (h : swapOut x l d = some (y, l1)) :
    (rolls (n + 1) (x :: l) (y :: t)).ncard = drawCount (scale (BitVec.ofNat 32 (n + 1))) d * (rolls n l1 t).ncard := by
  rw [← ncard_draw, ← Set.ncard_prod]
  have e : rolls (n + 1) (x :: l) (y :: t) =
      (fun p : U32 × List U32 => p.1 :: p.2) '' ({ r : U32 | (scale (BitVec.ofNat 32 (n + 1)) r).toNat = d } ×ˢ rolls n l1 t) := by
    ext rs
    cases rs with
    | nil => simp [rolls]
    | cons r rs =>
      have him : (r :: rs ∈ (fun p : U32 × List U32 => p.1 :: p.2) ''
          ({ r : U32 | (scale (BitVec.ofNat 32 (n + 1)) r).toNat = d } ×ˢ rolls n l1 t)) ↔
          (scale (BitVec.ofNat 32 (n + 1)) r).toNat = d ∧ rs ∈ rolls n l1 t := by
        simp
      rw [him]
      obtain ⟨y', l', h'⟩ := swapOut_some x l (d := (scale (BitVec.ofNat 32 (n + 1)) r).toNat) (by rw [hl]; exact scale_lt n hn _)
      have hu : shuffleN (fun rs : List U32 => rs.headD 0) List.tail 1 (n + 1) (r :: rs) (x :: l) =
          (shuffleN (fun rs : List U32 => rs.headD 0) List.tail 1 n rs l').map (fun p => (y' :: p.1, p.2)) := by
        simp only [shuffleN, unbiased_eq _ _ _ Nat.one_pos, Option.bind_eq_bind, Option.bind_some, List.headD_cons, h', List.tail_cons,
          Option.pure_def]
        cases shuffleN (fun rs : List U32 => rs.headD 0) List.tail 1 n rs l' <;> rfl
      simp only [rolls, Set.mem_ofPred_eq, hu, Option.map_map, List.length_cons, Nat.add_right_cancel_iff]
      constructor
      · rintro ⟨h1, h2⟩
        rw [Option.map_eq_some_iff] at h2
        obtain ⟨p, hp, e⟩ := h2
        simp only [Function.comp_apply, List.cons.injEq] at e
        obtain ⟨rfl, rfl⟩ := e
        have hd : (scale (BitVec.ofNat 32 (n + 1)) r).toNat = d := by
          have a1 := swapOut_fst x l (scale (BitVec.ofNat 32 (n + 1)) r).toNat
          have a2 := swapOut_fst x l d
          rw [h'] at a1
          rw [h] at a2
          exact (List.getElem?_inj (by simp only [List.length_cons, hl]; exact scale_lt n hn r) hx).1 (a1.symm.trans a2)
        refine ⟨hd, h1, ?_⟩
        rw [hd, h] at h'
        simp only [Option.some.injEq, Prod.mk.injEq] at h'
        rw [h'.2, hp]
        rfl
      · rintro ⟨rfl, h1, h2⟩
        rw [h] at h'
        simp only [Option.some.injEq, Prod.mk.injEq] at h'
        refine ⟨h1, ?_⟩
        rw [Option.map_eq_some_iff] at h2 ⊢
        obtain ⟨p, hp, e⟩ := h2
        exact ⟨p, by rw [← h'.2]; exact hp, by simp [h'.1, e]⟩
  rw [e, Set.ncard_image_of_injective]
  rintro ⟨a, b⟩ ⟨c, d⟩ h
  simpa using h

theorem drawCount_bounds (n v : Nat) (hn : n + 1 < 2 ^ 32) (hv : v < n + 1) :
    2 ^ 32 / (n + 1) ≤ drawCount (scale (BitVec.ofNat 32 (n + 1))) v ∧ drawCount (scale (BitVec.ofNat 32 (n + 1))) v ≤ 2 ^ 32 / (n + 1) + 1 := by
  have e : (BitVec.ofNat 32 (n + 1)).toNat = n + 1 := by simp; omega
  rw [drawCount_scale _ v (by rw [e]; exact hv), e]
  unfold firstDraw
  have h1 : (v + 1) * 2 ^ 32 + (n + 1) - 1 = (v * 2 ^ 32 + (n + 1) - 1) + 2 ^ 32 := by omega
  rw [h1]
  generalize v * 2 ^ 32 + (n + 1) - 1 = x
  have hpos : 0 < n + 1 := by omega
  have := Nat.add_div (a := x) (b := 2 ^ 32) hpos
  rw [this]
  generalize x / (n + 1) = p
  generalize 2 ^ 32 / (n + 1) = q
  split <;> omega

theorem rolls_bounds (n : Nat) (hn : n < 2 ^ 32) (l l' : List α) (hl : l.length = n) (hd : l.Nodup) (hp : l'.Perm l) :
    ∏ k ∈ Finset.range n, (2 ^ 32 / (k + 1)) ≤ (rolls n l l').ncard ∧
    (rolls n l l').ncard ≤ ∏ k ∈ Finset.range n, (2 ^ 32 / (k + 1) + 1) := by
  induction n generalizing l l' with
  | zero =>
    have h1 : l = [] := List.length_eq_zero_iff.1 hl
    subst h1
    have h2 : l' = [] := hp.eq_nil
    subst h2
    have : rolls 0 ([] : List α) [] = {[]} := by
      ext rs
      simp [rolls, shuffleN]
    rw [this]
    simp
  | succ n ih =>
    cases l with
    | nil => simp at hl
    | cons x l =>
      cases l' with
      | nil => exact absurd hp.symm.eq_nil (by simp)
      | cons y t =>
        have hl' : l.length = n := by simpa using hl
        obtain ⟨d, hdl, hdy⟩ := List.getElem_of_mem (hp.subset (List.mem_cons_self ..))
        obtain ⟨y', l1, h⟩ := swapOut_some x l (d := d) (by simpa using hdl)
        have hy : y' = y := by
          have := swapOut_fst x l d
          rw [h, List.getElem?_eq_getElem hdl, hdy] at this
          exact Option.some.inj this
        subst hy
        have hq := swapOut_perm h
        have hd1 : l1.Nodup := ((hq.nodup_iff).2 hd).of_cons
        have ht : t.Perm l1 := (hp.trans hq.symm).cons_inv
        obtain ⟨b1, b2⟩ := ih (by omega) l1 t (by have := hq.length_eq; simp at this; omega) hd1 ht
        obtain ⟨c1, c2⟩ := drawCount_bounds n d hn (by simpa [hl'] using hdl)
        rw [rolls_cons hl' hn hd h, Finset.prod_range_succ, Finset.prod_range_succ, Nat.mul_comm (drawCount _ _)]
        exact ⟨Nat.mul_le_mul b1 c1, Nat.mul_le_mul b2 c2⟩

/-- **All arrangements are nearly equally likely.** Of the `2^(32 n)` possible outputs of a generator of independent 32-bit
numbers, between `∏ ⌊2^32 / k⌋` and `∏ (⌊2^32 / k⌋ + 1)` lead to each arrangement, `k` from 1 to the number of elements; in
particular each is possible. -/
theorem C154_nearly_uniform (l l' : List α) (hl : l.length < 2 ^ 32) (hd : l.Nodup) (hp : l'.Perm l) :
    let c := Set.ncard { rs : List U32 | rs.length = l.length ∧
      (shuffle (fun rs : List U32 => rs.headD 0) List.tail 1 rs l).map Prod.fst = some l' }
    0 < c ∧ ∏ k ∈ Finset.range l.length, (2 ^ 32 / (k + 1)) ≤ c ∧ c ≤ ∏ k ∈ Finset.range l.length, (2 ^ 32 / (k + 1) + 1) := by
  have h := rolls_bounds l.length hl l l' rfl hd hp
  refine ⟨lt_of_lt_of_le ?_ h.1, h.1, h.2⟩
  apply Finset.prod_pos
  intro k hk
  rw [Finset.mem_range] at hk
  exact Nat.div_pos (by omega) (by omega)

/-- Not exactly: of three elements, arrangements that keep the first one are more likely than others. -/
theorem C154_uniform_false : ∃ l' l'' : List Nat, l'.Perm [0, 1, 2] ∧ l''.Perm [0, 1, 2] ∧
    (rolls 3 [0, 1, 2] l'').ncard < (rolls 3 [0, 1, 2] l').ncard := by
  refine ⟨[0, 1, 2], [1, 0, 2], .refl _, List.Perm.swap _ _ _, ?_⟩
  have e1 := rolls_cons (x := 0) (y := 0) (l := [1, 2]) (l1 := [1, 2]) (t := [1, 2]) (n := 2) (d := 0) rfl (by norm_num) (by decide) rfl
  have e2 := rolls_cons (x := 0) (y := 1) (l := [1, 2]) (l1 := [0, 2]) (t := [0, 2]) (n := 2) (d := 1) rfl (by norm_num) (by decide) rfl
  have f1 := rolls_cons (x := 1) (y := 1) (l := [2]) (l1 := [2]) (t := [2]) (n := 1) (d := 0) rfl (by norm_num) (by decide) rfl
  have f2 := rolls_cons (x := 0) (y := 0) (l := [2]) (l1 := [2]) (t := [2]) (n := 1) (d := 0) rfl (by norm_num) (by decide) rfl
  have g := (rolls_bounds 1 (by norm_num) [2] [2] rfl (by decide) (.refl _)).1
  have e1' := e1.trans (congrArg _ f1)
  have e2' := e2.trans (congrArg _ f2)
  refine lt_of_eq_of_lt e2' (lt_of_lt_of_eq ?_ e1'.symm)
  rw [drawCount_scale (BitVec.ofNat 32 (2 + 1)) 0 (by decide), drawCount_scale (BitVec.ofNat 32 (2 + 1)) 1 (by decide),
    drawCount_scale (BitVec.ofNat 32 (1 + 1)) 0 (by decide)]
  have g' : 0 < (rolls 1 [2] [2]).ncard := lt_of_lt_of_le (by simp) g
  generalize (rolls 1 [2] [2]).ncard = z at g'
  have a1 : firstDraw (BitVec.ofNat 32 (2 + 1)).toNat (0 + 1) - firstDraw (BitVec.ofNat 32 (2 + 1)).toNat 0 = 1431655766 := by decide +kernel
  have a2 : firstDraw (BitVec.ofNat 32 (2 + 1)).toNat (1 + 1) - firstDraw (BitVec.ofNat 32 (2 + 1)).toNat 1 = 1431655765 := by decide +kernel
  have a3 : firstDraw (BitVec.ofNat 32 (1 + 1)).toNat (0 + 1) - firstDraw (BitVec.ofNat 32 (1 + 1)).toNat 0 = 2147483648 := by decide +kernel
  rw [a1, a2, a3]
  exact Nat.mul_lt_mul_of_pos_right (by decide) (Nat.mul_pos (by decide) g')

/-! ## Too few states -/

theorem missing [Fintype G] (read : G → U32) (step : G → G) (fuel : Nat) (l : List α)
    (hd : l.Nodup) (hc : Fintype.card G < l.length.factorial) :
    ∃ l', l'.Perm l ∧ ∀ g, (shuffle read step fuel g l).map Prod.fst ≠ some l' := by
  classical
  by_contra hno
  push Not at hno
  have hs : l.permutations.toFinset.image some ⊆ Finset.univ.image (fun g => (shuffle read step fuel g l).map Prod.fst) := by
    intro o ho
    obtain ⟨l', hl', rfl⟩ := Finset.mem_image.1 ho
    rw [List.mem_toFinset, List.mem_permutations] at hl'
    obtain ⟨g, hg⟩ := hno l' hl'
    exact Finset.mem_image.2 ⟨g, Finset.mem_univ _, hg⟩
  have h1 := Finset.card_le_card hs
  rw [Finset.card_image_of_injective _ (Option.some_injective _),
    List.toFinset_card_of_nodup (List.nodup_permutations l hd), List.length_permutations] at h1
  have h2 := Finset.card_image_le (s := (Finset.univ : Finset G)) (f := fun g => (shuffle read step fuel g l).map Prod.fst)
  rw [Finset.card_univ] at h2
  omega

theorem fact21 {n : Nat} (h : 21 ≤ n) : 2 ^ 64 < n.factorial :=
  lt_of_lt_of_le (by decide) (Nat.factorial_le h)

/-- With 21 elements or more some arrangements never come out, whatever the state of the generator: there are more than
`2^64` of them. -/
theorem C154_some_never (m : Shl) (fuel : Nat) (l : List α) (hd : l.Nodup) (hl : 21 ≤ l.length) :
    (∃ l', l'.Perm l ∧ ∀ g, (shuffle (read m) step fuel g l).map Prod.fst ≠ some l') ∧
    (∃ l', l'.Perm l ∧ ∀ g, (shuffle out64 step64 fuel g l).map Prod.fst ≠ some l') := by
  constructor
  · apply missing _ _ _ _ hd
    rw [card_bv]
    exact fact21 hl
  · apply missing _ _ _ _ hd
    rw [card_St]
    have := fact21 hl
    simpa using this

/-! ## Concrete cases -/

example : (shuffle (fun rs : List U32 => rs.headD 0) List.tail 1 [0xffffffff, 0, 5] ['a', 'b', 'c']).map Prod.fst =
    some ['c', 'b', 'a'] := by decide +kernel

example : (List.range 21).Nodup ∧ 21 ≤ (List.range 21).length := by decide

end CE.Random
