import Verif.Props.Crc
import Verif.Spec.CrcNames
import Mathlib.Tactic.IntervalCases
/-!
# The CRC as a sum over the bytes, and parity checks on it
-/
namespace CE.Crc

/-- parity of the bits of `x` selected by `y` -/
def dotL (y x : U32) (l : List Nat) : Bool := l.foldr (fun i a => ((y.getLsbD i && x.getLsbD i) ^^ a)) false

def dot (y x : U32) : Bool := dotL y x (List.range 32)

theorem dotL_xor (y a b : U32) (l : List Nat) : dotL y (a ^^^ b) l = (dotL y a l ^^ dotL y b l) := by
  induction l with
  | nil => rfl
  | cons i l ih =>
    simp only [dotL, List.foldr_cons, BitVec.getLsbD_xor] at ih ⊢
    rw [ih]
    cases y.getLsbD i <;> cases a.getLsbD i <;> cases b.getLsbD i <;> simp

theorem dot_xor (y a b : U32) : dot y (a ^^^ b) = (dot y a ^^ dot y b) := dotL_xor y a b _

/-- what the bytes contribute -/
def sumOf (P : U32) : List U8 → U32
  | [] => 0
  | b :: m => linN P (8 * (m.length + 1)) (b.zeroExtend 32) ^^^ sumOf P m

theorem serial_sum (P v : U32) (m : List U8) :
    serial P v (m.flatMap bitsOf) = linN P (8 * m.length) v ^^^ sumOf P m := by
  induction m generalizing v with
  | nil => simp [serial, linN, sumOf]
  | cons b m ih =>
    have hl : (bitsOf b).length = 8 := by simp [bitsOf]
    rw [List.flatMap_cons, serial_append, ih, serial_eq _ _ _ (by omega), hl, wordOf_bitsOf8, ← linN_add,
      linN_xor, sumOf, List.length_cons, show 8 + 8 * m.length = 8 * (m.length + 1) by omega, BitVec.xor_assoc]

/-- a linear check sees the six low bits of a name character one by one -/
theorem char_bits : ∀ b : Fin 256, NameChar (BitVec.ofFin b) → (BitVec.ofFin b : U8).zeroExtend 32 =
    (0x40 : U32) ^^^ (if b.val.testBit 0 then 1 else 0) ^^^ (if b.val.testBit 1 then 2 else 0) ^^^
      (if b.val.testBit 2 then 4 else 0) ^^^ (if b.val.testBit 3 then 8 else 0) ^^^
      (if b.val.testBit 4 then 16 else 0) ^^^ (if b.val.testBit 5 then 32 else 0) := by decide +kernel

/-- the check `y` on a byte `k + 1` places before the end -/
def at' (y : U32) (k : Nat) (x : U32) : Bool := dot y (linN crc32cPoly (8 * (k + 1)) x)

theorem at_xor (y : U32) (k : Nat) (a b : U32) : at' y k (a ^^^ b) = (at' y k a ^^ at' y k b) := by
  unfold at'; rw [linN_xor, dot_xor]

theorem at_zero (y : U32) (k : Nat) : at' y k 0 = false := by
  have := at_xor y k 0 0
  simpa using this

theorem at_if (y : U32) (k : Nat) (c : Bool) (u : U32) : at' y k (if c then u else 0) = (c && at' y k u) := by
  cases c
  · simpa using at_zero y k
  · simp

theorem at_char (y : U32) (k : Nat) (b : U8) (hb : NameChar b) : at' y k (b.zeroExtend 32) =
    (at' y k 0x40 ^^ (b.toNat.testBit 0 && at' y k 1) ^^ (b.toNat.testBit 1 && at' y k 2) ^^
      (b.toNat.testBit 2 && at' y k 4) ^^ (b.toNat.testBit 3 && at' y k 8) ^^
      (b.toNat.testBit 4 && at' y k 16) ^^ (b.toNat.testBit 5 && at' y k 32)) := by
  have := congrArg (at' y k) (char_bits b.toFin hb)
  simp only [at_xor, at_if] at this
  exact this

/-- a parity check that does not see which name characters are used -/
def BlindAt (y : U32) (k : Nat) : Prop :=
  at' y k 1 = false ∧ at' y k 2 = false ∧ at' y k 4 = false ∧ at' y k 8 = false ∧ at' y k 16 = false ∧
    at' y k 32 = false

instance (y : U32) (n : Nat) : Decidable (BlindAt y n) := by unfold BlindAt; infer_instance

theorem BlindAt.byte {y : U32} {k : Nat} (h : BlindAt y k) {b : U8} (hb : NameChar b) :
    dot y (linN crc32cPoly (8 * (k + 1)) (b.zeroExtend 32)) = dot y (linN crc32cPoly (8 * (k + 1)) 0x40) := by
  obtain ⟨h0, h1, h2, h3, h4, h5⟩ := h
  have := at_char y k b hb
  simp only [h0, h1, h2, h3, h4, h5, Bool.and_false, Bool.xor_false] at this
  exact this

def Blind (y : U32) (n : Nat) : Prop := ∀ k < n, BlindAt y k

instance (y : U32) (n : Nat) : Decidable (Blind y n) := by unfold Blind; infer_instance

theorem Blind.byte {y : U32} {n : Nat} (h : Blind y n) {k : Nat} (hk : k < n) {b : U8} (hb : NameChar b) :
    dot y (linN crc32cPoly (8 * (k + 1)) (b.zeroExtend 32)) = dot y (linN crc32cPoly (8 * (k + 1)) 0x40) :=
  (h k hk).byte hb

/-- what such a check gives on a name of `n` characters -/
def tag (y : U32) (n : Nat) : Bool :=
  dot y (serial crc32cPoly (~~~ 0) ((List.replicate n (0x40 : U8)).flatMap bitsOf))

theorem blind_sum {y : U32} {n : Nat} (h : Blind y n) (m : List U8) (hm : m.length ≤ n) (hn : ∀ b ∈ m, NameChar b) :
    dot y (sumOf crc32cPoly m) = dot y (sumOf crc32cPoly (List.replicate m.length 0x40)) := by
  induction m with
  | nil => rfl
  | cons b m ih =>
    have hm' : m.length < n := by simpa using hm
    rw [List.length_cons, List.replicate_succ, sumOf, sumOf, dot_xor, dot_xor,
      ih (by omega) fun x hx => hn x (by simp [hx]), List.length_replicate, h.byte hm' (hn b (by simp))]
    rfl

theorem blind_tag {y : U32} {n : Nat} (h : Blind y n) (m : List U8) (hm : m.length ≤ n) (hn : ∀ b ∈ m, NameChar b) :
    dot y (serial crc32cPoly (~~~ 0) (m.flatMap bitsOf)) = tag y m.length := by
  rw [tag, serial_sum, serial_sum, dot_xor, dot_xor, blind_sum h m hm hn, List.length_replicate]

theorem blindA0 : Blind 0xb6fbb420 4 := by decide +kernel
theorem blindA1 : Blind 0xc19dc980 4 := by decide +kernel
theorem blindA2 : Blind 0xcaf8c200 4 := by decide +kernel
theorem blindB0 : Blind 0x9ec19dc9 5 := by decide +kernel
theorem blindB1 : Blind 0xb4caf8c2 5 := by decide +kernel
theorem tagA0_0 : tag 0xb6fbb420 0 = true := by decide +kernel
theorem tagA0_1 : tag 0xb6fbb420 1 = false := by decide +kernel
theorem tagA0_2 : tag 0xb6fbb420 2 = true := by decide +kernel
theorem tagA0_3 : tag 0xb6fbb420 3 = true := by decide +kernel
theorem tagA0_4 : tag 0xb6fbb420 4 = false := by decide +kernel
theorem tagA1_0 : tag 0xc19dc980 0 = true := by decide +kernel
theorem tagA1_1 : tag 0xc19dc980 1 = false := by decide +kernel
theorem tagA1_2 : tag 0xc19dc980 2 = false := by decide +kernel
theorem tagA1_3 : tag 0xc19dc980 3 = false := by decide +kernel
theorem tagA1_4 : tag 0xc19dc980 4 = true := by decide +kernel
theorem tagA2_0 : tag 0xcaf8c200 0 = false := by decide +kernel
theorem tagA2_1 : tag 0xcaf8c200 1 = true := by decide +kernel
theorem tagA2_2 : tag 0xcaf8c200 2 = true := by decide +kernel
theorem tagA2_3 : tag 0xcaf8c200 3 = false := by decide +kernel
theorem tagA2_4 : tag 0xcaf8c200 4 = false := by decide +kernel
theorem tagB0_0 : tag 0x9ec19dc9 0 = true := by decide +kernel
theorem tagB0_1 : tag 0x9ec19dc9 1 = true := by decide +kernel
theorem tagB0_2 : tag 0x9ec19dc9 2 = false := by decide +kernel
theorem tagB0_3 : tag 0x9ec19dc9 3 = false := by decide +kernel
theorem tagB0_4 : tag 0x9ec19dc9 4 = false := by decide +kernel
theorem tagB0_5 : tag 0x9ec19dc9 5 = true := by decide +kernel
theorem tagB1_0 : tag 0xb4caf8c2 0 = false := by decide +kernel
theorem tagB1_1 : tag 0xb4caf8c2 1 = false := by decide +kernel
theorem tagB1_2 : tag 0xb4caf8c2 2 = true := by decide +kernel
theorem tagB1_3 : tag 0xb4caf8c2 3 = true := by decide +kernel
theorem tagB1_4 : tag 0xb4caf8c2 4 = false := by decide +kernel
theorem tagB1_5 : tag 0xb4caf8c2 5 = false := by decide +kernel
theorem tagC0_0 : tag 0xf6966909 0 = false := by decide +kernel
theorem tagC0_1 : tag 0xf6966909 1 = false := by decide +kernel
theorem tagC0_5 : tag 0xf6966909 5 = true := by decide +kernel
theorem tagC1_0 : tag 0x21c5d4b0 0 = true := by decide +kernel
theorem tagC1_1 : tag 0x21c5d4b0 1 = true := by decide +kernel
theorem tagC1_5 : tag 0x21c5d4b0 5 = false := by decide +kernel
theorem tagC2_0 : tag 0xbad80f74 0 = true := by decide +kernel
theorem tagC2_1 : tag 0xbad80f74 1 = true := by decide +kernel
theorem tagC2_5 : tag 0xbad80f74 5 = false := by decide +kernel
theorem tagC3_0 : tag 0xb2519791 0 = true := by decide +kernel
theorem tagC3_1 : tag 0xb2519791 1 = true := by decide +kernel
theorem tagC3_5 : tag 0xb2519791 5 = false := by decide +kernel

set_option linter.unusedSimpArgs false in
theorem tags4 (n k : Nat) (hn : n < 5) (hk : k < 5) (h0 : tag 0xb6fbb420 n = tag 0xb6fbb420 k)
    (h1 : tag 0xc19dc980 n = tag 0xc19dc980 k) (h2 : tag 0xcaf8c200 n = tag 0xcaf8c200 k) : n = k := by
  interval_cases n <;> interval_cases k <;> first | rfl | (exfalso; simp only [tagA0_0, tagA0_1, tagA0_2, tagA0_3, tagA0_4, tagA1_0, tagA1_1, tagA1_2, tagA1_3, tagA1_4, tagA2_0, tagA2_1, tagA2_2, tagA2_3, tagA2_4] at h0 h1 h2; revert h0 h1 h2; decide)

set_option linter.unusedSimpArgs false in
theorem tags5 (k : Nat) (hk : k < 5) (h0 : tag 0x9ec19dc9 5 = tag 0x9ec19dc9 k) (h1 : tag 0xb4caf8c2 5 = tag 0xb4caf8c2 k) : k < 2 := by
  interval_cases k <;> first | decide | (exfalso; simp only [tagB0_0, tagB0_1, tagB0_2, tagB0_3, tagB0_4, tagB0_5, tagB1_0, tagB1_1, tagB1_2, tagB1_3, tagB1_4, tagB1_5] at h0 h1; revert h0 h1; decide)

/-- a check that sees one bit of the fourth of five characters only -/
def Reads (y : U32) (j : Nat) : Prop := BlindAt y 0 ∧ BlindAt y 2 ∧ BlindAt y 3 ∧ BlindAt y 4 ∧
  at' y 1 1 = (j == 0) ∧ at' y 1 2 = (j == 1) ∧ at' y 1 4 = (j == 2) ∧ at' y 1 8 = (j == 3) ∧
    at' y 1 16 = (j == 4) ∧ at' y 1 32 = (j == 5)

instance (y : U32) (j : Nat) : Decidable (Reads y j) := by unfold Reads; infer_instance

theorem reads0 : Reads 0xf6966909 2 := by decide +kernel
theorem reads1 : Reads 0x21c5d4b0 3 := by decide +kernel
theorem reads2 : Reads 0xbad80f74 4 := by decide +kernel
theorem reads3 : Reads 0xb2519791 5 := by decide +kernel

theorem reads_five {y : U32} {j : Nat} (hj : 2 ≤ j ∧ j < 6) (h : Reads y j) (a b c d e : U8) (hn : ∀ x ∈ [a, b, c, d, e], NameChar x) :
    dot y (serial crc32cPoly (~~~ 0) ([a, b, c, d, e].flatMap bitsOf)) = (tag y 5 ^^ d.toNat.testBit j) := by
  obtain ⟨b0, b2, b3, b4, u0, u1, u2, u3, u4, u5⟩ := h
  have ha := b4.byte (hn a (by simp))
  have hb := b3.byte (hn b (by simp))
  have hc := b2.byte (hn c (by simp))
  have he := b0.byte (hn e (by simp))
  have hd : dot y (linN crc32cPoly 16 (d.zeroExtend 32)) = (dot y (linN crc32cPoly 16 0x40) ^^ d.toNat.testBit j) := by
    have := at_char y 1 d (hn d (by simp))
    rw [u0, u1, u2, u3, u4, u5] at this
    refine Eq.trans this ?_
    have e : at' y 1 0x40 = dot y (linN crc32cPoly 16 0x40) := rfl
    rw [e]
    obtain ⟨j0, j1⟩ := hj
    interval_cases j <;> simp
  rw [tag, serial_sum, serial_sum]
  simp only [List.replicate, sumOf, List.length_cons, List.length_nil, dot_xor] at ha hb hc he ⊢
  simp only [Nat.reduceAdd, Nat.reduceMul] at ha hb hc he ⊢
  rw [ha, hb, hc, he, hd]
  have e40 : BitVec.zeroExtend 32 (0x40 : U8) = (0x40 : U32) := by decide
  rw [e40]
  generalize dot y (linN crc32cPoly 40 (~~~ 0)) = x0
  generalize dot y (linN crc32cPoly 40 0x40) = x1
  generalize dot y (linN crc32cPoly 32 0x40) = x2
  generalize dot y (linN crc32cPoly 24 0x40) = x3
  generalize dot y (linN crc32cPoly 16 0x40) = x4
  generalize dot y (linN crc32cPoly 8 0x40) = x5
  generalize d.toNat.testBit j = x6
  generalize dot y 0 = x7
  cases x6 <;> simp

theorem reads_short {y : U32} {j : Nat} (h : Reads y j) (m : List U8) (hm : m.length < 2) (hn : ∀ x ∈ m, NameChar x) :
    dot y (serial crc32cPoly (~~~ 0) (m.flatMap bitsOf)) = tag y m.length := by
  have : Blind y 1 := fun k hk => by
    have : k = 0 := by omega
    subst this; exact h.1
  exact blind_tag this m (by omega) hn

theorem none_left : ∀ d : Fin 256, NameChar (BitVec.ofFin d) →
    ¬ (d.val.testBit 2 = true ∧ d.val.testBit 3 = true ∧ d.val.testBit 4 = true ∧ d.val.testBit 5 = true) := by
  decide +kernel

/-- four bytes are one word -/
theorem four_word (a b c d : U8) : ∃ w : U32, bytes32 w = [a, b, c, d] := by
  refine ⟨d ++ c ++ b ++ a, ?_⟩
  simp only [bytes32, List.cons.injEq, and_true]
  refine ⟨?_, ?_, ?_, ?_⟩ <;>
  · apply BitVec.eq_of_getLsbD_eq
    intro i hi
    simp only [BitVec.getLsbD_extractLsb', BitVec.getLsbD_append, hi, decide_true, Bool.true_and]
    first
      | (simp [hi]; done)
      | (simp [show 8 + i - 8 = i by omega, hi]; done)
      | (simp [show 16 + i - 8 - 8 = i by omega, show ¬ 16 + i < 8 by omega, show ¬ 16 + i - 8 < 8 by omega, hi]; done)
      | (simp [show 24 + i - 8 - 8 - 8 = i by omega, show ¬ 24 + i < 8 by omega, show ¬ 24 + i - 8 < 8 by omega,
          show ¬ 24 + i - 8 - 8 < 8 by omega, hi]; done)

/-- the upper bits agree, byte by byte -/
theorem mask_word (x : U32) (k : U8) (h : ∀ b ∈ bytes32 x, b &&& k = 0) : x &&& (k ++ k ++ k ++ k : U32) = 0 := by
  simp only [bytes32, List.mem_cons, List.not_mem_nil, or_false, forall_eq_or_imp, forall_eq] at h
  obtain ⟨h0, h1, h2, h3⟩ := h
  have g : ∀ (b : U8) (i : Nat), b &&& k = 0 → (b.getLsbD i && k.getLsbD i) = false := by
    intro b i hb
    have := congrArg (fun z => z.getLsbD i) hb
    simpa using this
  apply BitVec.eq_of_getLsbD_eq
  intro i hi
  rw [BitVec.getLsbD_and]
  have g0 := fun i => g _ i h0
  have g1 := fun i => g _ i h1
  have g2 := fun i => g _ i h2
  have g3 := fun i => g _ i h3
  simp only [BitVec.getLsbD_extractLsb'] at g0 g1 g2 g3
  have hz : (0#32).getLsbD i = false := by simp
  simp only [BitVec.getLsbD_append]
  by_cases c0 : i < 8
  · have := g0 i
    simpa [c0] using this
  by_cases c1 : i < 16
  · have := g1 (i - 8)
    simpa [c0, show i - 8 < 8 by omega, show 8 + (i - 8) = i by omega] using this
  by_cases c2 : i < 24
  · have := g2 (i - 16)
    simpa [c0, show ¬ i - 8 < 8 by omega, show i - 8 - 8 = i - 16 by omega, show i - 16 < 8 by omega,
      show 16 + (i - 16) = i by omega] using this
  · have := g3 (i - 24)
    simpa [c0, show ¬ i - 8 < 8 by omega, show i - 8 - 8 = i - 16 by omega, show ¬ i - 16 < 8 by omega,
      show i - 16 - 8 = i - 24 by omega, show i - 24 < 8 by omega, show 24 + (i - 24) = i by omega] using this

end CE.Crc
