import Verif.Model.Crc
import Verif.Spec.Crc
import Mathlib.Tactic.Ring
namespace CE.Crc

/-- the linear shift register step without input -/
def lin (P x : U32) : U32 := x >>> 1 ^^^ (if x.getLsbD 0 then P else 0)

theorem crc_eq_lin (P i : U32) : crc P i = lin P i := by
  unfold crc lin
  have h1 : i / (2 : U32) = i >>> 1 := by
    apply BitVec.eq_of_toNat_eq
    simp [Nat.shiftRight_eq_div_pow]
  have h2 : i % (2 : U32) * P = if i.getLsbD 0 then P else 0 := by
    have hb : i.getLsbD 0 = decide (i.toNat % 2 = 1) := by
      simp [BitVec.getLsbD, Nat.testBit_zero]
    have hm : (i % 2).toNat = i.toNat % 2 := by simp
    rcases Nat.mod_two_eq_zero_or_one i.toNat with h | h
    · have : i % 2 = 0 := BitVec.eq_of_toNat_eq (by rw [hm, h]; rfl)
      rw [this, hb, h]; simp
    · have : i % 2 = 1 := BitVec.eq_of_toNat_eq (by rw [hm, h]; rfl)
      rw [this, hb, h]; simp
  rw [h1, h2]

theorem lin_xor (P a b : U32) : lin P (a ^^^ b) = lin P a ^^^ lin P b := by
  unfold lin
  rw [BitVec.ushiftRight_xor_distrib, BitVec.getLsbD_xor]
  cases a.getLsbD 0 <;> cases b.getLsbD 0 <;> simp
  · ac_rfl
  · ac_rfl
  · rw [show a >>> 1 ^^^ P ^^^ (b >>> 1 ^^^ P) = a >>> 1 ^^^ b >>> 1 ^^^ (P ^^^ P) by ac_rfl]
    simp

/-- `k` steps without input -/
def linN (P : U32) : Nat → U32 → U32
  | 0, x => x
  | k + 1, x => linN P k (lin P x)

theorem linN_xor (P : U32) (k : Nat) (a b : U32) :
    linN P k (a ^^^ b) = linN P k a ^^^ linN P k b := by
  induction k generalizing a b with
  | zero => rfl
  | succ k ih => simp only [linN, lin_xor, ih]

theorem linN_add (P : U32) (j k : Nat) (x : U32) : linN P (j + k) x = linN P k (linN P j x) := by
  induction j generalizing x with
  | zero => simp [linN]
  | succ j ih => rw [Nat.succ_add]; simp only [linN, ih]

theorem linN_zero (P : U32) (k : Nat) : linN P k 0 = 0 := by
  have := linN_xor P k 0 0
  simpa using this

theorem x8_eq (P i : U32) : x8 P i = linN P 8 i := by
  simp only [x8, crc_eq_lin, linN]

/-- shifting in zeros from below undoes shifting left -/
theorem lin_shl (P x : U32) (h : x.getLsbD 31 = false) : lin P (x <<< 1) = x := by
  unfold lin
  have : (x <<< 1).getLsbD 0 = false := by simp
  rw [this]
  simp only [Bool.false_eq_true, if_false]
  apply BitVec.eq_of_getLsbD_eq
  intro i hi
  simp
  rintro hx
  by_contra hc
  have : i = 31 := by omega
  subst this; rw [h] at hx; exact absurd hx (by simp)

theorem linN_shl (P x : U32) (k : Nat) (h : ∀ i, 32 ≤ i + k → x.getLsbD i = false) :
    linN P k (x <<< k) = x := by
  induction k generalizing x with
  | zero => simp [linN]
  | succ k ih =>
    have e : x <<< (k + 1) = (x <<< k) <<< 1 := by rw [BitVec.shiftLeft_add]
    rw [linN, e, lin_shl, ih _ (fun i hi => h i (by omega))]
    rw [BitVec.getLsbD_shiftLeft]
    by_cases hk : 31 < k
    · simp [hk]
    · rw [h (31 - k) (by omega)]; simp

theorem split256 (v : U32) : v = (v / 256) <<< 8 ^^^ v % 256 := by
  have h1 : v / (256 : U32) = v >>> 8 := by
    apply BitVec.eq_of_toNat_eq; simp [Nat.shiftRight_eq_div_pow]
  have h2 : ∀ i, (v % 256).getLsbD i = (decide (i < 8) && v.getLsbD i) := by
    intro i
    have hm : (v % 256).toNat = v.toNat % 2 ^ 8 := by simp
    rw [BitVec.getLsbD, hm, Nat.testBit_mod_two_pow]; rfl
  apply BitVec.eq_of_getLsbD_eq
  intro i hi
  rw [BitVec.getLsbD_xor, h1, h2, BitVec.getLsbD_shiftLeft, BitVec.getLsbD_ushiftRight]
  by_cases h8 : i < 8
  · simp [h8]
  · simp [h8, hi, show 8 + (i - 8) = i by omega]

theorem div256_high (v : U32) (i : Nat) (h : 24 ≤ i) : (v / 256).getLsbD i = false := by
  have h1 : v / (256 : U32) = v >>> 8 := by
    apply BitVec.eq_of_toNat_eq; simp [Nat.shiftRight_eq_div_pow]
  rw [h1, BitVec.getLsbD_ushiftRight]
  exact BitVec.getLsbD_of_ge _ _ (by omega)

theorem linN8 (P v : U32) : linN P 8 v = v / 256 ^^^ linN P 8 (v % 256) := by
  conv => lhs; rw [split256 v]
  rw [linN_xor, linN_shl]
  intro i hi; exact div256_high v i (by omega)

theorem table_eq (P : U32) (N : Nat) (i : U32) : table P N i = linN P (8 * (N + 1)) i := by
  induction N with
  | zero => simp only [table, x8_eq]
  | succ N ih =>
    rw [table, ih, x8_eq, ← linN8, show 8 * (N + 1 + 1) = 8 * (N + 1) + 8 by omega, linN_add]

/-- word with the given bits, first bit least significant -/
def wordOf : List Bool → U32
  | [] => 0
  | b :: bs => (wordOf bs) <<< 1 ^^^ (if b then 1 else 0)

theorem wordOf_getLsbD (bs : List Bool) (i : Nat) :
    (wordOf bs).getLsbD i = (decide (i < 32) && bs.getD i false) := by
  induction bs generalizing i with
  | nil => simp [wordOf]
  | cons b bs ih =>
    rw [wordOf, BitVec.getLsbD_xor, BitVec.getLsbD_shiftLeft]
    cases i with
    | zero => cases b <;> simp
    | succ i =>
      rw [show i + 1 - 1 = i by omega, ih i]
      by_cases h : i < 31
      · have h2 : i + 1 < 32 := by omega
        have h3 : i < 32 := by omega
        cases b <;> simp [h2, h3]
      · have h2 : ¬ i + 1 < 32 := by omega
        cases b <;> simp [h2]

theorem lin_one (P v : U32) (b : Bool) : lin P (v ^^^ (if b then 1 else 0)) = serialStep P v b := by
  have e : (v ^^^ (if b then (1 : U32) else 0)) >>> 1 = v >>> 1 := by
    rw [BitVec.ushiftRight_xor_distrib]; cases b <;> simp
  have e0 : (v ^^^ (if b then (1 : U32) else 0)).getLsbD 0 = (v.getLsbD 0 ^^ b) := by
    rw [BitVec.getLsbD_xor]; cases b <;> simp
  unfold lin serialStep
  rw [e, e0]
  split <;> simp

/-- feeding up to 32 bits serially is xor-ing them in and shifting -/
theorem serial_eq (P v : U32) (bs : List Bool) (h : bs.length ≤ 32) :
    serial P v bs = linN P bs.length (v ^^^ wordOf bs) := by
  induction bs generalizing v with
  | nil => simp [serial, linN, wordOf]
  | cons b bs ih =>
    have hl : bs.length ≤ 31 := by simpa using h
    have e : serial P v (b :: bs) = serial P (serialStep P v b) bs := rfl
    rw [e, ih _ (by omega), List.length_cons, linN, wordOf]
    have e2 : v ^^^ (wordOf bs <<< 1 ^^^ if b = true then (1 : U32) else 0)
      = (v ^^^ if b = true then (1 : U32) else 0) ^^^ wordOf bs <<< 1 := by ac_rfl
    rw [e2]
    rw [lin_xor, lin_one, lin_shl]
    rw [wordOf_getLsbD]
    simp [List.getElem?_eq_none (show bs.length ≤ 31 from hl)]

theorem wordOf_bitsOf8 (b : U8) : wordOf (bitsOf b) = b.zeroExtend 32 := by
  apply BitVec.eq_of_getLsbD_eq
  intro i hi
  rw [wordOf_getLsbD]
  simp [bitsOf, hi]
  by_cases h8 : i < 8
  · simp [h8]
  · simp [h8]; exact BitVec.getLsbD_of_ge _ _ (by omega)

theorem mod256_getLsbD (v : U32) (i : Nat) :
    (v % 256).getLsbD i = (decide (i < 8) && v.getLsbD i) := by
  have hm : (v % 256).toNat = v.toNat % 2 ^ 8 := by simp
  rw [BitVec.getLsbD, hm, Nat.testBit_mod_two_pow]; rfl

theorem mod256_lt (v : U32) : (v % 256).toNat < 256 := by simp; omega

theorem idx_lt (v : U32) (b : U8) : (v % 256 ^^^ b.zeroExtend 32).toNat < 256 := by
  rw [BitVec.toNat_xor]
  apply Nat.xor_lt_two_pow (n := 8)
  · exact mod256_lt v
  · have := b.isLt
    simp; omega

theorem stepByte_eq (P v : U32) (b : U8) : stepByte P v b = some (serial P v (bitsOf b)) := by
  have hl : (bitsOf b).length = 8 := by simp [bitsOf]
  rw [serial_eq P v _ (by omega), hl, wordOf_bitsOf8]
  simp only [stepByte, tableAt, if_pos (idx_lt v b), table_eq, Option.bind_eq_bind,
    Option.bind_some, Option.pure_def, Option.some.injEq]
  rw [linN_xor, linN_xor, linN8 P v]
  ac_rfl

theorem serial_append (P v : U32) (a b : List Bool) :
    serial P v (a ++ b) = serial P (serial P v a) b := by simp [serial]

theorem foldBytes_eq (P v : U32) (p : List U8) :
    p.foldlM (stepByte P) v = some (serial P v (p.flatMap bitsOf)) := by
  induction p generalizing v with
  | nil => rfl
  | cons b p ih =>
    rw [List.foldlM_cons, stepByte_eq, List.flatMap_cons, serial_append]
    exact ih _

/-- `k` bits of `x` from position `s` -/
def bitsFrom {w : Nat} (x : BitVec w) (s k : Nat) : List Bool :=
  (List.range k).map fun i => x.getLsbD (s + i)

theorem bitsFrom_append {w : Nat} (x : BitVec w) (s j k : Nat) :
    bitsFrom x s j ++ bitsFrom x (s + j) k = bitsFrom x s (j + k) := by
  simp only [bitsFrom, List.range_add, List.map_append, List.map_map]
  congr 1
  apply List.map_congr_left
  intro i _
  simp [Nat.add_assoc]

theorem bitsOf_extract {w : Nat} (x : BitVec w) (s k : Nat) :
    bitsOf (x.extractLsb' s k) = bitsFrom x s k := by
  simp only [bitsOf, bitsFrom]
  apply List.map_congr_left
  intro i hi
  simp only [List.mem_range] at hi
  simp [hi]

theorem bitsOf_eq {w : Nat} (x : BitVec w) : bitsOf x = bitsFrom x 0 w := by
  simp only [bitsOf, bitsFrom]
  apply List.map_congr_left
  intro i _
  simp

theorem bytes_bits32 (x : U32) : (bytes32 x).flatMap bitsOf = bitsOf x := by
  simp only [bytes32, List.flatMap_cons, List.flatMap_nil, List.append_nil, bitsOf_extract]
  rw [bitsFrom_append x 16 8 8, bitsFrom_append x 8 8, bitsFrom_append x 0 8, bitsOf_eq]

theorem bytes_bits64 (x : U64) : (bytes64 x).flatMap bitsOf = bitsOf x := by
  simp only [bytes64, List.flatMap_cons, List.flatMap_nil, List.append_nil, bitsOf_extract]
  rw [bitsFrom_append x 48 8 8, bitsFrom_append x 40 8, bitsFrom_append x 32 8,
    bitsFrom_append x 24 8, bitsFrom_append x 16 8, bitsFrom_append x 8 8,
    bitsFrom_append x 0 8, bitsOf_eq]

theorem wordOf_bitsFrom {w : Nat} (x : BitVec w) (s k : Nat) (i : Nat) (hi : i < 32) :
    (wordOf (bitsFrom x s k)).getLsbD i = (decide (i < k) && x.getLsbD (s + i)) := by
  rw [wordOf_getLsbD]
  by_cases h : i < k <;> simp [bitsFrom, hi, h]

theorem wordOf_bitsOf32 (x : U32) : wordOf (bitsOf x) = x := by
  apply BitVec.eq_of_getLsbD_eq
  intro i hi
  rw [bitsOf_eq, wordOf_bitsFrom _ _ _ _ hi]; simp [hi]

theorem div_lt (v : U32) : (v / 16777216).toNat < 256 := by
  have := v.isLt
  simp; omega

theorem linN_slice (P : U32) (k : Nat) (v : U32) :
    linN P (8 + k) v = linN P k (v / 256) ^^^ linN P (8 + k) (v % 256) := by
  rw [linN_add, linN8, linN_xor, linN_add]

/-- four-byte slicing -/
theorem linN32 (P v : U32) : linN P 32 v =
    linN P 8 (v / 16777216) ^^^ linN P 16 (v / 65536 % 256) ^^^
    linN P 24 (v / 256 % 256) ^^^ linN P 32 (v % 256) := by
  have d2 : v / 256 / 256 = v / 65536 := by
    apply BitVec.eq_of_toNat_eq; simp [Nat.div_div_eq_div_mul]
  have d3 : v / 65536 / 256 = v / 16777216 := by
    apply BitVec.eq_of_toNat_eq; simp [Nat.div_div_eq_div_mul]
  have e1 : linN P 32 v = linN P 24 (v / 256) ^^^ linN P 32 (v % 256) := linN_slice P 24 v
  have e2 : linN P 24 (v / 256) = linN P 16 (v / 65536) ^^^ linN P 24 (v / 256 % 256) := by
    rw [← d2]; exact linN_slice P 16 (v / 256)
  have e3 : linN P 16 (v / 65536) = linN P 8 (v / 16777216) ^^^ linN P 16 (v / 65536 % 256) := by
    rw [← d3]; exact linN_slice P 8 (v / 65536)
  rw [e1, e2, e3]

theorem stepWord_eq (P v p : U32) : stepWord P v p = some (serial P v (bitsOf p)) := by
  have hl : (bitsOf p).length = 32 := by simp [bitsOf]
  rw [serial_eq P v _ (by omega), hl, wordOf_bitsOf32]
  simp only [stepWord, tableAt, if_pos (div_lt _), if_pos (mod256_lt _), table_eq,
    Option.bind_eq_bind, Option.bind_some, Option.pure_def, Option.some.injEq]
  exact (linN32 P (v ^^^ p)).symm

theorem foldWords_eq (P v : U32) (p : List U32) :
    p.foldlM (stepWord P) v = some (serial P v (p.flatMap bitsOf)) := by
  induction p generalizing v with
  | nil => rfl
  | cons b p ih =>
    rw [List.foldlM_cons, stepWord_eq, List.flatMap_cons, serial_append]
    exact ih _

theorem stepLong_eq (P v : U32) (q : U64) : stepLong P v q = some (serial P v (bitsOf q)) := by
  have hs : bitsOf q = bitsOf (q.truncate 32 : U32) ++ bitsOf ((q >>> 32).truncate 32 : U32) := by
    have h1 : bitsOf (q.truncate 32 : U32) = bitsFrom q 0 32 := by
      simp only [bitsOf, bitsFrom]
      apply List.map_congr_left
      intro i hi
      simp only [List.mem_range] at hi
      simp [hi]
    have h2 : bitsOf ((q >>> 32).truncate 32 : U32) = bitsFrom q 32 32 := by
      simp only [bitsOf, bitsFrom]
      apply List.map_congr_left
      intro i hi
      simp only [List.mem_range] at hi
      simp [hi]
    rw [h1, h2, bitsFrom_append q 0 32 32, bitsOf_eq]
  have hl : ∀ x : U32, (bitsOf x).length = 32 := by simp [bitsOf]
  rw [hs, serial_append, serial_eq P v _ (by rw [hl]), serial_eq _ _ _ (by rw [hl]), hl, hl,
    wordOf_bitsOf32, wordOf_bitsOf32, linN_xor, ← linN_add]
  simp only [stepLong, tableAt, if_pos (div_lt _), if_pos (mod256_lt _), table_eq,
    Option.bind_eq_bind, Option.bind_some, Option.pure_def, Option.some.injEq]
  generalize v ^^^ (q.truncate 32 : U32) = a
  generalize ((q >>> 32).truncate 32 : U32) = w
  have ha : linN P (32 + 32) a = linN P 40 (a / 16777216) ^^^ linN P 48 (a / 65536 % 256) ^^^
      linN P 56 (a / 256 % 256) ^^^ linN P 64 (a % 256) := by
    rw [linN_add, linN32 P a]
    simp only [linN_xor, ← linN_add]
  rw [ha, linN32 P w]
  ac_rfl

theorem foldLongs_eq (P v : U32) (p : List U64) :
    p.foldlM (stepLong P) v = some (serial P v (p.flatMap bitsOf)) := by
  induction p generalizing v with
  | nil => rfl
  | cons b p ih =>
    rw [List.foldlM_cons, stepLong_eq, List.flatMap_cons, serial_append]
    exact ih _

/-! ### linearity and injectivity of the register -/

theorem lin_inj (P : U32) (hP : P.getLsbD 31 = true) (a b : U32) (h : lin P a = lin P b) : a = b := by
  have h0 : lin P (a ^^^ b) = 0 := by rw [lin_xor, h, BitVec.xor_self]; rfl
  have hz : ∀ x, lin P x = 0 → x = 0 := by
    intro x hx
    unfold lin at hx
    by_cases hb : x.getLsbD 0
    · rw [if_pos hb] at hx
      have := congrArg (fun y => y.getLsbD 31) hx
      simp only [BitVec.getLsbD_xor, BitVec.getLsbD_ushiftRight, hP] at this
      rw [BitVec.getLsbD_of_ge x (1 + 31) (by omega)] at this
      simp at this
    · rw [if_neg hb] at hx
      apply BitVec.eq_of_getLsbD_eq
      intro i hi
      cases i with
      | zero => simpa using hb
      | succ i =>
        have := congrArg (fun y => y.getLsbD i) hx
        simp only [BitVec.getLsbD_xor, BitVec.getLsbD_ushiftRight] at this
        rw [Nat.add_comm 1 i] at this
        simpa using this
  have := hz _ h0
  exact BitVec.xor_eq_zero_iff.mp this

theorem linN_inj (P : U32) (hP : P.getLsbD 31 = true) (k : Nat) (a b : U32)
    (h : linN P k a = linN P k b) : a = b := by
  induction k generalizing a b with
  | zero => exact h
  | succ k ih => exact lin_inj P hP a b (ih _ _ h)

theorem serialStep_eq (P v : U32) (b : Bool) :
    serialStep P v b = lin P (v ^^^ (if b then 1 else 0)) := (lin_one P v b).symm

theorem serial_inj (P : U32) (hP : P.getLsbD 31 = true) (v w : U32) (bs : List Bool)
    (h : serial P v bs = serial P w bs) : v = w := by
  induction bs generalizing v w with
  | nil => exact h
  | cons b bs ih =>
    have := ih _ _ h
    rw [serialStep_eq, serialStep_eq] at this
    have := lin_inj P hP _ _ this
    exact BitVec.xor_left_inj _ |>.mp this

end CE.Crc
