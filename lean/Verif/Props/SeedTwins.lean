import Verif.Props.Random
import Verif.Proof.Equidistribution
/-!
# C148: what numbers of one generator tell about others
-/
namespace CE.Random
open CE.Crc (U8 U32 U64)

/-! ### pcg32_64: seeds that differ in the highest bit -/

/-- the other value of the highest bit -/
def twin (g : U64) : U64 := g + 0x8000000000000000

theorem twin_toNat (g : U64) : (twin g).toNat = (2 ^ 63 + g.toNat) % 2 ^ 64 := by
  unfold twin
  rw [BitVec.toNat_add, Nat.add_comm]
  rfl

theorem twin_bit (g : U64) (i : Nat) : (twin g).getLsbD i = (g.getLsbD i ^^ decide (i = 63)) := by
  by_cases hi : i < 64
  swap
  · rw [BitVec.getLsbD_of_ge _ _ (by omega), BitVec.getLsbD_of_ge _ _ (by omega), decide_eq_false (by omega)]; rfl
  unfold BitVec.getLsbD
  rw [twin_toNat, Nat.testBit_mod_two_pow, decide_eq_true hi, Bool.true_and]
  by_cases h : i = 63
  · subst h
    rw [Nat.testBit_two_pow_add_eq]; simp
  · rw [Nat.testBit_two_pow_add_gt (by omega)]; simp [h]

theorem twin_step (g : U64) : step (twin g) = twin (step g) := by
  unfold twin step
  have : (0x5851f42d4c957f2d : U64) * 0x8000000000000000 = 0x8000000000000000 := by decide
  rw [BitVec.mul_add, this, BitVec.add_assoc, BitVec.add_comm 0x8000000000000000, ← BitVec.add_assoc]

theorem twin_steps (g : U64) (k : Nat) : step^[k] (twin g) = twin (step^[k] g) := by
  induction k with
  | zero => rfl
  | succ k ih => rw [Function.iterate_succ_apply', ih, twin_step, Function.iterate_succ_apply']

theorem twin_add (c s : U64) : c + twin s = twin (c + s) := by
  unfold twin
  rw [BitVec.add_assoc]

theorem twin_seed (s : U64) : seedPcg (twin s) = twin (seedPcg s) := by
  unfold seedPcg
  rw [twin_add, twin_step]

theorem rotR_bit (x : U32) (r i : Nat) (hr : r < 32) (hi : i < 32) : (x.rotateRight r).getLsbD i = x.getLsbD ((i + r) % 32) := by
  have hm := Nat.mod_eq_of_lt hr
  rw [BitVec.getLsbD_eq_getElem hi, BitVec.getElem_rotateRight]
  split
  · rw [← BitVec.getLsbD_eq_getElem]; congr 1; omega
  · rw [← BitVec.getLsbD_eq_getElem]; congr 1; omega

theorem rotL_bit (x : U32) (i : Nat) (hi : i < 32) : (x.rotateLeft 16).getLsbD i = x.getLsbD ((i + 16) % 32) := by
  rw [BitVec.getLsbD_eq_getElem hi, BitVec.getElem_rotateLeft]
  split
  · rw [← BitVec.getLsbD_eq_getElem]; congr 1; omega
  · rw [← BitVec.getLsbD_eq_getElem]; congr 1; omega

/-- the bits before the rotation -/
theorem shifted_bit (q : U64) (i : Nat) (hi : i < 32) : ((((q >>> 18) ^^^ q) >>> 27).truncate 32 : U32).getLsbD i =
    (q.getLsbD (i + 45) ^^ q.getLsbD (i + 27)) := by
  rw [BitVec.truncate_eq_setWidth, BitVec.getLsbD_setWidth, BitVec.getLsbD_ushiftRight, BitVec.getLsbD_xor, BitVec.getLsbD_ushiftRight,
    decide_eq_true hi, Bool.true_and, Nat.add_comm 27 i, ← Nat.add_assoc, Nat.add_comm 18 i, Nat.add_right_comm]

theorem twin_output (q : U64) : ∃ i, i < 32 ∧ refPcgOutput (twin q) = (refPcgOutput q).rotateLeft 16 ^^^ BitVec.twoPow 32 i := by
  have hr : (q >>> 59).toNat < 32 := by
    have := q.isLt
    rw [BitVec.toNat_ushiftRight, Nat.shiftRight_eq_div_pow]; omega
  have hr' : (twin q >>> 59).toNat = ((q >>> 59).toNat + 16) % 32 := by
    have := q.isLt
    rw [BitVec.toNat_ushiftRight, Nat.shiftRight_eq_div_pow, BitVec.toNat_ushiftRight, Nat.shiftRight_eq_div_pow, twin_toNat]
    omega
  unfold refPcgOutput
  dsimp only
  rw [hr']
  generalize (q >>> 59).toNat = r at hr
  refine ⟨(34 - r) % 32, by omega, ?_⟩
  apply BitVec.eq_of_getLsbD_eq
  intro i hi
  have e : ((i + 16) % 32 + r) % 32 = (i + (r + 16) % 32) % 32 := by omega
  rw [rotR_bit _ _ _ (by omega) hi, BitVec.getLsbD_xor, rotL_bit _ _ hi, rotR_bit _ _ _ hr (by omega), e]
  have hj : (i + (r + 16) % 32) % 32 = 18 ↔ i = (34 - r) % 32 := by omega
  have hk : (i + (r + 16) % 32) % 32 < 32 := by omega
  generalize (i + (r + 16) % 32) % 32 = j at hj hk
  rw [shifted_bit _ _ hk, shifted_bit _ _ hk, twin_bit, twin_bit, BitVec.getLsbD_twoPow,
    decide_eq_true (show (34 - r) % 32 < 32 by omega), Bool.true_and]
  have e1 : decide (j + 27 = 63) = false := decide_eq_false (by omega)
  have e2 : decide (j + 45 = 63) = decide ((34 - r) % 32 = i) := by
    rw [decide_eq_decide]; omega
  rw [e1, e2, Bool.xor_false]
  generalize q.getLsbD (j + 45) = x
  generalize q.getLsbD (j + 27) = y
  generalize decide ((34 - r) % 32 = i) = z
  cases x <;> cases y <;> cases z <;> rfl

/-- C148.  **Seeds of pcg32_64 that differ by `2^63` give the same numbers**, call by call, apart from a rotation by 16 and one
bit: whoever knows the numbers of one generator knows those of the other up to 32 possibilities. -/
theorem C148_twins (m : Shl) (hm : ∀ b, m b = 0 ∨ m b = b) (s : U64) (k : Nat) :
    ∃ i, i < 32 ∧ read m (step^[k] (seedPcg (s + 0x8000000000000000))) =
      (read m (step^[k] (seedPcg s))).rotateLeft 16 ^^^ BitVec.twoPow 32 i := by
  change ∃ i, i < 32 ∧ read m (step^[k] (seedPcg (twin s))) = _
  rw [C17_read_is_rotation m hm, C17_read_is_rotation m hm, twin_seed, twin_steps]
  exact twin_output _

/-! ### xoroshiro64ss: two numbers give it away -/

/-- C148.  Two generators xoroshiro64ss that give the same two numbers in a row are the same from then on (and were before). -/
theorem C148_determined (g h : St 32) (h1 : (next64ss g).1 = (next64ss h).1)
    (h2 : (next64ss (next64ss g).2).1 = (next64ss (next64ss h).2).1) : g = h :=
  pair_inj g h h1 h2

/-- the state after two numbers `x`, `y` -/
def predict (x y : U32) : St 32 :=
  let a := (x * 3435973837).rotateRight 5 * 3195233139
  let a' := (y * 3435973837).rotateRight 5 * 3195233139
  let d := a' ^^^ a.rotateLeft 26
  let b := d ^^^ (d <<< 9) ^^^ (d <<< 18) ^^^ (d <<< 27)
  let c := b.rotateLeft 13 ^^^ a'
  { a := a'.rotateLeft 26 ^^^ c ^^^ (c <<< 9), b := c.rotateLeft 13 }

theorem unshift (b : U32) : (b ^^^ (b <<< 9)) ^^^ ((b ^^^ (b <<< 9)) <<< 9) ^^^ ((b ^^^ (b <<< 9)) <<< 18) ^^^ ((b ^^^ (b <<< 9)) <<< 27) = b := by
  rw [BitVec.shiftLeft_xor_distrib, BitVec.shiftLeft_xor_distrib, BitVec.shiftLeft_xor_distrib, ← BitVec.shiftLeft_add, ← BitVec.shiftLeft_add,
    ← BitVec.shiftLeft_add]
  have z : b <<< (9 + 27) = 0#32 := by
    apply BitVec.eq_of_getLsbD_eq
    intro i hi
    rw [BitVec.getLsbD_shiftLeft, decide_eq_true (show i < 9 + 27 by omega)]
    simp
  rw [z, show 9 + 9 = 18 by rfl, show 9 + 18 = 27 by rfl, BitVec.xor_zero]
  generalize b <<< 9 = x
  generalize b <<< 18 = y
  generalize b <<< 27 = w
  apply BitVec.eq_of_getLsbD_eq
  intro i _
  simp only [BitVec.getLsbD_xor]
  cases b.getLsbD i <;> cases x.getLsbD i <;> cases y.getLsbD i <;> cases w.getLsbD i <;> rfl

/-- C148.  **Two numbers of xoroshiro64ss are enough to compute all that follow**: `predict` gives the generator after them. -/
theorem C148_predict (g : St 32) :
    predict (next64ss g).1 (next64ss (next64ss g).2).1 = (next64ss (next64ss g).2).2 := by
  have ha : ((next64ss g).1 * 3435973837).rotateRight 5 * 3195233139 = g.a := unscr_scr g.a
  have ha' : ((next64ss (next64ss g).2).1 * 3435973837).rotateRight 5 * 3195233139 = (step64 g).a := unscr_scr _
  unfold predict
  dsimp only
  rw [ha, ha']
  have d : (step64 g).a ^^^ g.a.rotateLeft 26 = (g.b ^^^ g.a) ^^^ ((g.b ^^^ g.a) <<< 9) := by
    change rotl32 g.a 26 ^^^ (g.b ^^^ g.a) ^^^ ((g.b ^^^ g.a) <<< 9) ^^^ g.a.rotateLeft 26 = _
    rw [rotl32_eq _ _ (by decide), BitVec.xor_comm, BitVec.xor_assoc, ← BitVec.xor_assoc, ← BitVec.xor_assoc, BitVec.xor_self,
      BitVec.zero_xor]
  rw [d, unshift]
  have b : (g.b ^^^ g.a).rotateLeft 13 = (step64 g).b := (rotl32_eq _ _ (by decide)).symm
  rw [b]
  show _ = step64 (step64 g)
  generalize step64 g = h
  unfold step64
  dsimp only
  rw [rotl32_eq _ _ (by decide), rotl32_eq _ _ (by decide)]

/-- a case: the first numbers for the seeds 1 and `2^63 + 1` -/
example : read (fun _ => 0) (seedPcg 1) = 0xe4bf023d := by decide +kernel
example : read (fun _ => 0) (seedPcg (1 + 0x8000000000000000)) = 0x023dc4bf := by decide +kernel

end CE.Random
