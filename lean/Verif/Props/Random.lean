import Verif.Proof.Random
import Verif.Props.Fnv
import Verif.Props.Crc
/-!
# C14 - C20: random number generators
-/
namespace CE.Random
open CE.Crc (U8 U32 U64)

/-- C14.  The generator is the published xoroshiro64**: same outputs, same state changes. -/
theorem C14_is_xoroshiro64ss (g : St 32) :
    refXoroshiro64ss g.a g.b =
      ((next64ss g).1, (next64ss g).2.a, (next64ss g).2.b) := by
  simp [refXoroshiro64ss, next64ss, out64, step64, rotl32_eq]

/-- C14.  Advancing the state is a permutation of all states. -/
theorem C14_step_bijective : Function.Bijective step64 := bij64

/-- C14.  All zeros is a trap with output 0. -/
theorem C14_zero_trap (k : Nat) : next64ss (step64^[k] ⟨0, 0⟩) = (0, ⟨0, 0⟩) := by
  rw [Function.iterate_fixed step64_zero]; decide +kernel

/-- C14.  From every other state the period is exactly `2^64 - 1`. -/
theorem C14_exact_period (g : St 32) (hg : g ≠ ⟨0, 0⟩) (k : Nat) :
    step64^[k] g = g ↔ (2 ^ 64 - 1) ∣ k := period64 g hg k

/-- C14.  Every non-zero state is reached from every non-zero state within `2^64 - 1` steps. -/
theorem C14_visits_every_state (g h : St 32) (hg : g ≠ ⟨0, 0⟩) (hh : h ≠ ⟨0, 0⟩) :
    ∃ k, k < 2 ^ 64 - 1 ∧ step64^[k] g = h := visits64 g h hg hh

example : (⟨1, 0⟩ : St 32) ≠ ⟨0, 0⟩ := by decide

/-- C15.  The generator is the published xoroshiro128++. -/
theorem C15_is_xoroshiro128pp (g : St 64) :
    refXoroshiro128pp g.a g.b = (out128 g, (step128 g).a, (step128 g).b) := by
  simp [refXoroshiro128pp, out128, step128, rotl64_eq, BitVec.xor_comm g.b g.a]

/-- C15.  Advancing the state is a permutation of all states. -/
theorem C15_step_bijective : Function.Bijective step128 := bij128

/-- C15.  From every non-zero state the period is exactly `2^128 - 1`. -/
theorem C15_exact_period (g : St 64) (hg : g ≠ ⟨0, 0⟩) (k : Nat) :
    step128^[k] g = g ↔ (2 ^ 128 - 1) ∣ k := period128 g hg k

/-- C15.  Every non-zero state is reached from every non-zero state. -/
theorem C15_visits_every_state (g h : St 64) (hg : g ≠ ⟨0, 0⟩) (hh : h ≠ ⟨0, 0⟩) :
    ∃ k, k < 2 ^ 128 - 1 ∧ step128^[k] g = h := visits128 g h hg hh

/-- C16.  From any state the generator returns to it after `2^64` steps and not before. -/
theorem C16_exact_period (g : U64) (k : Nat) : step^[k] g = g ↔ 2 ^ 64 ∣ k := periodPcg g k

/-- C16.  Any state is reached from any state in fewer than `2^64` steps of `next`. -/
theorem C16_visits_every_state (m : Shl) (g h : U64) :
    ∃ k, k < 2 ^ 64 ∧ (fun g => (next (read m) step g).2)^[k] g = h := visitsPcg g h

/-- C16.  Seeding with different numbers gives different states. -/
theorem C16_seed_injective (s t : U64) (h : seedPcg s = seedPcg t) : s = t := by
  have hs : Function.Injective step :=
    (bij_of_iter step (2 ^ 64) (by norm_num) fun x => (periodPcg x _).mpr dvd_rfl).1
  have := hs h
  simpa using this

/-- C17.  Whatever of the two results (0 or the operand) the machine gives for the 32 bit shift,
`read` is the published output function. -/
theorem C17_read_is_rotation (m : Shl) (hm : ∀ b, m b = 0 ∨ m b = b) (q : U64) :
    read m q = refPcgOutput q := by
  have hq : (q >>> 59).toNat < 32 := by
    have := q.isLt
    rw [BitVec.toNat_ushiftRight, Nat.shiftRight_eq_div_pow]; omega
  have e : ((q >>> 27) ^^^ (q >>> 45)) = (((q >>> 18) ^^^ q) >>> 27) := by
    ext i hi
    simp only [BitVec.getElem_xor, BitVec.getElem_ushiftRight, BitVec.getLsbD_xor,
      BitVec.getLsbD_ushiftRight]
    rw [show 18 + (27 + i) = 45 + i by omega, Bool.xor_comm]
  unfold read refPcgOutput
  simp only [e]
  generalize (((q >>> 18) ^^^ q) >>> 27).truncate 32 = b
  generalize (q >>> 59).toNat = a at hq
  rw [BitVec.rotateRight_def, Nat.mod_eq_of_lt hq, shl]
  by_cases h0 : a = 0
  · subst h0
    rcases hm b with h | h <;> simp [h]
  · rw [if_pos (by omega)]

/-- the two machine behaviours satisfy the hypothesis -/
example : (∀ b : U32, (fun _ => 0 : Shl) b = 0 ∨ (fun _ => 0 : Shl) b = b) ∧
    (∀ b : U32, (id : Shl) b = 0 ∨ (id : Shl) b = b) := by simp

/-- C17.  The result does not depend on the machine at all unless the top five bits are zero. -/
theorem C17_defined_unless_rotation_zero (q : U64) (h : readUndefined q = false) (m m' : Shl) :
    read m q = read m' q := by
  unfold readUndefined at h
  simp only [beq_eq_false_iff_ne, ne_eq] at h
  have hlt : 32 - (q >>> 59).toNat < 32 := by omega
  simp only [read, shl, hlt, if_true]

example : readUndefined 0x8000000000000000 = false := by decide

/-- C17.  `read` does have an undefined shift, e.g. in the state 0: a machine that gave anything
else than 0 or the operand would give a wrong result. -/
theorem C17_undefined_reachable :
    readUndefined 0 = true ∧ ∃ m m' : Shl, read m 0 ≠ read m' 0 :=
  ⟨by decide, fun _ => 0, fun _ => 1, by decide⟩

/-- C18.  `next_ranged(g, n)` is below `n` (0 for `n = 0`) and is the floor of `n * draw / 2^32`;
the generator advances by exactly one step. -/
theorem C18_next_ranged_exact {G : Type} (read : G → U32) (step : G → G) (g : G) (n : U32) :
    (nextRanged read step g n).1.toNat = n.toNat * (read g).toNat / 2 ^ 32 ∧
      (0 < n.toNat → (nextRanged read step g n).1.toNat < n.toNat) ∧
      (n = 0 → (nextRanged read step g n).1 = 0) ∧
      (nextRanged read step g n).2 = step g := by
  have e : (nextRanged read step g n).1 = scale n (read g) := rfl
  rw [e]
  refine ⟨scale_toNat n _, fun h => ?_, ?_, rfl⟩
  · rw [scale_toNat]
    apply Nat.div_lt_of_lt_mul
    have := (read g).isLt
    rw [mul_comm]
    exact Nat.mul_lt_mul_of_pos_right this h
  · rintro rfl
    apply BitVec.eq_of_toNat_eq
    rw [scale_toNat]; simp

/-- C18.  Larger draws give larger results. -/
theorem C18_next_ranged_monotone {G : Type} (read : G → U32) (step : G → G) (g h : G) (n : U32)
    (hgh : (read g).toNat ≤ (read h).toNat) :
    (nextRanged read step g n).1.toNat ≤ (nextRanged read step h n).1.toNat := by
  rw [(C18_next_ranged_exact read step g n).1, (C18_next_ranged_exact read step h n).1]
  exact Nat.div_le_div_right (Nat.mul_le_mul_left _ hgh)

/-- C18.  Every value below `n` is the result for some draw. -/
theorem C18_next_ranged_onto {G : Type} (read : G → U32) (step : G → G)
    (hr : ∀ r, ∃ g, read g = r) (n : U32) (v : Nat) (hv : v < n.toNat) :
    ∃ g, (nextRanged read step g n).1.toNat = v := by
  have hn : 0 < n.toNat := by omega
  have h32 := n.isLt
  have hlt : firstDraw n.toNat v < firstDraw n.toNat (v + 1) := by
    rw [← not_le, firstDraw_le_iff _ _ _ hn, not_le]
    apply Nat.div_lt_of_lt_mul
    unfold firstDraw
    have := Nat.mul_div_le (v * 2 ^ 32 + n.toNat - 1) n.toNat
    omega
  have hle := firstDraw_le n.toNat (v + 1) hn (by omega)
  obtain ⟨g, hg⟩ := hr (BitVec.ofNat 32 (firstDraw n.toNat v))
  refine ⟨g, ?_⟩
  rw [(C18_next_ranged_exact read step g n).1, hg, BitVec.toNat_ofNat,
    Nat.mod_eq_of_lt (by omega)]
  have e0 := (firstDraw_le_iff n.toNat v (firstDraw n.toNat v) hn).mp le_rfl
  have e1 := (firstDraw_le_iff n.toNat (v + 1) (firstDraw n.toNat v) hn).not.mp (by omega)
  omega

/-- pcg can give every 32 bit number: the state `r << 27` with all higher bits zero rotates by 0
for small `r`; here `r = 5`, n = 10, result 0, and a large draw gives 9 -/
example : (nextRanged (read id) step (5 <<< 27) 10).1 = 0 ∧
    (nextRanged (fun g : U32 => g) (· + 1) 0xffffffff 10).1 = 9 := by decide

/-- C19.  `next_unbiased` never draws again: the threshold it computes is `0 - n % n = 0`.  So it
always terminates, and equals `next_ranged`. -/
theorem C19_unbiased_never_rejects {G : Type} (read : G → U32) (step : G → G) (fuel : Nat)
    (hf : 0 < fuel) (g : G) (n : U32) :
    nextUnbiased read step fuel g n = some (nextRanged read step g n) :=
  unbiased_eq read step fuel hf g n

/-- the result of `next_unbiased` as a function of the first draw, for a generator whose state is
its next output -/
def unbiasedOf (n : U32) (r : U32) : U32 :=
  ((nextUnbiased (fun g : U32 => g) (· + 1) 1 r n).map Prod.fst).getD 0

/-- C19 fails: `next_unbiased` is uniform exactly for those `n > 0` that divide `2^32`, i.e. the
powers of two. -/
theorem C19_unbiased_uniform_iff (n : U32) (hn : 0 < n.toNat) :
    Uniform (unbiasedOf n) n.toNat ↔ n.toNat ∣ 2 ^ 32 := by
  have e : unbiasedOf n = scale n := by
    funext r
    unfold unbiasedOf
    rw [unbiased_eq _ _ _ (by omega)]; rfl
  rw [e]
  constructor
  · rintro ⟨c, hc⟩
    have hmap : ∀ r ∈ Finset.range (2 ^ 32),
        (scale n (BitVec.ofNat 32 r)).toNat ∈ Finset.range n.toNat := by
      intro r _
      rw [Finset.mem_range]
      exact (C18_next_ranged_exact (fun g : U32 => g) id (BitVec.ofNat 32 r) n).2.1 hn
    have h := Finset.card_eq_sum_card_fiberwise hmap
    have hs : ∑ b ∈ Finset.range n.toNat, ((Finset.range (2 ^ 32)).filter
        fun r => (scale n (BitVec.ofNat 32 r)).toNat = b).card = n.toNat * c := by
      change ∑ b ∈ Finset.range n.toNat, drawCount (scale n) b = n.toNat * c
      rw [Finset.sum_congr rfl (g := fun _ => c)
        (fun v hv => hc v (Finset.mem_range.mp hv)), Finset.sum_const, Finset.card_range,
        smul_eq_mul]
    rw [Finset.card_range, hs] at h
    exact ⟨c, h⟩
  · rintro ⟨c, hc⟩
    refine ⟨c, fun v hv => ?_⟩
    rw [drawCount_scale n v hv]
    have hf : ∀ v, firstDraw n.toNat v = v * c := by
      intro v
      unfold firstDraw
      rw [hc, show v * (n.toNat * c) + n.toNat - 1 = (n.toNat - 1) + n.toNat * (v * c) by
        rw [show v * (n.toNat * c) = n.toNat * (v * c) by ring]; omega,
        Nat.add_mul_div_left _ _ hn, Nat.div_eq_of_lt (by omega), zero_add]
    rw [hf, hf, Nat.succ_mul]; omega

/-- C19 fails, concretely: among three outcomes one is more likely. -/
theorem C19_next_unbiased_is_uniform_false : ¬ ∀ n : U32, 0 < n.toNat →
    Uniform (unbiasedOf n) n.toNat := by
  intro h
  have := (C19_unbiased_uniform_iff 3 (by decide)).mp (h 3 (by decide))
  revert this; decide

/-- C19, what is left: the counts of any two results differ by at most one draw in `2^32`. -/
theorem C19_next_unbiased_nearly_uniform_partial (n : U32) (v w : Nat) (hv : v < n.toNat)
    (hw : w < n.toNat) : drawCount (unbiasedOf n) v ≤ drawCount (unbiasedOf n) w + 1 := by
  have e : unbiasedOf n = scale n := by
    funext r
    unfold unbiasedOf
    rw [unbiased_eq _ _ _ (by omega)]; rfl
  have hn : 0 < n.toNat := by omega
  have bound : ∀ u, u < n.toNat → 2 ^ 32 / n.toNat ≤ drawCount (scale n) u ∧
      drawCount (scale n) u ≤ 2 ^ 32 / n.toNat + 1 := by
    intro u hu
    rw [drawCount_scale n u hu]
    unfold firstDraw
    have h1 : (u + 1) * 2 ^ 32 + n.toNat - 1 = (u * 2 ^ 32 + n.toNat - 1) + 2 ^ 32 := by omega
    rw [h1]
    generalize u * 2 ^ 32 + n.toNat - 1 = x
    have h0 : 0 ≤ 2 ^ 32 / n.toNat := Nat.zero_le _
    generalize hy : 2 ^ 32 = y at *
    have h2 := Nat.add_div_le_add_div x y n.toNat
    have h3 : (x + y) / n.toNat ≤ x / n.toNat + y / n.toNat + 1 := by
      rw [Nat.add_div hn]; split <;> omega
    clear hy
    omega
  rw [e]
  have := bound v hv
  have := bound w hw
  omega

/-- C20 fails for xoroshiro64ss: an empty seed gives the stuck state ... -/
theorem C20_seed64ss_never_stuck_false : seed64ss [] = some ⟨0, 0⟩ := by decide +kernel

/-- ... and so does this 8 byte seed. -/
theorem C20_seed64ss_nonempty_stuck_false :
    seed64ss [0xab, 0x9b, 0xe0, 0x9b, 0xab, 0x9b, 0xe0, 0x9b] = some ⟨0, 0⟩ := by decide +kernel

/-- C20, what is left for xoroshiro64ss: it is stuck exactly if both halves of the seed have
CRC-32C zero. -/
theorem C20_seed64ss_stuck_iff_partial (data : List U8) :
    seed64ss data = some ⟨0, 0⟩ ↔
      Crc.crcSpec Crc.crc32cPoly 0 ((data.take (data.length / 2)).flatMap Crc.bitsOf) = 0 ∧
      Crc.crcSpec Crc.crc32cPoly 0 ((data.drop (data.length / 2)).flatMap Crc.bitsOf) = 0 := by
  unfold seed64ss
  simp only [Crc.C06_crc32_bytes_is_serial]
  change some (⟨_, _⟩ : St 32) = some ⟨0, 0⟩ ↔ _
  simp only [Option.some.injEq, St.mk.injEq]
  constructor
  · rintro ⟨h1, h2⟩
    refine ⟨h1, ?_⟩
    rw [h1] at h2; exact h2
  · rintro ⟨h1, h2⟩
    refine ⟨h1, ?_⟩
    rw [h1]; exact h2

/-- C20 holds for xoroshiro128pp: no seed, of any length, gives the all-zero state. -/
theorem C20_seed128pp_never_stuck (data : List U8) : seed128pp data ≠ ⟨0, 0⟩ := by
  intro h
  simp only [seed128pp, St.mk.injEq] at h
  obtain ⟨h1, h2⟩ := h
  rw [h1] at h2
  have := Fnv.C11_basis_injective (w := 64) (k := 1) (Or.inr rfl) (by omega) false data
    (Fnv.basis 64) 0 (h1.trans h2.symm)
  revert this; decide

end CE.Random
