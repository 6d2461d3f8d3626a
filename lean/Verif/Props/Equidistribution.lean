import Verif.Props.Random
import Verif.Proof.Equidistribution
/-!
# C98: over one period every output occurs equally often

`Nat.count p P` is the number of `k < P` for which `p k` holds.
-/
namespace CE.Random

open CE.Crc (U8 U32 U64)

/-- C98.  `next(xoroshiro64ss&)`: within a period of `2^64 - 1` calls, starting anywhere, every number occurs `2^32` times,
only 0 occurs once less. -/
theorem C98_xoroshiro64ss (g : St 32) (hg : g ≠ ⟨0, 0⟩) (v : U32) :
    Nat.count (fun k => (next64ss ((fun g => (next64ss g).2)^[k] g)).1 = v) (2 ^ 64 - 1) = if v = 0 then 2 ^ 32 - 1 else 2 ^ 32 := by
  show Nat.count (fun k => out64 (step64^[k] g) = v) _ = _
  rw [count_cycle step64 bij64.1 (2 ^ 64 - 1) ⟨0, 0⟩ g step64_zero hg (period64 g hg) (fun h hh => visits64 g h hg hh),
    card_fibre out64 (fun s => s.b) v (out64_fibre v), card_bv, show out64 ⟨0, 0⟩ = 0 by decide]
  split <;> rfl

/-- C98.  `next64(xoroshiro64ss&)`: within a period of `2^64 - 1` calls every 64-bit number other than 0 occurs exactly once;
0 never occurs. -/
theorem C98_next64 (g : St 32) (hg : g ≠ ⟨0, 0⟩) (v : U64) :
    Nat.count (fun k => (next64ss_64 ((fun g => (next64ss_64 g).2)^[k] g)).1 = v) (2 ^ 64 - 1) = if v = 0 then 0 else 1 := by
  have hT : Function.Injective (step64^[2]) := bij64.1.iterate 2
  have hper : ∀ g : St 32, g ≠ ⟨0, 0⟩ → ∀ k, (step64^[2])^[k] g = g ↔ (2 ^ 64 - 1) ∣ k := by
    intro g hg k
    rw [← Function.iterate_mul, period64 g hg]
    constructor
    · exact fun h => Nat.Coprime.dvd_of_dvd_mul_left (by decide) h
    · exact fun h => Dvd.dvd.mul_left h _
  have h0 : step64^[2] ⟨0, 0⟩ = ⟨0, 0⟩ := Function.iterate_fixed step64_zero 2
  have hcard : Fintype.card (St 32) = 2 ^ 64 - 1 + 1 := by rw [card_St]; norm_num
  show Nat.count (fun k => out64_64 ((step64^[2])^[k] g) = v) _ = _
  rw [count_cycle (step64^[2]) hT (2 ^ 64 - 1) ⟨0, 0⟩ g h0 hg (hper g hg)
    (fun h hh => CE.Gf2.orbit_all (step64^[2]) hT h0 (2 ^ 64 - 1) hcard hper g h hg hh), card_one _ out64_64_bij,
    show out64_64 ⟨0, 0⟩ = 0 by decide]
  split <;> rfl

/-- C98.  `next(xoroshiro128pp&)`: within a period of `2^128 - 1` calls every number occurs `2^64` times, only 0 occurs once
less. -/
theorem C98_xoroshiro128pp (g : St 64) (hg : g ≠ ⟨0, 0⟩) (v : U64) :
    Nat.count (fun k => out128 (step128^[k] g) = v) (2 ^ 128 - 1) = if v = 0 then 2 ^ 64 - 1 else 2 ^ 64 := by
  rw [count_cycle step128 bij128.1 (2 ^ 128 - 1) ⟨0, 0⟩ g step128_zero hg (period128 g hg) (fun h hh => visits128 g h hg hh),
    card_fibre out128 (fun s => s.a) v (out128_fibre v), card_bv, show out128 ⟨0, 0⟩ = 0 by decide]
  split <;> rfl

/-- the states of pcg32_64 in one period -/
theorem count_pcg {α : Type} [DecidableEq α] (g : U64) (out : U64 → α) (v : α) :
    Nat.count (fun k => out (step^[k] g) = v) (2 ^ 64) = (Finset.univ.filter fun s => out s = v).card :=
  count_walk step (bij_of_iter step (2 ^ 64) (by norm_num) fun x => (periodPcg x _).mpr dvd_rfl).1 (2 ^ 64) Finset.univ g
    (fun _ => Finset.mem_univ _) (periodPcg g) (fun h _ => visitsPcg g h) out v

/-- C98.  `next(pcg32_64_t&)`: within a period of `2^64` calls every number occurs exactly `2^32` times, whichever of the two
results (0 or the operand) the machine gives for the shift by 32. -/
theorem C98_pcg (m : Shl) (hm : ∀ b, m b = 0 ∨ m b = b) (g : U64) (v : U32) :
    Nat.count (fun k => (next (read m) step ((fun g => (next (read m) step g).2)^[k] g)).1 = v) (2 ^ 64) = 2 ^ 32 := by
  have e : read m = refPcgOutput := funext (C17_read_is_rotation m hm)
  show Nat.count (fun k => read m (step^[k] g) = v) _ = _
  rw [e, count_pcg, card_fibre refPcgOutput pcgRest v (pcg_fibre v), card_bv]

/-- C98.  `next_ranged(g, n)` (and so `next_unbiased`, C19) with pcg32_64: in a period every number below `n` occurs between
`⌊2^32 / n⌋` and `⌊2^32 / n⌋ + 1` times `2^32`: the bias is at most one part in `2^32 / n`. -/
theorem C98_ranged (m : Shl) (hm : ∀ b, m b = 0 ∨ m b = b) (g : U64) (n : U32) (v : Nat) (hv : v < n.toNat) :
    2 ^ 32 * (2 ^ 32 / n.toNat) ≤ Nat.count (fun k => (nextRanged (read m) step (step^[k] g) n).1.toNat = v) (2 ^ 64) ∧
    Nat.count (fun k => (nextRanged (read m) step (step^[k] g) n).1.toNat = v) (2 ^ 64) ≤ 2 ^ 32 * (2 ^ 32 / n.toNat + 1) := by
  have e : read m = refPcgOutput := funext (C17_read_is_rotation m hm)
  have hc : Nat.count (fun k => (nextRanged (read m) step (step^[k] g) n).1.toNat = v) (2 ^ 64) = 2 ^ 32 * drawCount (scale n) v := by
    show Nat.count (fun k => (scale n (read m (step^[k] g))).toNat = v) _ = _
    rw [e, count_pcg g (fun q => (scale n (refPcgOutput q)).toNat) v]
    apply card_scaled
    intro r
    rw [card_fibre refPcgOutput pcgRest r (pcg_fibre r), card_bv]
  rw [hc, drawCount_scale n v hv]
  have hn : 0 < n.toNat := by omega
  generalize n.toNat = n at hn hv
  unfold firstDraw
  have key : (2 : Nat) ^ 32 / n ≤ ((v + 1) * 2 ^ 32 + n - 1) / n - (v * 2 ^ 32 + n - 1) / n ∧
      ((v + 1) * 2 ^ 32 + n - 1) / n - (v * 2 ^ 32 + n - 1) / n ≤ 2 ^ 32 / n + 1 := by
    rw [show (v + 1) * 2 ^ 32 + n - 1 = (v * 2 ^ 32 + n - 1) + 2 ^ 32 by rw [Nat.succ_mul]; omega]
    generalize v * 2 ^ 32 + n - 1 = a
    rw [Nat.add_div hn]
    generalize a / n = x
    generalize 2 ^ 32 / n = y
    split <;> omega
  exact ⟨Nat.mul_le_mul_left _ key.1, Nat.mul_le_mul_left _ key.2⟩

example : (⟨1, 0⟩ : St 32) ≠ ⟨0, 0⟩ ∧ (⟨0, 1⟩ : St 64) ≠ ⟨0, 0⟩ := by decide
example : (next64ss_64 ⟨1, 0⟩).1 ≠ 0 := by decide
example : ∀ b : U32, (id : Shl) b = 0 ∨ (id : Shl) b = b := fun _ => Or.inr rfl

end CE.Random
