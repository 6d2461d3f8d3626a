import Verif.Model.Random
import Mathlib.Logic.Function.Iterate
import Mathlib.Data.Finset.Card
import Mathlib.Data.Finset.Range
import Mathlib.Data.Finset.Filter
/-! Reference generators in the notation of their authors, and uniformity of a bounded draw. -/
namespace CE.Random
open CE.Crc (U32 U64)

/-- xoroshiro64** 1.0 (Blackman, Vigna): output and new `(s0, s1)` -/
def refXoroshiro64ss (s0 s1 : U32) : U32 × U32 × U32 :=
  let result := (s0 * 0x9E3779BB).rotateLeft 5 * 5
  let s1 := s1 ^^^ s0
  (result, s0.rotateLeft 26 ^^^ s1 ^^^ (s1 <<< 9), s1.rotateLeft 13)

/-- xoroshiro128++ 1.0 (Blackman, Vigna) -/
def refXoroshiro128pp (s0 s1 : U64) : U64 × U64 × U64 :=
  let result := (s0 + s1).rotateLeft 17 + s0
  let s1 := s1 ^^^ s0
  (result, s0.rotateLeft 49 ^^^ s1 ^^^ (s1 <<< 21), s1.rotateLeft 28)

/-- PCG-XSH-RR output function (O'Neill): xorshift high bits, then random rotation -/
def refPcgOutput (state : U64) : U32 :=
  let xorshifted : U32 := (((state >>> 18) ^^^ state) >>> 27).truncate 32
  xorshifted.rotateRight (state >>> 59).toNat

/-- `pcg32_random_r` (O'Neill): output of the old state, and the new state, for the stream `inc` -/
def refPcg32 (state inc : U64) : U32 × U64 := (refPcgOutput state, state * 6364136223846793005 + (inc ||| 1))

/-- `pcg32_srandom_r` (O'Neill): the stream and the state after seeding -/
def refPcg32Seed (initstate initseq : U64) : U64 × U64 :=
  let inc := (initseq <<< 1) ||| 1
  let state := (refPcg32 0 inc).2
  let state := state + initstate
  (inc, (refPcg32 state inc).2)

/-- the `k`-th result of the published generator seeded with `(initstate, initseq)` -/
def refPcg32Result (initstate initseq : U64) (k : Nat) : U32 :=
  let s := refPcg32Seed initstate initseq
  (refPcg32 ((fun g => (refPcg32 g s.1).2)^[k] s.2) s.1).1

/-- how many of the `2^32` values of the draw give `v` -/
def drawCount (f : U32 → U32) (v : Nat) : Nat :=
  ((Finset.range (2 ^ 32)).filter fun r => (f (BitVec.ofNat 32 r)).toNat = v).card

/-- all results below `n` are equally likely for a uniform draw -/
def Uniform (f : U32 → U32) (n : Nat) : Prop := ∃ c, ∀ v, v < n → drawCount f v = c

end CE.Random
