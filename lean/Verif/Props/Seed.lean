import Verif.Props.Random
import Verif.Props.Crc
import Verif.Props.Fnv
import Verif.Proof.Equidistribution
import Mathlib.Data.Fintype.EquivFin
import Mathlib.Data.List.OfFn
/-!
# Different seeds give different generators (C108)

lib/h/ce/ce.h:715-722, 750-754, 803-811.
-/
namespace CE.Random

open CE.Crc (U8 U32 U64)

theorem bitsOf_inj {x y : U8} (h : Crc.bitsOf x = Crc.bitsOf y) : x = y := by
  apply BitVec.eq_of_getLsbD_eq
  intro i hi
  have := congrArg (fun l => l[i]?) h
  simpa [Crc.bitsOf, hi] using this

theorem bitsOf_length (x : U8) : (Crc.bitsOf x).length = 8 := by simp [Crc.bitsOf]

theorem bits_length (l : List U8) : (l.flatMap Crc.bitsOf).length = 8 * l.length := by
  induction l with
  | nil => rfl
  | cons x l ih => simp only [List.flatMap_cons, List.length_append, bitsOf_length, ih, List.length_cons]; omega

theorem bits_inj : ∀ (l m : List U8), l.length = m.length → l.flatMap Crc.bitsOf = m.flatMap Crc.bitsOf → l = m
  | [], [], _, _ => rfl
  | x :: l, y :: m, hl, h => by
    simp only [List.flatMap_cons] at h
    obtain ⟨h1, h2⟩ := List.append_inj h (by rw [bitsOf_length, bitsOf_length])
    rw [bitsOf_inj h1, bits_inj l m (by simpa using hl) h2]

/-- up to four bytes in a row that differ change the CRC -/
theorem crc_differ (c : U32) (pre x y post : List U8) (hl : x.length = y.length) (h4 : x.length ≤ 4) (hne : x ≠ y) :
    Crc.crc32Bytes Crc.crc32cPoly c (pre ++ x ++ post) ≠ Crc.crc32Bytes Crc.crc32cPoly c (pre ++ y ++ post) := by
  apply Crc.C09_burst_error_detected _ _ (by decide) _ _ (pre.flatMap Crc.bitsOf) (x.flatMap Crc.bitsOf) (y.flatMap Crc.bitsOf)
    (post.flatMap Crc.bitsOf)
  · simp
  · simp
  · rw [bits_length, bits_length, hl]
  · rw [bits_length]; omega
  · exact fun h => hne (bits_inj _ _ hl h)

/-- the state as a function -/
def state64 (data : List U8) : St 32 :=
  let a := Crc.crcSpec Crc.crc32cPoly 0 ((data.take (data.length / 2)).flatMap Crc.bitsOf)
  ⟨a, Crc.crcSpec Crc.crc32cPoly a ((data.drop (data.length / 2)).flatMap Crc.bitsOf)⟩

theorem seed64ss_eq (data : List U8) : seed64ss data = some (state64 data) := by
  unfold seed64ss state64
  simp only [Crc.C06_crc32_bytes_is_serial]
  rfl

/-- seeds whose halves each differ in at most four bytes in a row -/
theorem seed64_differ (p q : List U8) (hl : p.length = q.length) (hne : p ≠ q)
    (h : ∀ c, p.take (p.length / 2) ≠ q.take (p.length / 2) →
      Crc.crc32Bytes Crc.crc32cPoly c (p.take (p.length / 2)) ≠ Crc.crc32Bytes Crc.crc32cPoly c (q.take (p.length / 2)))
    (h' : ∀ c, p.drop (p.length / 2) ≠ q.drop (p.length / 2) →
      Crc.crc32Bytes Crc.crc32cPoly c (p.drop (p.length / 2)) ≠ Crc.crc32Bytes Crc.crc32cPoly c (q.drop (p.length / 2))) :
    state64 p ≠ state64 q := by
  intro e
  unfold state64 at e
  rw [← hl] at e
  simp only [St.mk.injEq] at e
  obtain ⟨e1, e2⟩ := e
  have t : p.take (p.length / 2) = q.take (p.length / 2) := by
    by_contra hn
    apply h 0 hn
    rw [Crc.C06_crc32_bytes_is_serial, Crc.C06_crc32_bytes_is_serial, e1]
  rw [t] at e2
  have d : p.drop (p.length / 2) = q.drop (p.length / 2) := by
    by_contra hn
    apply h' _ hn
    rw [Crc.C06_crc32_bytes_is_serial, Crc.C06_crc32_bytes_is_serial, e2]
  apply hne
  rw [← List.take_append_drop (p.length / 2) p, t, d, List.take_append_drop]

/-- the parts of two lists that differ in one place -/
theorem one_byte (pre post : List U8) (x y : U8) (hxy : x ≠ y) (c : U32) (k : Nat) :
    ((pre ++ x :: post).take k ≠ (pre ++ y :: post).take k →
      Crc.crc32Bytes Crc.crc32cPoly c ((pre ++ x :: post).take k) ≠ Crc.crc32Bytes Crc.crc32cPoly c ((pre ++ y :: post).take k)) ∧
    ((pre ++ x :: post).drop k ≠ (pre ++ y :: post).drop k →
      Crc.crc32Bytes Crc.crc32cPoly c ((pre ++ x :: post).drop k) ≠ Crc.crc32Bytes Crc.crc32cPoly c ((pre ++ y :: post).drop k)) := by
  constructor
  · intro hn
    by_cases hk : k ≤ pre.length
    · exact absurd (by rw [List.take_append_of_le_length hk, List.take_append_of_le_length hk]) hn
    · obtain ⟨j, hj⟩ : ∃ j, k - pre.length = j + 1 := ⟨k - pre.length - 1, by omega⟩
      rw [List.take_append, List.take_append, List.take_of_length_le (by omega), hj, List.take_succ_cons, List.take_succ_cons]
      have := crc_differ c pre [x] [y] (post.take j) rfl (by simp) (by simpa using hxy)
      simpa using this
  · intro hn
    by_cases hk : k ≤ pre.length
    · rw [List.drop_append_of_le_length hk, List.drop_append_of_le_length hk]
      have := crc_differ c (pre.drop k) [x] [y] post rfl (by simp) (by simpa using hxy)
      simpa using this
    · obtain ⟨j, hj⟩ : ∃ j, k - pre.length = j + 1 := ⟨k - pre.length - 1, by omega⟩
      exact absurd (by rw [List.drop_append, List.drop_append, List.drop_of_length_le (by omega), hj]; rfl) hn

/-- two results tell the state -/
theorem streams_differ {g h : St 32} (hne : g ≠ h) (k : Nat) :
    (next64ss (step64^[k] g)).1 ≠ (next64ss (step64^[k] h)).1 ∨ (next64ss (step64^[k + 1] g)).1 ≠ (next64ss (step64^[k + 1] h)).1 := by
  by_contra hc
  push Not at hc
  rw [Function.iterate_succ_apply', Function.iterate_succ_apply'] at hc
  exact hne ((bij64.1.iterate k) (pair_inj _ _ hc.1 hc.2))

/-- `xoroshiro64ss`: seeds of the same length that differ in one byte.  Of any two consecutive results of the generators one
differs. -/
theorem C108_xoroshiro64ss_one_byte (pre post : List U8) (x y : U8) (hxy : x ≠ y) :
    ∃ g h, seed64ss (pre ++ x :: post) = some g ∧ seed64ss (pre ++ y :: post) = some h ∧ g ≠ h ∧
      ∀ k, (next64ss (step64^[k] g)).1 ≠ (next64ss (step64^[k] h)).1 ∨
        (next64ss (step64^[k + 1] g)).1 ≠ (next64ss (step64^[k + 1] h)).1 := by
  have hne : state64 (pre ++ x :: post) ≠ state64 (pre ++ y :: post) := by
    apply seed64_differ
    · simp
    · simpa using hxy
    · exact fun c => (one_byte pre post x y hxy c _).1
    · exact fun c => (one_byte pre post x y hxy c _).2
  exact ⟨_, _, seed64ss_eq _, seed64ss_eq _, hne, streams_differ hne⟩

/-- `xoroshiro64ss`: seeds of the same length, at most eight bytes. -/
theorem C108_xoroshiro64ss_short (p q : List U8) (hl : p.length = q.length) (h8 : p.length ≤ 8) (hne : p ≠ q) :
    ∃ g h, seed64ss p = some g ∧ seed64ss q = some h ∧ g ≠ h ∧
      ∀ k, (next64ss (step64^[k] g)).1 ≠ (next64ss (step64^[k] h)).1 ∨
        (next64ss (step64^[k + 1] g)).1 ≠ (next64ss (step64^[k + 1] h)).1 := by
  have hne : state64 p ≠ state64 q := by
    apply seed64_differ _ _ hl hne
    · intro c hn
      have := crc_differ c [] _ _ [] (by simp [hl]) (by simp; omega) hn
      simpa using this
    · intro c hn
      have := crc_differ c [] _ _ [] (by simp [hl]) (by simp; omega) hn
      simpa using this
  exact ⟨_, _, seed64ss_eq _, seed64ss_eq _, hne, streams_differ hne⟩

/-- `xoroshiro64ss`: every state is that of exactly one seed of eight bytes. -/
theorem C108_xoroshiro64ss_onto (g : St 32) : ∃! data : List U8, data.length = 8 ∧ seed64ss data = some g := by
  have uniq : ∀ p q : List U8, p.length = 8 → q.length = 8 → state64 p = state64 q → p = q := by
    intro p q hp hq e
    by_contra hn
    obtain ⟨a, b, ha, hb, hne, _⟩ := C108_xoroshiro64ss_short p q (by omega) (by omega) hn
    rw [seed64ss_eq] at ha hb
    exact hne (by rw [← Option.some.inj ha, ← Option.some.inj hb, e])
  have bij : Function.Bijective fun v : Fin 8 → U8 => state64 (List.ofFn v) := by
    rw [Fintype.bijective_iff_injective_and_card]
    constructor
    · intro v w h
      exact List.ofFn_injective (uniq _ _ (by simp) (by simp) h)
    · rw [card_St, Fintype.card_fun, card_bv, Fintype.card_fin]; norm_num
  obtain ⟨v, hv⟩ := bij.2 g
  refine ⟨List.ofFn v, ⟨by simp, by rw [seed64ss_eq]; exact congrArg some hv⟩, ?_⟩
  rintro q ⟨hq, h⟩
  rw [seed64ss_eq] at h
  exact uniq _ _ hq (by simp) ((Option.some.inj h).trans hv.symm)

example : ([1, 2, 3] : List U8) ≠ [1, 2, 4] := by decide

/-- `xoroshiro128pp`: seeds that differ in one byte give states that never meet. -/
theorem C108_xoroshiro128pp_one_byte (pre post : List U8) (x y : U8) (hxy : x ≠ y) (k : Nat) :
    step128^[k] (seed128pp (pre ++ x :: post)) ≠ step128^[k] (seed128pp (pre ++ y :: post)) := by
  intro h
  have := (bij128.1.iterate k) h
  exact Fnv.C11_single_byte_change_detected (Or.inr rfl) pre post x y hxy false (Fnv.basis 64) (congrArg St.a this)

/-- `pcg32_64_t`: the same, and for seeds that are numbers. -/
theorem C108_pcg_one_byte (pre post : List U8) (x y : U8) (hxy : x ≠ y) (k : Nat) :
    step^[k] (seedPcgBytes (pre ++ x :: post)) ≠ step^[k] (seedPcgBytes (pre ++ y :: post)) := by
  intro h
  have hi : Function.Injective step := (bij_of_iter step (2 ^ 64) (by norm_num) fun x => (periodPcg x _).mpr dvd_rfl).1
  exact Fnv.C11_single_byte_change_detected (Or.inr rfl) pre post x y hxy false (Fnv.basis 64)
    (C16_seed_injective _ _ ((hi.iterate k) h))

theorem C108_pcg_number (s t : U64) (hst : s ≠ t) (k : Nat) : step^[k] (seedPcg s) ≠ step^[k] (seedPcg t) := by
  intro h
  have hi : Function.Injective step := (bij_of_iter step (2 ^ 64) (by norm_num) fun x => (periodPcg x _).mpr dvd_rfl).1
  exact hst (C16_seed_injective _ _ ((hi.iterate k) h))

example : (1 : U8) ≠ 2 ∧ (1 : U64) ≠ 2 := by decide

/-- hashing bytes, in terms of the published definition -/
theorem fnv_bytes (data : List U8) (basis : BitVec 64) :
    (Fnv.fnv1a (k := 1) false data basis).toNat = Fnv.fnvSpec 64 basis.toNat (data.map BitVec.toNat) := by
  rw [Fnv.C10_fnv1a_is_byte_fold (Or.inr rfl) (by norm_num)]
  congr 1
  induction data with
  | nil => rfl
  | cons v data ih =>
    rw [List.flatMap_cons, ih, List.map_cons]
    have : v.toNat < 256 := v.isLt
    simp [Fnv.leBytes, Nat.mod_eq_of_lt this]

/-- the stream of the published generator that `pcg32_64_t` is -/
theorem step_ref (g : U64) : (refPcg32 g (((0x6d1f1ce5ca5caded : U64) <<< 1) ||| 1)).2 = step g := by
  unfold refPcg32 step
  rw [BitVec.mul_comm]
  rfl

/-- C120.  `pcg32_64_t` seeded with a number gives the results of the published `pcg32` seeded with that
number and the sequence of its static initializer, for ever. -/
theorem C120_pcg_published (m : Shl) (hm : ∀ b, m b = 0 ∨ m b = b) (s : U64) (k : Nat) :
    (next (read m) step ((fun g => (next (read m) step g).2)^[k] (seedPcg s))).1 =
      refPcg32Result s 0x6d1f1ce5ca5caded k := by
  have hf : (fun g => (refPcg32 g (((0x6d1f1ce5ca5caded : U64) <<< 1) ||| 1)).2) = step := funext step_ref
  have hs : refPcg32Seed s 0x6d1f1ce5ca5caded = (((0x6d1f1ce5ca5caded : U64) <<< 1) ||| 1, seedPcg s) := by
    unfold refPcg32Seed
    dsimp only
    rw [step_ref, step_ref]
    rfl
  unfold refPcg32Result
  rw [hs]
  dsimp only
  rw [hf]
  exact C17_read_is_rotation m hm _

/-- C120.  Seeding with bytes is seeding with their FNV-1a hash. -/
theorem C120_pcg_bytes (data : List U8) :
    seedPcgBytes data = seedPcg (BitVec.ofNat 64
      (Fnv.fnvSpec 64 0xcbf29ce484222325 (data.map BitVec.toNat))) := by
  unfold seedPcgBytes
  congr 1
  apply BitVec.eq_of_toNat_eq
  rw [fnv_bytes]
  have : (Fnv.basis 64 : BitVec 64).toNat = 0xcbf29ce484222325 := by decide
  rw [this, BitVec.toNat_ofNat, Nat.mod_eq_of_lt]
  rw [← this, ← fnv_bytes]
  exact (Fnv.fnv1a (k := 1) false data (Fnv.basis 64)).isLt

/-- C120.  `xoroshiro128pp` seeded with bytes: the first word is their FNV-1a hash, the second the hash of
the bytes appended to themselves. -/
theorem C120_xoroshiro128pp_bytes (data : List U8) :
    (seed128pp data).a.toNat = Fnv.fnvSpec 64 0xcbf29ce484222325 (data.map BitVec.toNat) ∧
    (seed128pp data).b.toNat = Fnv.fnvSpec 64 0xcbf29ce484222325 ((data ++ data).map BitVec.toNat) := by
  have : (Fnv.basis 64 : BitVec 64).toNat = 0xcbf29ce484222325 := by decide
  unfold seed128pp
  dsimp only
  rw [fnv_bytes, fnv_bytes, fnv_bytes, this]
  refine ⟨rfl, ?_⟩
  rw [List.map_append]
  unfold Fnv.fnvSpec
  rw [List.foldl_append]

/-- the published test run of `pcg32`, seeded with 42 and 54 -/
example : (List.range 6).map (refPcg32Result 42 54) =
    [0xa15c02b7, 0x7b47f409, 0xba1d3330, 0x83d2f293, 0xbfa4784b, 0xcbed606e] := by decide +kernel

end CE.Random
