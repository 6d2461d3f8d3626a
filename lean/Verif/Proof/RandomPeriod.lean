import Verif.Proof.RandomLin
import Verif.Proof.BigPrime
import Mathlib.Tactic.IntervalCases
/-! Certificates for the two xoroshiro generators. -/
namespace CE.Random
open CE.Gf2

def p64 : Nat := 0x1053be9da6e2286c1
def q64 : List (Nat × Nat) :=
  [(3, 0xfd64f34d18b1aa77), (5, 0xe899d42abd368284), (17, 0xc5de2f621b25f09a),
   (257, 0xee3c5a7953da7f82), (641, 0xf269980a0f2f9957), (65537, 0x3b7c5f0bd3e992f6),
   (6700417, 0x4cc5c87d9e634973)]

def p128 : Nat := 0x10031bcf2f855d6e58dae70779760b081
def q128 : List (Nat × Nat) :=
  [(3, 0xd18aec643e0e7342c3a1a780f44a2e4f), (5, 0x7a213d864dff9b12be48da6b44fb107c),
   (17, 0x11a4cccadf16c9286157104d6882fdd5), (257, 0x16af9c4a631a2f363a7db75f4eb26890),
   (641, 0xb49a0762877d17bfc746c27cce7b37eb), (65537, 0xdb13661077af59e00dd681384f51c049),
   (6700417, 0xa00b4629afcbeb8a2d223bc0ae262b23), (274177, 0xa238ed9445e7266942cd43c8150b5365),
   (67280421310721, 0xff14f9fc7bbc9e719668fec350454046)]

theorem cert64 : Cert 64 p64 (2 ^ 64 - 1) q64 where
  hn := by decide
  hpn := by decide +kernel
  hpb := by decide +kernel
  hN := by decide +kernel
  one := by decide +kernel
  fac := by decide +kernel
  primes := by
    intro q hq
    simp only [q64, List.map_cons, List.map_nil, List.mem_cons, List.not_mem_nil, or_false] at hq
    rcases hq with rfl | rfl | rfl | rfl | rfl | rfl | rfl <;> norm_num
  inv := by decide +kernel

theorem cert128 : Cert 128 p128 (2 ^ 128 - 1) q128 where
  hn := by decide
  hpn := by decide +kernel
  hpb := by decide +kernel
  hN := by decide +kernel
  one := by decide +kernel
  fac := by decide +kernel
  primes := by
    intro q hq
    simp only [q128, List.map_cons, List.map_nil, List.mem_cons, List.not_mem_nil, or_false] at hq
    rcases hq with rfl | rfl | rfl | rfl | rfl | rfl | rfl | rfl | rfl
    all_goals first | exact prime_big | norm_num
  inv := by decide +kernel

theorem ann64a : ∀ i, i < 32 → evS step64 65 p64 ⟨BitVec.twoPow 32 i, 0⟩ = ⟨0, 0⟩ := by
  decide +kernel
theorem ann64b : ∀ i, i < 32 → evS step64 65 p64 ⟨0, BitVec.twoPow 32 i⟩ = ⟨0, 0⟩ := by
  decide +kernel
theorem ann128a : ∀ i, i < 64 → evS step128 129 p128 ⟨BitVec.twoPow 64 i, 0⟩ = ⟨0, 0⟩ := by
  decide +kernel
theorem ann128b : ∀ i, i < 64 → evS step128 129 p128 ⟨0, BitVec.twoPow 64 i⟩ = ⟨0, 0⟩ := by
  decide +kernel

theorem ann64 : ev T64 65 p64 = 0 :=
  hom_eq_zero _ (fun i hi => by rw [← evS_eq]; exact ann64a i hi)
    (fun i hi => by rw [← evS_eq]; exact ann64b i hi)

theorem ann128 : ev T128 129 p128 = 0 :=
  hom_eq_zero _ (fun i hi => by rw [← evS_eq]; exact ann128a i hi)
    (fun i hi => by rw [← evS_eq]; exact ann128b i hi)

theorem period64 (g : St 32) (hg : g ≠ ⟨0, 0⟩) (k : Nat) :
    step64^[k] g = g ↔ (2 ^ 64 - 1) ∣ k :=
  iterate_eq_iff add_self T64 cert64 ann64 g hg k

theorem period128 (g : St 64) (hg : g ≠ ⟨0, 0⟩) (k : Nat) :
    step128^[k] g = g ↔ (2 ^ 128 - 1) ∣ k :=
  iterate_eq_iff add_self T128 cert128 ann128 g hg k

theorem step64_zero : step64 ⟨0, 0⟩ = ⟨0, 0⟩ := by decide +kernel
theorem step128_zero : step128 ⟨0, 0⟩ = ⟨0, 0⟩ := by decide +kernel

theorem iter64 (g : St 32) : step64^[2 ^ 64 - 1] g = g := by
  by_cases h : g = ⟨0, 0⟩
  · subst h; exact Function.iterate_fixed step64_zero _
  · exact (period64 g h _).mpr dvd_rfl

theorem iter128 (g : St 64) : step128^[2 ^ 128 - 1] g = g := by
  by_cases h : g = ⟨0, 0⟩
  · subst h; exact Function.iterate_fixed step128_zero _
  · exact (period128 g h _).mpr dvd_rfl

theorem bij_of_iter {α : Type} (f : α → α) (n : Nat) (hn : 0 < n) (h : ∀ x, f^[n] x = x) :
    Function.Bijective f := by
  obtain ⟨m, rfl⟩ : ∃ m, n = m + 1 := ⟨n - 1, by omega⟩
  constructor
  · intro x y hxy
    have hx := h x
    have hy := h y
    rw [Function.iterate_succ_apply] at hx hy
    rw [← hx, ← hy, hxy]
  · intro y
    have hy := h y
    rw [Function.iterate_succ_apply'] at hy
    exact ⟨f^[m] y, hy⟩

theorem bij64 : Function.Bijective step64 :=
  bij_of_iter step64 (2 ^ 64 - 1) (by norm_num) iter64

theorem bij128 : Function.Bijective step128 :=
  bij_of_iter step128 (2 ^ 128 - 1) (by norm_num) iter128

/-- states are pairs of numbers -/
def stEquiv (w : Nat) : St w ≃ Fin (2 ^ w) × Fin (2 ^ w) where
  toFun g := (g.a.toFin, g.b.toFin)
  invFun q := ⟨⟨q.1⟩, ⟨q.2⟩⟩
  left_inv _ := rfl
  right_inv _ := rfl

instance (w : Nat) : Fintype (St w) := Fintype.ofEquiv _ (stEquiv w).symm

theorem card_St (w : Nat) : Fintype.card (St w) = 2 ^ w * 2 ^ w := by
  rw [Fintype.card_congr (stEquiv w), Fintype.card_prod, Fintype.card_fin]

theorem visits64 (g h : St 32) (hg : g ≠ ⟨0, 0⟩) (hh : h ≠ ⟨0, 0⟩) :
    ∃ k, k < 2 ^ 64 - 1 ∧ step64^[k] g = h :=
  orbit_all step64 bij64.1 step64_zero (2 ^ 64 - 1) (by rw [card_St]; norm_num)
    (fun v hv k => period64 v hv k) g h hg hh

theorem visits128 (g h : St 64) (hg : g ≠ ⟨0, 0⟩) (hh : h ≠ ⟨0, 0⟩) :
    ∃ k, k < 2 ^ 128 - 1 ∧ step128^[k] g = h :=
  orbit_all step128 bij128.1 step128_zero (2 ^ 128 - 1) (by rw [card_St]; norm_num)
    (fun v hv k => period128 v hv k) g h hg hh

end CE.Random
