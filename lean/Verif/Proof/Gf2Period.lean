import Verif.Proof.Gf2
import Mathlib.Algebra.Group.Hom.End
import Mathlib.Dynamics.PeriodicPts.Lemmas
import Mathlib.Data.Fintype.Card
import Mathlib.Data.Finset.Card
import Mathlib.Data.List.Prime
/-!
Exact period of a linear map over GF(2) from a certificate: an annihilating polynomial `p`, the
factorisation of `N = 2^n - 1`, and for each prime factor `q` an inverse of `x^(N/q) + 1` modulo
`p`.
-/
namespace CE.Gf2

/-- a certificate that `x` has order exactly `N` modulo `p` (and that this is so on every vector) -/
structure Cert (n p N : Nat) (qs : List (Nat × Nat)) : Prop where
  hn : 1 < n
  hpn : p < 2 ^ (n + 1)
  hpb : p.testBit n = true
  hN : N < 2 ^ n
  one : pow n p n 2 N = 1
  fac : (qs.map Prod.fst).prod = N
  primes : ∀ q ∈ qs.map Prod.fst, q.Prime
  inv : ∀ q ∈ qs, mul n p n (pow n p n 2 (N / q.1) ^^^ 1) q.2 = 1

variable {V : Type} [AddCommGroup V]

theorem iterate_eq_iff (h2 : ∀ v : V, v + v = 0) (T : AddMonoid.End V) {n p N : Nat}
    {qs : List (Nat × Nat)} (c : Cert n p N qs) (hp : ev T (n + 1) p = 0) (v : V) (hv : v ≠ 0)
    (k : Nat) : T^[k] v = v ↔ N ∣ k := by
  have h2R : ∀ x : AddMonoid.End V, x + x = 0 := fun x => AddMonoidHom.ext fun y => h2 (x y)
  have two_lt : 2 < 2 ^ n := by
    have : 2 ^ 2 ≤ 2 ^ n := Nat.pow_le_pow_right (by omega) c.hn
    omega
  have hpow : ∀ e, e < 2 ^ n → ev T n (pow n p n 2 e) = T ^ e := fun e he => by
    rw [ev_pow T n p hp c.hpn c.hpb h2R (by have := c.hn; omega) n 2 e two_lt he,
      ev_two T n c.hn]
  have hone : T ^ N = 1 := by
    rw [← hpow N c.hN, c.one, ev_one T n (by have := c.hn; omega)]
  have hit : ∀ e, (T ^ e) v = T^[e] v := fun e => by rw [AddMonoid.End.coe_pow]
  have hper : Function.IsPeriodicPt T N v := by
    change T^[N] v = v
    rw [← hit, hone]; rfl
  have hmp : Function.minimalPeriod T v = N := by
    by_contra hne
    have hdvd := hper.minimalPeriod_dvd
    obtain ⟨m, hm⟩ := hdvd
    have hm1 : m ≠ 1 := fun h => hne (by rw [hm, h, mul_one])
    obtain ⟨q, hq, hqm⟩ : ∃ q, q.Prime ∧ q ∣ m :=
      ⟨m.minFac, Nat.minFac_prime hm1, Nat.minFac_dvd m⟩
    have hqN : q ∣ N := hm ▸ Dvd.dvd.mul_left hqm _
    rw [← c.fac] at hqN
    obtain ⟨r, hr, hqr⟩ := (Prime.dvd_prod_iff hq.prime).mp hqN
    have : q = r := (Nat.prime_dvd_prime_iff_eq hq (c.primes r hr)).mp hqr
    subst this
    obtain ⟨⟨q', h⟩, hmem, hq'⟩ := List.mem_map.mp hr
    simp only at hq'
    subst hq'
    have hi := c.inv _ hmem
    simp only at hi
    have hlt : N / q' < 2 ^ n := lt_of_le_of_lt (Nat.div_le_self _ _) c.hN
    have hfix : T^[N / q'] v = v := by
      obtain ⟨m', hm'⟩ := hqm
      have hqpos : 0 < q' := hq.pos
      have : N / q' = Function.minimalPeriod T v * m' := by
        rw [hm, hm']
        rw [show Function.minimalPeriod (⇑T) v * (q' * m') =
          q' * (Function.minimalPeriod (⇑T) v * m') by ring]
        exact Nat.mul_div_cancel_left _ hqpos
      rw [this]
      exact (Function.isPeriodicPt_minimalPeriod T v).mul_const m'
    have hplt := pow_lt n p c.hpn c.hpb (by have := c.hn; omega) n 2 (N / q') two_lt
    have hxlt : pow n p n 2 (N / q') ^^^ 1 < 2 ^ n :=
      Nat.xor_lt_two_pow hplt (by omega)
    have e1 := ev_mul T n p hp c.hpn c.hpb h2R n _ h hxlt
    rw [hi, ev_xor T h2R, hpow _ hlt, ev_one T n (by have := c.hn; omega)] at e1
    have hcomm : ∀ (k f : Nat) (s : AddMonoid.End V), T * s = s * T →
        s * ev T k f = ev T k f * s := by
      intro k
      induction k with
      | zero => intro f s _; simp [ev]
      | succ k ih =>
        intro f s hs
        simp only [ev, mul_add, add_mul]
        rw [← mul_assoc, ← hs, mul_assoc, ih _ s hs, ← mul_assoc]
        congr 1
        split <;> simp
    have hc : (T ^ (N / q') + 1) * ev T n h = ev T n h * (T ^ (N / q') + 1) := by
      apply hcomm
      rw [mul_add, add_mul, mul_one, one_mul, ← pow_succ, ← pow_succ']
    rw [hc] at e1
    have e2 := congrArg (fun s : AddMonoid.End V => s v) e1
    have e3 : (T ^ (N / q') + 1) v = 0 := by
      change (T ^ (N / q')) v + v = 0
      rw [hit, hfix, h2]
    change v = (ev T n h) ((T ^ (N / q') + 1) v) at e2
    rw [e3, map_zero] at e2
    exact hv e2
  rw [← hmp]
  exact Function.isPeriodicPt_iff_minimalPeriod_dvd

/-- in a finite space with `N + 1` elements the orbit of a non-zero vector is everything else -/
theorem orbit_all [Fintype V] [DecidableEq V] (T : V → V) (hT : Function.Injective T) (h0 : T 0 = 0)
    (N : Nat) (hcard : Fintype.card V = N + 1)
    (hk : ∀ v : V, v ≠ 0 → ∀ k, T^[k] v = v ↔ N ∣ k) (v w : V) (hv : v ≠ 0) (hw : w ≠ 0) :
    ∃ k, k < N ∧ T^[k] v = w := by
  have hi0 : ∀ k, T^[k] 0 = 0 := fun k => Function.iterate_fixed h0 k
  have hinj : Set.InjOn (fun k => T^[k] v) (Finset.range N : Set Nat) := by
    have aux : ∀ i j, i ≤ j → j < N → T^[i] v = T^[j] v → i = j := by
      intro i j hij hj h
      obtain ⟨d, rfl⟩ := Nat.exists_eq_add_of_le hij
      rw [Function.iterate_add_apply] at h
      have := hT.iterate i h
      have := (hk v hv d).mp this.symm
      rcases Nat.eq_zero_or_pos d with rfl | hd
      · rfl
      · have := Nat.le_of_dvd hd this
        omega
    intro i hi j hj h
    simp only [Finset.coe_range, Set.mem_Iio] at hi hj
    rcases Nat.le_total i j with hij | hij
    · exact aux i j hij hj h
    · exact (aux j i hij hi h.symm).symm
  have hcardI : ((Finset.range N).image (fun k => T^[k] v)).card = N := by
    rw [Finset.card_image_of_injOn hinj, Finset.card_range]
  have hsub : (Finset.range N).image (fun k => T^[k] v) ⊆ (Finset.univ.erase (0 : V)) := by
    intro x hx
    obtain ⟨k, _, rfl⟩ := Finset.mem_image.mp hx
    simp only [Finset.mem_erase, Finset.mem_univ, and_true]
    intro h
    exact hv (hT.iterate k (h.trans (hi0 k).symm))
  have heq := Finset.eq_of_subset_of_card_le hsub (by
    rw [hcardI, Finset.card_erase_of_mem (Finset.mem_univ _), Finset.card_univ, hcard]; omega)
  have : w ∈ (Finset.range N).image (fun k => T^[k] v) := by
    rw [heq]; simp [hw]
  obtain ⟨k, hk', rfl⟩ := Finset.mem_image.mp this
  exact ⟨k, Finset.mem_range.mp hk', rfl⟩

end CE.Gf2
