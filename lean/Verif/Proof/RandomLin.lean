import Verif.Model.Random
import Verif.Proof.Gf2Period
/-! The xoroshiro state space as a vector space over GF(2), and linearity of the step functions. -/
namespace CE.Random
open CE.Gf2

variable {w : Nat}

instance : Add (St w) := ⟨fun x y => ⟨x.a ^^^ y.a, x.b ^^^ y.b⟩⟩
instance : Zero (St w) := ⟨⟨0, 0⟩⟩
instance : Neg (St w) := ⟨fun x => x⟩

theorem add_def (x y : St w) : x + y = ⟨x.a ^^^ y.a, x.b ^^^ y.b⟩ := rfl
theorem zero_def : (0 : St w) = ⟨0, 0⟩ := rfl

instance : AddCommGroup (St w) where
  add_assoc x y z := by simp [add_def, BitVec.xor_assoc]
  zero_add x := by simp [add_def, zero_def]
  add_zero x := by simp [add_def, zero_def]
  add_comm x y := by simp [add_def, BitVec.xor_comm]
  nsmul := nsmulRec
  zsmul := zsmulRec
  neg_add_cancel x := by
    change (⟨x.a ^^^ x.a, x.b ^^^ x.b⟩ : St w) = ⟨0, 0⟩
    simp

theorem add_self (x : St w) : x + x = 0 := by simp [add_def, zero_def]

theorem rotl32_xor (x y : BitVec 32) (k : Nat) :
    rotl32 (x ^^^ y) k = rotl32 x k ^^^ rotl32 y k := by
  unfold rotl32
  ext i hi
  simp only [BitVec.getElem_or, BitVec.getElem_xor, BitVec.getElem_shiftLeft,
    BitVec.getElem_ushiftRight, BitVec.getLsbD_xor]
  by_cases h : i < k % 32
  · simp [h]
  · have h' : 32 - k % 32 + i ≥ 32 := by omega
    simp [h, BitVec.getLsbD_of_ge _ _ h']

theorem rotl64_xor (x y : BitVec 64) (k : Nat) (hk : k < 64) :
    rotl64 (x ^^^ y) k = rotl64 x k ^^^ rotl64 y k := by
  unfold rotl64
  ext i hi
  simp only [BitVec.getElem_or, BitVec.getElem_xor, BitVec.getElem_shiftLeft,
    BitVec.getElem_ushiftRight, BitVec.getLsbD_xor]
  by_cases h : i < k
  · simp [h]
  · have h' : 64 - k + i ≥ 64 := by omega
    simp [h, BitVec.getLsbD_of_ge _ _ h']

theorem xor4 {n : Nat} (a b c d e f : BitVec n) :
    (a ^^^ d) ^^^ (b ^^^ e) ^^^ (c ^^^ f) = (a ^^^ b ^^^ c) ^^^ (d ^^^ e ^^^ f) := by
  ext i hi
  simp only [BitVec.getElem_xor]
  cases a[i] <;> cases b[i] <;> cases c[i] <;> cases d[i] <;> cases e[i] <;> cases f[i] <;> rfl

theorem xor22 {n : Nat} (a b c d : BitVec n) :
    (a ^^^ b) ^^^ (c ^^^ d) = (a ^^^ c) ^^^ (b ^^^ d) := by
  ext i hi
  simp only [BitVec.getElem_xor]
  cases a[i] <;> cases b[i] <;> cases c[i] <;> cases d[i] <;> rfl

theorem step64_add (x y : St 32) : step64 (x + y) = step64 x + step64 y := by
  simp only [step64, add_def, rotl32_xor, xor22 x.b y.b x.a y.a, BitVec.shiftLeft_xor_distrib]
  simp only [St.mk.injEq, and_true]
  rw [xor4]

theorem step128_add (x y : St 64) : step128 (x + y) = step128 x + step128 y := by
  simp only [step128, add_def, rotl64_xor _ _ 49 (by omega), rotl64_xor _ _ 28 (by omega),
    xor22 x.a y.a x.b y.b, BitVec.shiftLeft_xor_distrib]
  simp only [St.mk.injEq, and_true]
  rw [xor4]

/-- `step64` as a linear map -/
def T64 : AddMonoid.End (St 32) := AddMonoidHom.mk' step64 step64_add
/-- `step128` as a linear map -/
def T128 : AddMonoid.End (St 64) := AddMonoidHom.mk' step128 step128_add

/-- an additive function that vanishes on single bits vanishes -/
theorem hom_eq_zero (f : AddMonoid.End (St w))
    (ha : ∀ i, i < w → f ⟨BitVec.twoPow w i, 0⟩ = 0)
    (hb : ∀ i, i < w → f ⟨0, BitVec.twoPow w i⟩ = 0) : f = 0 := by
  have key : ∀ (emb : BitVec w → St w) (_ : ∀ x y, emb (x ^^^ y) = emb x + emb y)
      (_ : ∀ i, i < w → f (emb (BitVec.twoPow w i)) = 0) (k : Nat) (x : BitVec w),
      (∀ i, k ≤ i → x.getLsbD i = false) → f (emb x) = 0 := by
    intro emb hemb hf k
    induction k with
    | zero =>
      intro x hx
      have : x = 0 := by ext i hi; rw [← BitVec.getLsbD_eq_getElem, hx i (by omega)]; simp
      subst this
      have h0 := hemb 0 0
      rw [add_self] at h0
      simp only [BitVec.xor_self] at h0
      change f (emb 0) = 0
      have : emb 0 = 0 := h0
      rw [this, map_zero]
    | succ k ih =>
      intro x hx
      by_cases h : x.getLsbD k = true
      · have hk : k < w := by
          by_contra hk
          rw [BitVec.getLsbD_of_ge _ _ (by omega)] at h
          exact absurd h (by simp)
        have e : x = (x ^^^ BitVec.twoPow w k) ^^^ BitVec.twoPow w k := by
          rw [BitVec.xor_assoc]; simp
        rw [e, hemb, map_add, hf k hk, add_zero]
        apply ih
        intro i hi
        rw [BitVec.getLsbD_xor, BitVec.getLsbD_twoPow]
        rcases Nat.eq_or_lt_of_le hi with rfl | hi
        · simp [h, hk]
        · rw [hx i hi]
          have : ¬ (k = i) := by omega
          simp [this]
      · apply ih
        intro i hi
        rcases Nat.eq_or_lt_of_le hi with rfl | hi
        · simpa using h
        · exact hx i hi
  refine AddMonoidHom.ext fun x => ?_
  change f x = 0
  have e : x = (⟨x.a, 0⟩ : St w) + ⟨0, x.b⟩ := by simp [add_def]
  rw [e, map_add]
  have h1 := key (fun v => ⟨v, 0⟩) (by intro x y; simp [add_def]) ha w x.a
    (fun i hi => BitVec.getLsbD_of_ge _ _ hi)
  have h2 := key (fun v => ⟨0, v⟩) (by intro x y; simp [add_def]) hb w x.b
    (fun i hi => BitVec.getLsbD_of_ge _ _ hi)
  rw [h1, h2, add_zero]

/-- polynomial `f` of degree below `k` applied to a state -/
def evS (step : St w → St w) : Nat → Nat → St w → St w
  | 0, _, _ => ⟨0, 0⟩
  | k + 1, f, v =>
    let r := step (evS step k (f / 2) v)
    bif Nat.beq (f % 2) 1 then ⟨v.a ^^^ r.a, v.b ^^^ r.b⟩ else r

theorem evS_eq (T : AddMonoid.End (St w)) (k f : Nat) (v : St w) :
    evS T k f v = (ev T k f) v := by
  induction k generalizing f with
  | zero => rfl
  | succ k ih =>
    unfold evS ev
    rw [ih]
    change _ = (if f % 2 = 1 then (1 : AddMonoid.End (St w)) else 0) v + T ((ev T k (f / 2)) v)
    rcases Nat.mod_two_eq_zero_or_one f with h | h
    · rw [h]; simp only [Nat.beq, cond_false]; simp
    · rw [h]; simp only [Nat.beq, cond_true]; rfl

end CE.Random
