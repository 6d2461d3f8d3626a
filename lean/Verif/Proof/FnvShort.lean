import Verif.Proof.Fnv
import Mathlib.Data.Nat.ModEq
import Mathlib.Tactic.Ring
import Mathlib.Tactic.Linarith
/-! Short differences under FNV-1a, on natural numbers.  The prime is `256 * Q + r` and the hash has `256 * M` values. -/
namespace CE.Fnv

/-- one byte -/
def mixN (P W x c : Nat) : Nat := ((x ^^^ c) * P) % W

theorem xor_low (x : Nat) {c : Nat} (hc : c < 256) : x ^^^ c = 256 * (x / 256) + (x % 256 ^^^ c) := by
  have h1 : (x ^^^ c) % 2 ^ 8 = x % 2 ^ 8 ^^^ c % 2 ^ 8 := Nat.xor_mod_two_pow
  have h2 : (x ^^^ c) / 2 ^ 8 = x / 2 ^ 8 ^^^ c / 2 ^ 8 := Nat.xor_div_two_pow
  rw [Nat.mod_eq_of_lt (show c < 2 ^ 8 by omega)] at h1
  rw [Nat.div_eq_of_lt (show c < 2 ^ 8 by omega), Nat.xor_zero] at h2
  have := Nat.div_add_mod (x ^^^ c) (2 ^ 8)
  rw [h1, h2] at this
  exact this.symm

theorem xor_low_lt (x : Nat) {c : Nat} (hc : c < 256) : x % 256 ^^^ c < 256 :=
  Nat.xor_lt_two_pow (n := 8) (Nat.mod_lt _ (by omega)) hc

/-- the high part of the hash after a byte -/
theorem mixN_high {r Q M : Nat} (x : Nat) {c : Nat} (hc : c < 256) :
    mixN (256 * Q + r) (256 * M) x c / 256 =
      (x / 256 * (256 * Q + r) + (x % 256 ^^^ c) * Q + r * (x % 256 ^^^ c) / 256) % M := by
  unfold mixN
  rw [xor_low x hc, Nat.mod_mul_right_div_self]
  congr 1
  generalize x % 256 ^^^ c = l
  generalize x / 256 = q
  rw [show (256 * q + l) * (256 * Q + r) = 256 * (q * (256 * Q + r) + l * Q) + r * l by ring, Nat.mul_add_div (by omega)]

/-- the low bytes that enter the products -/
def lows (P W : Nat) : Nat → List Nat → List Nat
  | _, [] => []
  | x, c :: cs => (x % 256 ^^^ c) :: lows P W (mixN P W x c) cs

theorem lows_length (P W : Nat) : ∀ (cs : List Nat) (x : Nat), (lows P W x cs).length = cs.length
  | [], _ => rfl
  | _ :: cs, x => by rw [lows, List.length_cons, lows_length P W cs, List.length_cons]

theorem lows_lt (P W : Nat) : ∀ (cs : List Nat) (x : Nat), (∀ c ∈ cs, c < 256) → ∀ l ∈ lows P W x cs, l < 256
  | [], _, _ => by simp [lows]
  | c :: cs, x, h => by
    intro l hl
    rcases List.mem_cons.1 hl with e | e
    · exact e ▸ xor_low_lt x (h c (by simp))
    · exact lows_lt P W cs _ (fun d hd => h d (by simp [hd])) l e

theorem lows_inj (P W : Nat) : ∀ (cs ds : List Nat) (x : Nat), lows P W x cs = lows P W x ds → cs = ds
  | [], [], _, _ => rfl
  | [], _ :: _, _, h => by simp [lows] at h
  | _ :: _, [], _, h => by simp [lows] at h
  | c :: cs, d :: ds, x, h => by
    simp only [lows, List.cons.injEq] at h
    have e : c = d := by
      have := congrArg (x % 256 ^^^ ·) h.1
      simpa [← Nat.xor_assoc] using this
    subst e
    rw [lows_inj P W cs ds _ h.2]

/-- the two sums that make up the high part -/
def step (r : Nat) (s : Nat × Nat) (l : Nat) : Nat × Nat := (r * s.1 + r * l / 256, r * s.2 + 256 * s.1 + l)

theorem fold_high {r Q M : Nat} (hM : M ∣ 256 * Q * Q) : ∀ (cs : List Nat) (x a : Nat) (s : Nat × Nat), (∀ c ∈ cs, c < 256) →
    x / 256 ≡ a + s.1 + Q * s.2 [MOD M] →
    cs.foldl (mixN (256 * Q + r) (256 * M)) x / 256 ≡
      a * (256 * Q + r) ^ cs.length + ((lows (256 * Q + r) (256 * M) x cs).foldl (step r) s).1 +
        Q * ((lows (256 * Q + r) (256 * M) x cs).foldl (step r) s).2 [MOD M]
  | [], x, a, s, _, h => by simpa [lows] using h
  | c :: cs, x, a, s, hc, h => by
    rw [List.foldl_cons, lows, List.foldl_cons, List.length_cons, pow_succ']
    have ih := fold_high hM (r := r) cs (mixN (256 * Q + r) (256 * M) x c) (a * (256 * Q + r)) (step r s (x % 256 ^^^ c))
      (fun d hd => hc d (by simp [hd])) (by
        rw [mixN_high x (hc c (by simp))]
        generalize x % 256 ^^^ c = l
        refine (Nat.mod_modEq _ _).trans ?_
        refine (((h.mul_right (256 * Q + r)).add_right (l * Q)).add_right (r * l / 256)).trans ?_
        unfold step
        obtain ⟨z, hz⟩ := hM
        have e : (a + s.1 + Q * s.2) * (256 * Q + r) + l * Q + r * l / 256 =
            (a * (256 * Q + r) + (r * s.1 + r * l / 256) + Q * (r * s.2 + 256 * s.1 + l)) + M * (z * s.2) := by
          rw [← mul_assoc, ← hz]; ring
        rw [e]
        unfold Nat.ModEq; rw [Nat.add_mul_mod_self_left])
    rw [← mul_assoc]
    exact ih

/-- with nothing before, the sum is a number in base `r` -/
def num (r : Nat) : List Nat → Nat
  | [] => 0
  | f :: fs => f * r ^ fs.length + num r fs

theorem step_fst (r : Nat) : ∀ (ls : List Nat) (s : Nat × Nat),
    (ls.foldl (step r) s).1 = s.1 * r ^ ls.length + num r (ls.map fun l => r * l / 256)
  | [], s => by simp [num]
  | l :: ls, s => by
    rw [List.foldl_cons, step_fst r ls, List.map_cons, num, step]
    simp only [List.length_cons, List.length_map, pow_succ]
    ring

/-! ## the search -/

/-- `k n`, with `n` evaluated first -/
def force {α : Type} (n : Nat) (k : Nat → α) : α := Nat.rec (k 0) (fun m _ => k (m + 1)) n

theorem force_eq {α : Type} (n : Nat) (k : Nat → α) : force n k = k n := by cases n <;> rfl

/-- one digit: `g` in `0 .. 2 * fm` is a difference moved up by `fm`, `h` the difference of the bytes moved up by 255 -/
def tryOne (r fm g : Nat) (k : Nat → Bool) : Bool :=
  Nat.blt (2 * fm) g || force ((256 * g + 255 + 255 * r - 256 * fm) / r) fun h =>
    (Nat.blt (r * h + 255 + 256 * fm) (256 * g + 255 * r) || k h) &&
    (Nat.blt (r * (h - 1) + 255 + 256 * fm) (256 * g + 255 * r) || k (h - 1))

/-- no `n` digits that add up to `R` have second sum `cst` -/
def search (r fm K cst : Nat) (n : Nat) : Nat → Nat → Nat → Bool :=
  Nat.rec (fun R _ B => !(Nat.beq R 0 && Nat.beq (B % K) cst))
    (fun n ih R A B => force (R / r ^ n) fun c =>
      (force (R - c * r ^ n) fun R' => force (r * A + c) fun A' => tryOne r fm c fun h => force (r * B + 256 * A + h) fun B' => ih R' A' B') &&
      (Nat.beq n 0 || Nat.beq c 0 || force (R - (c - 1) * r ^ n) fun R' => force (r * A + (c - 1)) fun A' => tryOne r fm (c - 1) fun h =>
        force (r * B + 256 * A + h) fun B' => ih R' A' B')) n

theorem search_succ (r fm K cst n R A B : Nat) : search r fm K cst (n + 1) R A B =
    ((tryOne r fm (R / r ^ n) fun h => search r fm K cst n (R - R / r ^ n * r ^ n) (r * A + R / r ^ n) (r * B + 256 * A + h)) &&
      (Nat.beq n 0 || Nat.beq (R / r ^ n) 0 || tryOne r fm (R / r ^ n - 1) fun h =>
        search r fm K cst n (R - (R / r ^ n - 1) * r ^ n) (r * A + (R / r ^ n - 1)) (r * B + 256 * A + h))) := by
  have e : search r fm K cst (n + 1) R A B = force (R / r ^ n) fun c =>
      (force (R - c * r ^ n) fun R' => force (r * A + c) fun A' => tryOne r fm c fun h => force (r * B + 256 * A + h) fun B' =>
        search r fm K cst n R' A' B') &&
      (Nat.beq n 0 || Nat.beq c 0 || force (R - (c - 1) * r ^ n) fun R' => force (r * A + (c - 1)) fun A' => tryOne r fm (c - 1) fun h =>
        force (r * B + 256 * A + h) fun B' => search r fm K cst n R' A' B') := rfl
  rw [e]
  simp only [force_eq]

/-- a digit of the difference with the byte difference it belongs to -/
def Fit (r fm : Nat) (d : Nat × Nat) : Prop :=
  d.1 ≤ 2 * fm ∧ r * d.2 + 256 * fm ≤ 256 * d.1 + 255 + 255 * r ∧ 256 * d.1 + 255 * r ≤ r * d.2 + 255 + 256 * fm

/-- the second sum -/
def step2 (r : Nat) (s : Nat × Nat) (d : Nat × Nat) : Nat × Nat := (r * s.1 + d.1, r * s.2 + 256 * s.1 + d.2)

theorem num_lt {r b : Nat} (hb : b ≤ 2 * (r - 1)) (hr : 0 < r) : ∀ ds : List Nat, (∀ d ∈ ds, d ≤ b) → num r ds + 2 ≤ 2 * r ^ ds.length
  | [], _ => by simp [num]
  | d :: ds, h => by
    have ih := num_lt hb hr ds fun e he => h e (by simp [he])
    have hd := h d (by simp)
    rw [num, List.length_cons, pow_succ]
    obtain ⟨r, rfl⟩ : ∃ q, r = q + 1 := ⟨r - 1, by omega⟩
    simp only [Nat.add_sub_cancel] at hb
    generalize num (r + 1) ds = x at *
    generalize (r + 1) ^ ds.length = w at *
    have : d * w ≤ (2 * r) * w := Nat.mul_le_mul_right _ (by omega)
    nlinarith

theorem search_none {r fm K cst : Nat} (hr : 256 ≤ r) (hfm : fm ≤ r - 1) (hlow : 256 * fm ≤ 255 + 255 * r) :
    ∀ (ds : List (Nat × Nat)) (A B : Nat), (∀ d ∈ ds, Fit r fm d) →
      (ds.foldl (step2 r) (A, B)).2 % K = cst → search r fm K cst ds.length (num r (ds.map Prod.fst)) A B = false
  | [], A, B, _, h => by
    simp only [List.foldl_nil] at h
    simp [search, num, h]
  | d :: ds, A, B, hd, h => by
    obtain ⟨f1, f2, f3⟩ := hd d (by simp)
    have ih := search_none hr hfm hlow ds (r * A + d.1) (r * B + 256 * A + d.2) (fun e he => hd e (by simp [he])) h
    have lt := num_lt (b := 2 * fm) (r := r) (by omega) (by omega) (ds.map Prod.fst) (by
      intro e he
      obtain ⟨p, hp, rfl⟩ := List.mem_map.1 he
      exact (hd p (by simp [hp])).1)
    have zero : ds.length = 0 → num r (ds.map Prod.fst) = 0 := by
      intro e
      rw [List.length_eq_zero_iff.1 e]; rfl
    rw [List.length_map] at lt
    rw [List.length_cons, List.map_cons, num, List.length_map]
    -- the value of one try
    have one : (tryOne r fm d.1 fun h =>
        search r fm K cst ds.length (d.1 * r ^ ds.length + num r (ds.map Prod.fst) - d.1 * r ^ ds.length) (r * A + d.1) (r * B + 256 * A + h)) = false := by
      rw [Nat.add_sub_cancel_left]
      have e1 : Nat.blt (2 * fm) d.1 = false := by
        rw [Bool.eq_false_iff, Ne, Nat.blt_eq]; omega
      have e2 : Nat.blt (r * d.2 + 255 + 256 * fm) (256 * d.1 + 255 * r) = false := by
        rw [Bool.eq_false_iff, Ne, Nat.blt_eq]; omega
      unfold tryOne
      rw [force_eq, e1, Bool.false_or]
      have c : d.2 = (256 * d.1 + 255 + 255 * r - 256 * fm) / r ∨ d.2 = (256 * d.1 + 255 + 255 * r - 256 * fm) / r - 1 := by
        have up : d.2 ≤ (256 * d.1 + 255 + 255 * r - 256 * fm) / r := by
          rw [Nat.le_div_iff_mul_le (by omega), mul_comm]; omega
        have lo : (256 * d.1 + 255 + 255 * r - 256 * fm) / r < d.2 + 2 := by
          rw [Nat.div_lt_iff_lt_mul (by omega), Nat.add_mul, mul_comm d.2]; omega
        omega
      rcases c with c | c <;> rw [← c] <;> beta_reduce <;> rw [e2, ih] <;> simp
    generalize num r (ds.map Prod.fst) = rest at *
    have hw : 0 < r ^ ds.length := Nat.pow_pos (by omega)
    rw [search_succ]
    by_cases c : rest < r ^ ds.length
    · have e : (d.1 * r ^ ds.length + rest) / r ^ ds.length = d.1 := by
        rw [mul_comm, Nat.mul_add_div hw, Nat.div_eq_of_lt c, Nat.add_zero]
      rw [e]
      exact Bool.and_eq_false_imp.2 fun h1 => absurd (h1.symm.trans one) (by decide)
    · have e : (d.1 * r ^ ds.length + rest) / r ^ ds.length = d.1 + 1 := by
        rw [mul_comm, Nat.mul_add_div hw]
        congr 1
        rw [Nat.div_eq_iff hw]
        omega
      have n0 : ds.length ≠ 0 := by
        intro n0
        rw [zero n0, n0] at c
        exact c (by simp)
      rw [e, Nat.add_sub_cancel]
      have b1 : Nat.beq ds.length 0 = false := by
        rw [Bool.eq_false_iff, Ne, Nat.beq_eq]; exact n0
      have b2 : Nat.beq (d.1 + 1) 0 = false := rfl
      rw [b1, b2, Bool.false_or, Bool.false_or]
      refine Bool.and_eq_false_imp.2 fun _ => one

/-- the search for the multiples `lo + 1, ..., lo + m` -/
def searchAll (r fm K Q n sw cst lo m : Nat) : Bool :=
  Nat.rec true (fun j ih => (force (lo + j + 1) fun k => search r fm K ((cst + K * k - k) % K) n (k * Q + sw) 0 0) && ih) m

theorem searchAll_at {r fm K Q n sw cst lo : Nat} : ∀ {m}, searchAll r fm K Q n sw cst lo m = true → ∀ k, lo < k → k ≤ lo + m →
    search r fm K ((cst + K * k - k) % K) n (k * Q + sw) 0 0 = true
  | 0, _, k, h1, h2 => by omega
  | m + 1, h, k, h1, h2 => by
    have h' : ((force (lo + m + 1) fun k => search r fm K ((cst + K * k - k) % K) n (k * Q + sw) 0 0) && searchAll r fm K Q n sw cst lo m) = true := h
    rw [Bool.and_eq_true, force_eq] at h'
    rcases Nat.lt_or_ge k (lo + m + 1) with c | c
    · exact searchAll_at h'.2 k h1 (by omega)
    · rw [show k = lo + m + 1 by omega]; exact h'.1

theorem all32 : searchAll 403 401 (2 ^ 8) (2 ^ 16) 2 162004 205676 0 2 = true := by decide +kernel
theorem all64a : searchAll 435 433 (2 ^ 24) (2 ^ 32) 5 15539765168713 45711486265063 0 1000 = true := by decide +kernel
theorem all64b : searchAll 435 433 (2 ^ 24) (2 ^ 32) 5 15539765168713 45711486265063 1000 900 = true := by decide +kernel
theorem all64c : searchAll 435 433 (2 ^ 24) (2 ^ 32) 5 15539765168713 45711486265063 1900 900 = true := by decide +kernel
theorem all64d : searchAll 435 433 (2 ^ 24) (2 ^ 32) 5 15539765168713 45711486265063 2800 900 = true := by decide +kernel

theorem at64 (k : Nat) (h1 : 0 < k) (h2 : k ≤ 3700) :
    search 435 433 (2 ^ 24) ((45711486265063 + 2 ^ 24 * k - k) % 2 ^ 24) 5 (k * 2 ^ 32 + 15539765168713) 0 0 = true := by
  rcases Nat.lt_or_ge 1000 k with c1 | c1
  · rcases Nat.lt_or_ge 1900 k with c2 | c2
    · rcases Nat.lt_or_ge 2800 k with c3 | c3
      · exact searchAll_at all64d k c3 h2
      · exact searchAll_at all64c k c2 c3
    · exact searchAll_at all64b k c1 c2
  · exact searchAll_at all64a k h1 (by omega)

/-! ## from two lists to the search -/

theorem step2_fst (r : Nat) : ∀ (ds : List (Nat × Nat)) (s : Nat × Nat),
    (ds.foldl (step2 r) s).1 = s.1 * r ^ ds.length + num r (ds.map Prod.fst)
  | [], s => by simp [num]
  | d :: ds, s => by
    rw [List.foldl_cons, step2_fst r ds, List.map_cons, num, step2]
    simp only [List.length_cons, List.length_map, pow_succ]
    ring

/-- the differences of two lists -/
def diffs (r fm : Nat) (ls ls' : List Nat) : List (Nat × Nat) :=
  List.zipWith (fun l l' => (r * l / 256 + fm - r * l' / 256, l + 255 - l')) ls ls'

theorem diffs_sum {r fm : Nat} (hfm : r * 255 / 256 = fm) : ∀ (ls ls' : List Nat) (s s' c d : Nat × Nat), ls.length = ls'.length →
    (∀ l ∈ ls, l < 256) → (∀ l ∈ ls', l < 256) → d.1 + s'.1 = s.1 + c.1 → d.2 + s'.2 = s.2 + c.2 →
    ((diffs r fm ls ls').foldl (step2 r) d).1 + (ls'.foldl (step r) s').1 =
      (ls.foldl (step r) s).1 + ((List.replicate ls.length (fm, 255)).foldl (step2 r) c).1 ∧
    ((diffs r fm ls ls').foldl (step2 r) d).2 + (ls'.foldl (step r) s').2 =
      (ls.foldl (step r) s).2 + ((List.replicate ls.length (fm, 255)).foldl (step2 r) c).2
  | [], [], s, s', c, d, _, _, _, h1, h2 => by simpa [diffs] using ⟨h1, h2⟩
  | [], _ :: _, _, _, _, _, h, _, _, _, _ => by simp at h
  | _ :: _, [], _, _, _, _, h, _, _, _, _ => by simp at h
  | l :: ls, l' :: ls', s, s', c, d, h, hl, hl', h1, h2 => by
    have b : l' < 256 := hl' l' (by simp)
    have up : r * l' / 256 ≤ fm := hfm ▸ Nat.div_le_div_right (Nat.mul_le_mul_left r (by omega))
    simp only [diffs, List.zipWith_cons_cons, List.foldl_cons, List.length_cons, List.replicate_succ]
    refine diffs_sum hfm ls ls' _ _ _ _ (by simpa using h) (fun x hx => hl x (by simp [hx])) (fun x hx => hl' x (by simp [hx])) ?_ ?_
    · simp only [step, step2]
      have := congrArg (r * ·) h1
      simp only [Nat.mul_add] at this
      omega
    · simp only [step, step2]
      have e1 := congrArg (256 * ·) h1
      have e2 := congrArg (r * ·) h2
      simp only [Nat.mul_add] at e1 e2
      omega

theorem diffs_fit {r fm : Nat} (hfm : r * 255 / 256 = fm) : ∀ (ls ls' : List Nat), (∀ l ∈ ls, l < 256) → (∀ l ∈ ls', l < 256) →
    ∀ d ∈ diffs r fm ls ls', Fit r fm d := by
  intro ls ls' h h' d hd
  unfold diffs at hd
  rw [← List.map_uncurry_zip_eq_zipWith] at hd
  obtain ⟨⟨l, l'⟩, hp, rfl⟩ := List.mem_map.1 hd
  obtain ⟨m1, m2⟩ := List.of_mem_zip hp
  have b1 := h _ m1
  have b2 := h' _ m2
  have up : r * l / 256 ≤ fm := hfm ▸ Nat.div_le_div_right (Nat.mul_le_mul_left r (by omega))
  have up' : r * l' / 256 ≤ fm := hfm ▸ Nat.div_le_div_right (Nat.mul_le_mul_left r (by omega))
  have e : r * (l + 255 - l') + r * l' = r * l + r * 255 := by rw [← Nat.mul_add, ← Nat.mul_add]; congr 1; omega
  refine ⟨by dsimp only [Function.uncurry]; omega, ?_, ?_⟩ <;> dsimp only [Function.uncurry] <;> omega

theorem num_inj {r : Nat} : ∀ (as bs : List Nat), as.length = bs.length → (∀ a ∈ as, a < r) → (∀ b ∈ bs, b < r) →
    num r as = num r bs → as = bs
  | [], [], _, _, _, _ => rfl
  | [], _ :: _, h, _, _, _ => by simp at h
  | _ :: _, [], h, _, _, _ => by simp at h
  | a :: as, b :: bs, h, ha, hb, e => by
    have small : ∀ ds : List Nat, (∀ d ∈ ds, d < r) → num r ds < r ^ ds.length := by
      intro ds
      induction ds with
      | nil => intro _; simp [num]
      | cons d ds ih =>
        intro hd
        have := ih fun x hx => hd x (by simp [hx])
        have hd := hd d (by simp)
        rw [num, List.length_cons, pow_succ, mul_comm (r ^ ds.length)]
        calc d * r ^ ds.length + num r ds < d * r ^ ds.length + r ^ ds.length := by omega
          _ = (d + 1) * r ^ ds.length := by ring
          _ ≤ r * r ^ ds.length := Nat.mul_le_mul_right _ hd
    have l : as.length = bs.length := by simpa using h
    have s1 := small as fun x hx => ha x (by simp [hx])
    have s2 := small bs fun x hx => hb x (by simp [hx])
    rw [num, num, l] at e
    rw [l] at s1
    have hw : 0 < r ^ bs.length := by omega
    have q := congrArg (· / r ^ bs.length) e
    have m := congrArg (· % r ^ bs.length) e
    simp only [mul_comm _ (r ^ bs.length), Nat.mul_add_div hw, Nat.mul_add_mod, Nat.div_eq_of_lt s1, Nat.div_eq_of_lt s2,
      Nat.mod_eq_of_lt s1, Nat.mod_eq_of_lt s2, Nat.add_zero] at q m
    rw [q, num_inj as bs l (fun x hx => ha x (by simp [hx])) (fun x hx => hb x (by simp [hx])) m]

theorem scale_inj {r : Nat} (hr : 256 ≤ r) {l l' : Nat} (h : r * l / 256 = r * l' / 256) : l = l' := by
  have key : ∀ a b, a < b → r * a / 256 < r * b / 256 := by
    intro a b hab
    have : r * (a + 1) ≤ r * b := Nat.mul_le_mul_left r hab
    rw [Nat.mul_add, Nat.mul_one] at this
    omega
  rcases Nat.lt_trichotomy l l' with c | c | c
  · have := key _ _ c; omega
  · exact c
  · have := key _ _ c; omega

theorem core_le {r fm Q K n sw cst m : Nat} (hr : 256 ≤ r) (hfm : r * 255 / 256 = fm) (hf1 : fm ≤ r - 1) (hlow : 256 * fm ≤ 255 + 255 * r)
    (hQ : 0 < Q) (hK : 0 < K)
    (hc : (List.replicate n (fm, 255)).foldl (step2 r) (0, 0) = (sw, cst)) (hm : sw < (m + 1) * Q)
    (all : ∀ k, 0 < k → k ≤ m → search r fm K ((cst + K * k - k) % K) n (k * Q + sw) 0 0 = true)
    {ls ls' : List Nat} (hn : ls.length = n) (hn' : ls'.length = n) (hl : ∀ l ∈ ls, l < 256) (hl' : ∀ l ∈ ls', l < 256)
    (le : (ls'.foldl (step r) (0, 0)).1 ≤ (ls.foldl (step r) (0, 0)).1)
    (e : (ls.foldl (step r) (0, 0)).1 + Q * (ls.foldl (step r) (0, 0)).2 ≡
      (ls'.foldl (step r) (0, 0)).1 + Q * (ls'.foldl (step r) (0, 0)).2 [MOD Q * K]) : ls = ls' := by
  obtain ⟨d1, d2⟩ := diffs_sum hfm ls ls' (0, 0) (0, 0) (0, 0) (0, 0) (by omega) hl hl' rfl rfl
  have sn := step2_fst r (diffs r fm ls ls') (0, 0)
  have dl : (diffs r fm ls ls').length = n := by simp [diffs, hn, hn']
  rw [hn, hc] at d1 d2
  have a1 := step_fst r ls (0, 0)
  have a2 := step_fst r ls' (0, 0)
  simp only [Nat.zero_mul, Nat.zero_add] at a1 a2 sn d1 d2
  -- the first sum is at most `sw`
  have top : (ls.foldl (step r) (0, 0)).1 ≤ sw := by
    have : ∀ (ls : List Nat) (s c : Nat × Nat), (∀ l ∈ ls, l < 256) → s.1 ≤ c.1 →
        (ls.foldl (step r) s).1 ≤ ((List.replicate ls.length (fm, 255)).foldl (step2 r) c).1 := by
      intro ls
      induction ls with
      | nil => intro s c _ h; simpa using h
      | cons l ls ih =>
        intro s c h hs
        rw [List.foldl_cons, List.length_cons, List.replicate_succ, List.foldl_cons]
        refine ih _ _ (fun x hx => h x (by simp [hx])) ?_
        have b := h l (by simp)
        have up : r * l / 256 ≤ fm := hfm ▸ Nat.div_le_div_right (Nat.mul_le_mul_left r (by omega))
        have := Nat.mul_le_mul_left r hs
        simp only [step, step2]
        omega
    have t := this ls (0, 0) (0, 0) hl le_rfl
    rwa [hn, hc] at t
  have modQ : (ls.foldl (step r) (0, 0)).1 ≡ (ls'.foldl (step r) (0, 0)).1 [MOD Q] := by
    have := e.of_mul_right K
    unfold Nat.ModEq at this ⊢
    simpa using this
  generalize hα : (ls.foldl (step r) (0, 0)).1 = α at *
  generalize hβ : (ls.foldl (step r) (0, 0)).2 = β at *
  generalize hα' : (ls'.foldl (step r) (0, 0)).1 = α' at *
  generalize hβ' : (ls'.foldl (step r) (0, 0)).2 = β' at *
  obtain ⟨k, hk⟩ := (Nat.modEq_iff_dvd' le).1 modQ.symm
  have ek : α = α' + Q * k := by omega
  have kb : k + β ≡ β' [MOD K] := by
    rw [ek, Nat.add_assoc, ← Nat.mul_add] at e
    exact Nat.ModEq.mul_left_cancel' (by omega) (Nat.ModEq.add_left_cancel' _ e)
  rcases Nat.eq_zero_or_pos k with k0 | k0
  · have : α = α' := by rw [ek, k0]; simp
    have digits := num_inj (r := r) (ls.map fun l => r * l / 256) (ls'.map fun l => r * l / 256) (by simp [hn, hn'])
      (by
        intro a ha
        obtain ⟨l, m, rfl⟩ := List.mem_map.1 ha
        have b := hl l m
        have up : r * l / 256 ≤ fm := hfm ▸ Nat.div_le_div_right (Nat.mul_le_mul_left r (by omega))
        omega)
      (by
        intro a ha
        obtain ⟨l, m, rfl⟩ := List.mem_map.1 ha
        have b := hl' l m
        have up : r * l / 256 ≤ fm := hfm ▸ Nat.div_le_div_right (Nat.mul_le_mul_left r (by omega))
        omega)
      (by rw [← a1, ← a2]; exact this)
    exact (List.map_inj_right fun a b h => scale_inj hr h).1 digits
  · exfalso
    have km : k ≤ m := by
      by_contra c
      have : (m + 1) * Q ≤ k * Q := Nat.mul_le_mul_right Q (by omega)
      rw [mul_comm k] at this
      omega
    have no := all k k0 km
    have R : num r ((diffs r fm ls ls').map Prod.fst) = k * Q + sw := by
      rw [← sn, mul_comm]; omega
    have B : ((diffs r fm ls ls').foldl (step2 r) (0, 0)).2 % K = (cst + K * k - k) % K := by
      have kk : k ≤ K * k := Nat.le_mul_of_pos_left k hK
      have h1 : ((diffs r fm ls ls').foldl (step2 r) (0, 0)).2 + k + (β + β') ≡ cst + (β + β') [MOD K] := by
        have : ((diffs r fm ls ls').foldl (step2 r) (0, 0)).2 + k + (β + β') = (β + cst) + (k + β) := by omega
        rw [this]
        have h := kb.add_left (β + cst)
        rwa [show β + cst + β' = cst + (β + β') by omega] at h
      have h2 := Nat.ModEq.add_right_cancel' _ h1
      have h3 : (cst + K * k - k) + k ≡ cst [MOD K] := by
        rw [Nat.sub_add_cancel (by omega)]
        unfold Nat.ModEq; rw [Nat.add_mul_mod_self_left]
      exact Nat.ModEq.add_right_cancel' k (h2.trans h3.symm)
    have := search_none (cst := (cst + K * k - k) % K) hr hf1 hlow (diffs r fm ls ls') 0 0 (diffs_fit hfm ls ls' hl hl') B
    rw [dl, R, no] at this
    cases this

theorem pad_fold (r j : Nat) (ls : List Nat) : (List.replicate j 0 ++ ls).foldl (step r) (0, 0) = ls.foldl (step r) (0, 0) := by
  induction j with
  | zero => rfl
  | succ j ih =>
    rw [List.replicate_succ, List.cons_append, List.foldl_cons]
    simpa [step] using ih

theorem core {r fm Q K n sw cst m : Nat} (hr : 256 ≤ r) (hfm : r * 255 / 256 = fm) (hf1 : fm ≤ r - 1) (hlow : 256 * fm ≤ 255 + 255 * r)
    (hQ : 0 < Q) (hK : 0 < K) (hM : Q * K ∣ 256 * Q * Q)
    (hc : (List.replicate n (fm, 255)).foldl (step2 r) (0, 0) = (sw, cst)) (hm : sw < (m + 1) * Q)
    (all : ∀ k, 0 < k → k ≤ m → search r fm K ((cst + K * k - k) % K) n (k * Q + sw) 0 0 = true)
    {cs cs' : List Nat} (len : cs.length = cs'.length) (hn : cs.length ≤ n) (h : ∀ c ∈ cs, c < 256) (h' : ∀ c ∈ cs', c < 256) (x : Nat)
    (e : cs.foldl (mixN (256 * Q + r) (256 * (Q * K))) x / 256 = cs'.foldl (mixN (256 * Q + r) (256 * (Q * K))) x / 256) : cs = cs' := by
  have f1 := fold_high (r := r) hM cs x (x / 256) (0, 0) h (by simp; rfl)
  have f2 := fold_high (r := r) hM cs' x (x / 256) (0, 0) h' (by simp; rfl)
  rw [e] at f1
  have f3 := f1.symm.trans f2
  rw [len, Nat.add_assoc, Nat.add_assoc] at f3
  have f4 := Nat.ModEq.add_left_cancel' _ f3
  apply lows_inj (256 * Q + r) (256 * (Q * K)) cs cs' x
  have b1 := lows_lt (256 * Q + r) (256 * (Q * K)) cs x h
  have b2 := lows_lt (256 * Q + r) (256 * (Q * K)) cs' x h'
  have l1 := lows_length (256 * Q + r) (256 * (Q * K)) cs x
  have l2 := lows_length (256 * Q + r) (256 * (Q * K)) cs' x
  generalize lows (256 * Q + r) (256 * (Q * K)) x cs = ls at *
  generalize lows (256 * Q + r) (256 * (Q * K)) x cs' = ls' at *
  rw [← pad_fold r (n - cs.length) ls, ← pad_fold r (n - cs.length) ls'] at f4
  have pad : ∀ ks : List Nat, (∀ l ∈ ks, l < 256) → ∀ l ∈ List.replicate (n - cs.length) 0 ++ ks, l < 256 := by
    intro ks hk l hl
    rcases List.mem_append.1 hl with hl | hl
    · rw [(List.mem_replicate.1 hl).2]; omega
    · exact hk l hl
  rcases le_total ((List.replicate (n - cs.length) 0 ++ ls').foldl (step r) (0, 0)).1
      ((List.replicate (n - cs.length) 0 ++ ls).foldl (step r) (0, 0)).1 with c | c
  · exact List.append_cancel_left (core_le hr hfm hf1 hlow hQ hK hc hm all (by simp; omega) (by simp; omega) (pad _ b1) (pad _ b2) c f4)
  · exact (List.append_cancel_left (core_le hr hfm hf1 hlow hQ hK hc hm all (by simp; omega) (by simp; omega) (pad _ b2) (pad _ b1) c f4.symm)).symm

/-- the high parts of the 32 bit hashes of up to two bytes -/
theorem high32 {cs cs' : List Nat} (len : cs.length = cs'.length) (hn : cs.length ≤ 2) (h : ∀ c ∈ cs, c < 256) (h' : ∀ c ∈ cs', c < 256) (x : Nat)
    (e : cs.foldl (mixN 16777619 (2 ^ 32)) x / 256 = cs'.foldl (mixN 16777619 (2 ^ 32)) x / 256) : cs = cs' :=
  core (r := 403) (fm := 401) (Q := 2 ^ 16) (K := 2 ^ 8) (n := 2) (sw := 162004) (cst := 205676) (m := 2) (by decide) (by decide) (by decide)
    (by decide) (by decide) (by decide) ⟨2 ^ 16, by decide⟩ (by decide) (by decide) (fun k h1 h2 => searchAll_at all32 k h1 (by omega)) len hn h h' x e

/-- the high parts of the 64 bit hashes of up to five bytes -/
theorem high64 {cs cs' : List Nat} (len : cs.length = cs'.length) (hn : cs.length ≤ 5) (h : ∀ c ∈ cs, c < 256) (h' : ∀ c ∈ cs', c < 256) (x : Nat)
    (e : cs.foldl (mixN 1099511628211 (2 ^ 64)) x / 256 = cs'.foldl (mixN 1099511628211 (2 ^ 64)) x / 256) : cs = cs' :=
  core (r := 435) (fm := 433) (Q := 2 ^ 32) (K := 2 ^ 24) (n := 5) (sw := 15539765168713) (cst := 45711486265063) (m := 3700) (by decide) (by decide)
    (by decide) (by decide) (by decide) (by decide) ⟨2 ^ 16, by decide⟩ (by decide) (by decide) at64 len hn h h' x e

/-- the number of bytes for which the high part tells them apart -/
def reach (w : Nat) : Nat := if w = 32 then 2 else 5

theorem foldl_mixN {w : Nat} (hw : w = 32 ∨ w = 64) : ∀ (bs : List (BitVec 8)) (h : BitVec w),
    (bs.foldl mix h).toNat = (bs.map BitVec.toNat).foldl (mixN (specPrime w) (2 ^ w)) h.toNat
  | [], _ => rfl
  | b :: bs, h => by rw [List.foldl_cons, foldl_mixN hw bs, mix_toNat hw]; rfl

theorem map_toNat_inj {n : Nat} {as bs : List (BitVec n)} (h : as.map BitVec.toNat = bs.map BitVec.toNat) : as = bs :=
  (List.map_inj_right fun _ _ e => BitVec.eq_of_toNat_eq e).1 h

theorem high {w : Nat} (hw : w = 32 ∨ w = 64) {as bs : List (BitVec 8)} (len : as.length = bs.length) (hn : as.length ≤ reach w) (h : BitVec w)
    (e : (as.foldl mix h).toNat / 256 = (bs.foldl mix h).toNat / 256) : as = bs := by
  rw [foldl_mixN hw, foldl_mixN hw] at e
  have b : ∀ xs : List (BitVec 8), ∀ c ∈ xs.map BitVec.toNat, c < 256 := by
    intro xs c hc
    obtain ⟨x, -, rfl⟩ := List.mem_map.1 hc
    exact x.isLt
  apply map_toNat_inj
  rcases hw with rfl | rfl
  · exact high32 (by simpa using len) (by simpa [reach] using hn) (b _) (b _) _ e
  · exact high64 (by simpa using len) (by simpa [reach] using hn) (b _) (b _) _ e

/-- what is known before the last byte -/
theorem before_last {w : Nat} (hw : w = 32 ∨ w = 64) {x y : BitVec w} {c d : BitVec 8} (e : mix x c = mix y d) : x.toNat / 256 = y.toNat / 256 := by
  have h := congrArg BitVec.toNat (prime_mul_inj hw _ _ e)
  have hz : ∀ v : BitVec 8, (v.zeroExtend w).toNat = v.toNat := by
    intro v
    have := v.isLt
    show (v.setWidth w).toNat = _
    rw [BitVec.toNat_setWidth, Nat.mod_eq_of_lt]
    rcases hw with rfl | rfl <;> omega
  rw [BitVec.toNat_xor, BitVec.toNat_xor, hz, hz, xor_low _ c.isLt, xor_low _ d.isLt] at h
  have h1 := xor_low_lt x.toNat c.isLt
  have h2 := xor_low_lt y.toNat d.isLt
  omega

theorem short {w : Nat} (hw : w = 32 ∨ w = 64) {as bs : List (BitVec 8)} (len : as.length = bs.length) (hn : as.length ≤ reach w + 1) (h : BitVec w)
    (e : as.foldl mix h = bs.foldl mix h) : as = bs := by
  rcases List.eq_nil_or_concat as with rfl | ⟨as, a, rfl⟩
  · exact (List.length_eq_zero_iff.1 len.symm).symm
  · rcases List.eq_nil_or_concat bs with rfl | ⟨bs, b, rfl⟩
    · simp at len
    · rw [List.concat_eq_append, List.concat_eq_append] at *
      simp only [List.length_append, List.length_cons, List.length_nil] at len hn
      rw [List.foldl_append, List.foldl_append] at e
      have hh := high hw (by omega) (by omega) h (before_last hw e)
      subst hh
      have := mix_inj_right hw _ _ _ e
      rw [this]

/-! ## names of up to three bytes -/

/-- whether two bytes of which the first is `a` lead to the high part `t` -/
def hit (t a : Nat) : Bool :=
  force (mixN 16777619 (2 ^ 32) 2166136261 a / 256) fun y =>
    force ((t + (2 ^ 24 - y * 16777619 % 2 ^ 24)) % 2 ^ 24) fun d => Nat.beq (d / 65536 * 65536 + 403 * (d / 65536) / 256) d

/-- `p` holds below `n` -/
def below (n : Nat) (p : Nat → Bool) : Bool := Nat.rec true (fun k ih => force k p && ih) n

theorem below_at {p : Nat → Bool} : ∀ {n}, below n p = true → ∀ k, k < n → p k = true
  | 0, _, k, h => by omega
  | n + 1, h, k, hk => by
    have h' : (force n p && below n p) = true := h
    rw [Bool.and_eq_true, force_eq] at h'
    rcases Nat.lt_or_ge k n with c | c
    · exact below_at h'.2 k c
    · rw [show k = n by omega]; exact h'.1

theorem below_not {q : Nat → Bool} (h : (below 256 fun a => !q a) = true) (b : BitVec 8) : q b.toNat = false := by
  have hk : b.toNat < 256 := by have := b.isLt; omega
  have := below_at h _ hk
  simpa using this

theorem hit_of {t a b : Nat} (hb : b < 256)
    (h : mixN 16777619 (2 ^ 32) (mixN 16777619 (2 ^ 32) 2166136261 a) b / 256 = t) : hit t a = true := by
  unfold hit
  rw [force_eq, force_eq]
  have e := mixN_high (r := 403) (Q := 2 ^ 16) (M := 2 ^ 24) (mixN 16777619 (2 ^ 32) 2166136261 a) hb
  rw [show 256 * 2 ^ 16 + 403 = 16777619 by norm_num, show 256 * 2 ^ 24 = 2 ^ 32 by norm_num, h] at e
  clear h
  have l := xor_low_lt (mixN 16777619 (2 ^ 32) 2166136261 a) hb
  generalize mixN 16777619 (2 ^ 32) 2166136261 a / 256 = y at *
  generalize mixN 16777619 (2 ^ 32) 2166136261 a % 256 ^^^ b = v at *
  obtain ⟨z, hz⟩ : ∃ z, z = y * 16777619 := ⟨_, rfl⟩
  rw [← hz] at e ⊢
  clear hz
  have d : (t + (2 ^ 24 - z % 2 ^ 24)) % 2 ^ 24 = v * 65536 + 403 * v / 256 := by omega
  rw [d]
  have q : (v * 65536 + 403 * v / 256) / 65536 = v := by omega
  rw [q]
  exact Nat.beq_refl _

/-- the high parts that must not be met -/
def goals : List Nat := [2166136261 * 899433627 % 2 ^ 32 / 256, 2166136261 / 256, 0]

theorem goals_free : goals.all (fun t => below 256 fun a => !hit t a) = true := by decide +kernel
theorem goals_one : goals.all (fun t => below 256 fun a => !Nat.beq (mixN 16777619 (2 ^ 32) 2166136261 a / 256) t) = true := by decide +kernel
theorem ones_free : (below 256 fun b => force (mixN 16777619 (2 ^ 32) 2166136261 b / 256) fun t => below 256 fun a => !hit t a) = true := by
  decide +kernel

/-- the high part after some bytes -/
def hi (u : List (BitVec 8)) : Nat := (u.foldl mix (basis 32)).toNat / 256

theorem hi_eq (u : List (BitVec 8)) : hi u = (u.map BitVec.toNat).foldl (mixN 16777619 (2 ^ 32)) 2166136261 / 256 := by
  unfold hi
  rw [foldl_mixN (.inl rfl), show specPrime 32 = 16777619 by decide, show (basis 32).toNat = 2166136261 by decide]

theorem fold_one (f : Nat → Nat → Nat) (x : Nat) (a : BitVec 8) :
    ([a].map BitVec.toNat).foldl f x = f x a.toNat := rfl

theorem fold_two (f : Nat → Nat → Nat) (x : Nat) (a b : BitVec 8) :
    ([a, b].map BitVec.toNat).foldl f x = f (f x a.toNat) b.toNat := rfl

theorem two_ne {t : Nat} (h : (below 256 fun a => !hit t a) = true) {u : List (BitVec 8)} (hu : u.length = 2) : hi u ≠ t := by
  obtain ⟨a, b, rfl⟩ : ∃ a b, u = [a, b] := by
    match u, hu with
    | [a, b], _ => exact ⟨a, b, rfl⟩
  rw [hi_eq, fold_two]
  intro e
  have h1 := hit_of (a := a.toNat) b.isLt e
  exact absurd (h1.symm.trans (below_not h a)) (by decide)

theorem goal_ne {t : Nat} (ht : t ∈ goals) {u : List (BitVec 8)} (h0 : u ≠ []) (hu : u.length ≤ 2) : hi u ≠ t := by
  have h1 := List.all_eq_true.1 goals_free t ht
  have h2 := List.all_eq_true.1 goals_one t ht
  rcases Nat.lt_or_ge u.length 2 with c | c
  · have : u.length ≠ 0 := by simpa using h0
    obtain ⟨a, rfl⟩ := List.length_eq_one_iff.1 (show u.length = 1 by omega)
    rw [hi_eq, fold_one]
    intro e
    have h3 := below_not h2 a
    rw [e, Nat.beq_refl] at h3
    exact absurd h3 (by decide)
  · exact two_ne h1 (by omega)

theorem hi_lt_ne {u v : List (BitVec 8)} (lt : u.length < v.length) (hv : v.length ≤ 2) : hi v ≠ hi u := by
  have v0 : v ≠ [] := by rintro rfl; simp at lt
  rcases Nat.eq_zero_or_pos u.length with c | c
  · rw [List.length_eq_zero_iff.1 c, show hi [] = 2166136261 / 256 by decide]
    exact goal_ne (by simp [goals]) v0 hv
  · obtain ⟨b, rfl⟩ := List.length_eq_one_iff.1 (show u.length = 1 by omega)
    have hk : b.toNat < 256 := by have := b.isLt; omega
    have h := below_at ones_free _ hk
    rw [force_eq] at h
    have e : mixN 16777619 (2 ^ 32) 2166136261 b.toNat / 256 = hi [b] := by
      rw [hi_eq, fold_one]
    rw [e] at h
    exact two_ne h (by omega)

theorem empty_hi {x : BitVec 32} {c : BitVec 8} (e : basis 32 = mix x c) : x.toNat / 256 = 2166136261 * 899433627 % 2 ^ 32 / 256 := by
  have b : mix (2166136261 * 899433627 : BitVec 32) 0 = basis 32 := by decide
  rw [← b] at e
  have h := before_last (.inl rfl) e
  rw [← h]
  decide

theorem lt_ne {s t : List (BitVec 8)} (lt : s.length < t.length) (ht : t.length ≤ 3) : s.foldl mix (basis 32) ≠ t.foldl mix (basis 32) := by
  intro e
  rcases List.eq_nil_or_concat t with rfl | ⟨t, c, rfl⟩
  · simp at lt
  rw [List.concat_eq_append] at *
  simp only [List.length_append, List.length_cons, List.length_nil] at lt ht
  rw [List.foldl_append] at e
  rcases List.eq_nil_or_concat s with rfl | ⟨s, b, rfl⟩
  · have h := empty_hi e
    rcases eq_or_ne t [] with rfl | t0
    · revert h; decide
    · exact goal_ne (by simp [goals]) t0 (by omega) h
  · rw [List.concat_eq_append] at *
    simp only [List.length_append, List.length_cons, List.length_nil] at lt
    rw [List.foldl_append] at e
    exact hi_lt_ne (by omega) (by omega) (before_last (.inl rfl) e).symm

theorem names_inj {s t : List (BitVec 8)} (hs : s.length ≤ 3) (ht : t.length ≤ 3) (e : s.foldl mix (basis 32) = t.foldl mix (basis 32)) : s = t := by
  rcases Nat.lt_trichotomy s.length t.length with c | c | c
  · exact absurd e (lt_ne c ht)
  · exact short (.inl rfl) c (by simpa [reach] using hs) _ e
  · exact absurd e.symm (lt_ne c hs)

theorem names_ne_zero {s : List (BitVec 8)} (hs : s.length ≤ 3) : s.foldl mix (basis 32) ≠ 0 := by
  intro e
  rcases List.eq_nil_or_concat s with rfl | ⟨s, b, rfl⟩
  · revert e; decide
  · rw [List.concat_eq_append] at *
    simp only [List.length_append, List.length_cons, List.length_nil] at hs
    rw [List.foldl_append] at e
    have z : mix (0 : BitVec 32) 0 = 0 := by decide
    have h := before_last (.inl rfl) (e.trans z.symm)
    rcases eq_or_ne s [] with rfl | s0
    · revert h; decide
    · exact goal_ne (t := 0) (by simp [goals]) s0 (by omega) h

end CE.Fnv
