import Verif.Proof.Atomic
/-!
# The MSVC atomics: choice of code, order, progress (C89, C90, C91)
-/
namespace CE.Atomic
open CE.Linear

/-! ### C89 -/

theorem mem_sizes {n : Nat} (h1 : 1 ≤ n) : (n &&& (n - 1) == 0 && decide (n ≤ 16)) = true ↔ n ∈ [1, 2, 4, 8, 16] := by
  by_cases h : n ≤ 16
  · exact (by decide : ∀ n, n ≤ 16 → 1 ≤ n → ((n &&& (n - 1) == 0 && decide (n ≤ 16)) = true ↔ n ∈ [1, 2, 4, 8, 16])) n h h1
  · simp only [h, decide_false, Bool.and_false]
    simp only [List.mem_cons, List.not_mem_nil, or_false]
    constructor
    · intro h; cases h
    · omega

theorem fetch_small (t : Ty) (hs : t.size ∈ [1, 2, 4, 8]) : t.fetch = .xadd ∨ t.fetch = .loop := by
  simp only [List.mem_cons, List.not_mem_nil, or_false] at hs
  unfold Ty.fetch Ty.isMem Ty.isM
  by_cases a : t.isI 1
  · simp [a]
  by_cases b : t.isI 2
  · simp [b]
  by_cases c : t.isI 4
  · simp [c]
  by_cases d : t.isI 8
  · simp [d]
  rcases hs with h | h | h | h <;> simp [a, b, c, d, h]

theorem fetch_big (t : Ty) (hs : t.size ∉ [1, 2, 4, 8]) : t.fetch = .illFormed ∨ t.fetch = .lock := by
  simp only [List.mem_cons, List.not_mem_nil, or_false, not_or] at hs
  unfold Ty.fetch Ty.isI Ty.isM
  by_cases a : t.isMem <;> simp [a, hs]

theorem cas_small (t : Ty) (hs : t.size ∈ [1, 2, 4, 8]) : t.compareExchange = .cmpxchg := by
  simp only [List.mem_cons, List.not_mem_nil, or_false] at hs
  unfold Ty.compareExchange Ty.isMem Ty.isM
  rcases hs with h | h | h | h <;> simp [h]

theorem cas_big (t : Ty) (hs : t.size ∉ [1, 2, 4, 8]) : t.compareExchange = .illFormed ∨ t.compareExchange = .noReturn := by
  simp only [List.mem_cons, List.not_mem_nil, or_false, not_or] at hs
  unfold Ty.compareExchange Ty.isM
  by_cases a : t.isMem <;> simp [a, hs]

/-- Either all operations on a type take the lock or none does, exactly if the type counts as native (`-` is built in, for all the
code can tell) and has 1, 2, 4 or 8 bytes, or neither. -/
theorem C89_coherent (t : Ty) (h1 : 1 ≤ t.size) :
    t.Coherent ↔ ((t.canSub = true ∧ t.canUserSub = false) ↔ t.size ∈ [1, 2, 4, 8]) := by
  have hc : (t.canSub = true ∧ t.canUserSub = false) ↔ t.isCpu = true := by
    unfold Ty.isCpu Ty.cpuSub; cases t.canSub <;> cases t.canUserSub <;> simp
  rw [hc]
  have hl : t.path .load = if t.isCpu then .plain else .lock := rfl
  by_cases hs : t.size ∈ [1, 2, 4, 8]
  · have hx : t.path .store = .xchg := by
      show t.exchange = .xchg
      unfold Ty.exchange Ty.isM
      simp only [List.mem_cons, List.not_mem_nil, or_false] at hs
      rcases hs with h | h | h | h <;> simp [h]
    constructor
    · intro h
      refine ⟨fun _ => hs, fun _ => ?_⟩
      by_contra hc
      have := h .load .store (by rw [hl]; simp [hc])
      rw [hx] at this; cases this
    · intro h k k' hk
      have hcpu := h.2 hs
      have hf := fetch_small t hs
      exfalso
      cases k with
      | load => rw [hl, hcpu] at hk; cases hk
      | store => rw [hx] at hk; cases hk
      | exchange => rw [show t.path .exchange = t.path .store from rfl, hx] at hk; cases hk
      | compareExchange => rw [show t.path .compareExchange = t.compareExchange from rfl, cas_small t hs] at hk; cases hk
      | fetchAdd => rcases hf with e | e <;> rw [show t.path .fetchAdd = t.fetch from rfl, e] at hk <;> cases hk
      | fetchSub => rcases hf with e | e <;> rw [show t.path .fetchSub = t.fetch from rfl, e] at hk <;> cases hk
  · have hx : t.path .store = .lock := by
      show t.exchange = .lock
      unfold Ty.exchange Ty.isM
      simp only [List.mem_cons, List.not_mem_nil, or_false, not_or] at hs
      simp [hs]
    constructor
    · intro h
      refine ⟨fun hc => ?_, fun h => absurd h hs⟩
      have := h .store .load hx
      rw [hl, hc] at this; cases this
    · intro h k k' _
      have hcpu : t.isCpu = false := by
        by_contra hc; exact hs (h.1 (by simpa using hc))
      have hf := fetch_big t hs
      have hca := cas_big t hs
      cases k' with
      | load => rw [hl, hcpu]; rfl
      | store => rw [hx]; rfl
      | exchange => rw [show t.path .exchange = t.path .store from rfl, hx]; rfl
      | compareExchange => rcases hca with e | e <;> rw [show t.path .compareExchange = t.compareExchange from rfl, e] <;> rfl
      | fetchAdd => rcases hf with e | e <;> rw [show t.path .fetchAdd = t.fetch from rfl, e] <;> rfl
      | fetchSub => rcases hf with e | e <;> rw [show t.path .fetchSub = t.fetch from rfl, e] <;> rfl

/-- `atomic_compare_exchange` works for types of 1, 2, 4, 8 bytes; for 16 bytes it does not compile, for any other size it compiles
and runs into the end of the function. -/
theorem C89_compare_exchange (t : Ty) (h1 : 1 ≤ t.size) :
    (t.path .compareExchange = .cmpxchg ↔ t.size ∈ [1, 2, 4, 8]) ∧
    (t.path .compareExchange = .illFormed ↔ t.size = 16) ∧
    (t.path .compareExchange = .noReturn ↔ t.size ∉ [1, 2, 4, 8, 16]) := by
  have hm := mem_sizes h1
  show (t.compareExchange = _ ↔ _) ∧ (t.compareExchange = _ ↔ _) ∧ (t.compareExchange = _ ↔ _)
  unfold Ty.compareExchange Ty.isMem Ty.isM
  by_cases h : t.size ∈ [1, 2, 4, 8, 16]
  · rw [if_pos (hm.2 h)]
    simp only [List.mem_cons, List.not_mem_nil, or_false] at h
    rcases h with h | h | h | h | h <;> simp [h]
  · rw [if_neg (fun c => h (hm.1 c))]
    simp only [List.mem_cons, List.not_mem_nil, or_false, not_or] at h
    simp [h]

/-- Exactly the native types of 1, 2, 4, 8 bytes that are integers (they also have a built-in `^`) or pointers are added to by the
instruction that adds; floating point numbers go through a compare-exchange loop. -/
theorem C89_instruction (t : Ty) : (t.path .fetchAdd = .xadd ↔ t.size ∈ [1, 2, 4, 8] ∧ t.canSub = true ∧ t.canUserSub = false ∧
      ((t.canXor = true ∧ t.canUserXor = false) ∨ t.isPtr = true)) ∧ t.path .fetchSub = t.path .fetchAdd := by
  refine ⟨?_, rfl⟩
  show t.fetch = .xadd ↔ _
  have hi : ∀ n, t.isI n = true ↔ t.size = n ∧ t.canSub = true ∧ t.canUserSub = false ∧
      ((t.canXor = true ∧ t.canUserXor = false) ∨ t.isPtr = true) := by
    intro n
    unfold Ty.isI Ty.isM Ty.isCpu Ty.isFpu Ty.cpuSub Ty.cpuXor
    rw [Bool.and_eq_true, Bool.and_eq_true, beq_iff_eq]
    cases t.canSub <;> cases t.canUserSub <;> cases t.canXor <;> cases t.canUserXor <;> cases t.isPtr <;> simp
  constructor
  · intro h
    unfold Ty.fetch at h
    split at h
    · next a => have := (hi 1).1 a; simp only [List.mem_cons]; exact ⟨Or.inl this.1, this.2⟩
    split at h
    · next a => have := (hi 2).1 a; simp only [List.mem_cons]; exact ⟨Or.inr (Or.inl this.1), this.2⟩
    split at h
    · next a => have := (hi 4).1 a; simp only [List.mem_cons]; exact ⟨Or.inr (Or.inr (Or.inl this.1)), this.2⟩
    split at h
    · next a => have := (hi 8).1 a; simp only [List.mem_cons]; exact ⟨Or.inr (Or.inr (Or.inr (Or.inl this.1))), this.2⟩
    exfalso
    repeat' split at h
    all_goals cases h
  · rintro ⟨hs, h⟩
    simp only [List.mem_cons, List.not_mem_nil, or_false] at hs
    unfold Ty.fetch
    rcases hs with e | e | e | e
    · rw [if_pos ((hi 1).2 ⟨e, h⟩)]
    · rw [if_pos ((hi 2).2 ⟨e, h⟩)]; simp
    · rw [if_pos ((hi 4).2 ⟨e, h⟩)]; simp
    · rw [if_pos ((hi 8).2 ⟨e, h⟩)]; simp

/-- The native types: integers, enumerations, floating point numbers, pointers to objects. None of their operations takes the
lock. -/
theorem C89_native (t : Ty) (hs : t.size ∈ [1, 2, 4, 8]) (hc : t.canSub = true) (hu : t.canUserSub = false) (k : Kind) :
    (t.path k).free = true := by
  have hcpu : t.isCpu = true := by simp [Ty.isCpu, Ty.cpuSub, hc, hu]
  have hf := fetch_small t hs
  have hx : t.exchange = .xchg := by
    unfold Ty.exchange Ty.isM
    simp only [List.mem_cons, List.not_mem_nil, or_false] at hs
    rcases hs with h | h | h | h <;> simp [h]
  cases k with
  | load => simp [Ty.path, Ty.load, hcpu, Path.free]
  | store => simp [Ty.path, hx, Path.free]
  | exchange => simp [Ty.path, hx, Path.free]
  | compareExchange => simp [Ty.path, cas_small t hs, Path.free]
  | fetchAdd => rcases hf with e | e <;> simp [Ty.path, e, Path.free]
  | fetchSub => rcases hf with e | e <;> simp [Ty.path, e, Path.free]

/-- `vec2<int32_t>` with its `operator-` (lib/h/ce/ce.h:644): 8 bytes, `-` but no `^`, both as functions -/
def vec2 : Ty := ⟨8, true, true, false, false, false⟩

/-- The library's own `vec2<int32_t>` is loaded under the lock and stored without. -/
theorem C89_class_false : vec2.path .load = .lock ∧ vec2.path .store = .xchg ∧ ¬ vec2.Coherent :=
  ⟨by decide, by decide, fun h => absurd (h .load .store (by decide)) (by decide)⟩

/-- A class of 12 bytes that converts to a number is taken for native and read without the lock that a store takes. -/
theorem C89_convertible_false : ¬ (Ty.mk 12 true false true false false).Coherent :=
  fun h => absurd (h .store .load (by decide)) (by decide)

/-- Adding to an integer of any width, signed or not, adds modulo the width and returns the old number. -/
theorem C89_add {w : Nat} (signed : Bool) (cell : BitVec w) (n : Int) :
    (fetchAddInt cell n).2 = cell ∧ (fetchAddInt cell n).1 = BitVec.ofInt w (number signed cell + n) := by
  refine ⟨rfl, ?_⟩
  have : BitVec.ofInt w (number signed cell) = cell := by
    unfold number; split
    · exact BitVec.ofInt_toInt
    · simp
  rw [BitVec.ofInt_add, this]
  simp [fetchAddInt, xadd]

/-- Subtracting likewise, except that for signed integers of 32 or 64 bits the least number must not be subtracted. -/
theorem C89_sub_partial {w : Nat} (signed : Bool) (cell : BitVec w) (n : Int)
    (hn : signed = true → 32 ≤ w → -2 ^ (w - 1) < n ∧ n < 2 ^ (w - 1)) :
    ∃ r, fetchSubInt signed cell n = some r ∧ r.2 = cell ∧ r.1 = BitVec.ofInt w (number signed cell - n) := by
  have : BitVec.ofInt w (number signed cell) = cell := by
    unfold number; split
    · exact BitVec.ofInt_toInt
    · simp
  refine ⟨_, if_neg ?_, rfl, ?_⟩
  · rintro ⟨a, b, c⟩
    obtain ⟨d, e⟩ := hn a b
    generalize (2 : Int) ^ (w - 1) = p at *
    exact c ⟨by omega, by omega⟩
  · rw [sub_eq_add_neg (number signed cell), BitVec.ofInt_add (number signed cell), this]
    simp [xadd]

/-- `atomic_fetch_sub(a, INT_MIN)` overflows. -/
theorem C89_sub_false (cell : BitVec 32) : fetchSubInt true cell (-2147483648) = none := by
  simp [fetchSubInt]

/-- Pointers move by elements. -/
theorem C89_pointer (stride : Nat) (cell : BitVec 64) (n : Int) :
    (fetchAddPtr stride cell n).1 = BitVec.ofInt 64 (cell.toNat + n * stride) ∧ (fetchAddPtr stride cell n).2 = cell ∧
    (fetchSubPtr stride cell n).1 = BitVec.ofInt 64 (cell.toNat - n * stride) ∧ (fetchSubPtr stride cell n).2 = cell := by
  have : BitVec.ofInt 64 (cell.toNat : Int) = cell := by simp
  refine ⟨?_, rfl, ?_, rfl⟩
  · rw [BitVec.ofInt_add, this]; simp [fetchAddPtr, xadd]
  · rw [sub_eq_add_neg (cell.toNat : Int), BitVec.ofInt_add (cell.toNat : Int), this]; simp [fetchSubPtr, xadd]

/-- A class of two 16-bit numbers whose `-` and `^` are members counts as an integer, and a carry passes from the one
number to the other: 65535 + 1 in the low half changes the high half. -/
theorem C89_member_false : (Ty.mk 4 true false true false false).path .fetchAdd = .xadd ∧
    (fetchAddPair 0x0000ffff 0x00000001).1 = 0x00010000 := by decide

example : (Ty.mk 4 true false true false false).size ∈ [1, 2, 4, 8] := by decide
example : number true (0xffffffff : BitVec 32) = -1 ∧ (fetchAddInt (0xffffffff : BitVec 32) 3).1 = 2 := by decide

/-! ### C90 -/

section
variable {T A V L : Type} [DecidableEq T] [DecidableEq A] [DecidableEq V] [DecidableEq L]

/-- All operations on all atomics, loops and plain loads included, take effect in one order between their calls and returns, whatever
plain writes linger in store buffers. -/
theorem C90_linearizable {d : A → V} {m : L → V} {l : List (Lab T A V L)} {s : St T A V L}
    (h : Exec (St.init d m) l s) : Linearizable meaning d (calls l) s.at' :=
  ⟨(inv_exec h).1, fun t => ⟨_, (inv_exec h).2 t⟩⟩

/-- An atomic operation other than a load publishes: if `t` writes the variable `x` and then the operation takes effect,
nobody sees what `x` was before, provided that only `t` writes to `x`. -/
theorem C90_publish {d : A → V} {m : L → V} {s : St T A V L} {X Y Z : List (Lab T A V L)} {t u : T} {x : L} {v v' : V}
    {o : Op A V} {r : Res V}
    (h : Exec (St.init d m) (X ++ [.write t x v] ++ Y ++ [.op (.lin t o r)] ++ Z ++ [.read u x v']) s)
    (ho : ∀ a, o ≠ .load a)
    (hw : ∀ u' w, Lab.write u' x w ∈ X ++ Y ++ Z → u' = t) :
    v' = v ∨ Lab.write t x v' ∈ Y ++ Z := by
  obtain ⟨s4, h, h5⟩ := h.split
  obtain ⟨s3, h, h4⟩ := h.split
  obtain ⟨s2, h, h3⟩ := h.split
  obtain ⟨s1, h, h2⟩ := h.split
  obtain ⟨s0, h0, h1⟩ := h.split
  have g0 : ∀ u', u' ≠ t → pend x (s0.buf u') = [] :=
    (held_exec (S := fun _ => True) (t := t) ⟨fun _ _ => rfl, trivial, fun _ _ => trivial⟩ h0
      (fun u' w hm => ⟨hw u' w (by simp [hm]), trivial⟩)).others
  let S : V → Prop := fun w => w = v ∨ Lab.write t x w ∈ Y ++ Z
  have g1 : S ((s1.mem x :: pend x (s1.buf t)).getLast (by simp)) ∧ ∀ u', u' ≠ t → pend x (s1.buf u') = [] := by
    have h1 := h1.one
    have o1 := (held_step (S := fun _ => True) (t := t) ⟨g0, trivial, fun _ _ => trivial⟩ h1
      (fun u' w he => by cases he; exact ⟨rfl, trivial⟩)).others
    refine ⟨?_, o1⟩
    rw [← view_not]
    cases h1
    left
    simp [view, put]
  have g2 := newest_exec (S := S) g1.1 g1.2 h2
    (fun u' w hm => by
      have := hw u' w (by simp [hm]); subst this
      exact ⟨rfl, Or.inr (by simp [hm])⟩)
  have b2 : s2.buf t = [] := by
    have h3 := h3.one
    generalize he : Lab.op (Ev.lin t o r) = e at h3
    cases h3 with
    | single t' o' hp hb =>
      cases he
      refine hb ?_
      cases o with
      | load a => exact absurd rfl (ho a)
      | _ => rfl
    | done t' a f b hp hb hc => cases he; exact hb
    | _ => cases he
  have k2 : Held S t x s2 := by
    refine ⟨g2.2, ?_, ?_⟩
    · have := g2.1; simpa [b2, pend] using this
    · intro w hw; rw [b2] at hw; cases hw
  have k3 := held_step k2 h3.one (fun u' w he => by cases he)
  have k4 := held_exec k3 h4
    (fun u' w hm => by
      have := hw u' w (by simp [hm]); subst this
      exact ⟨rfl, Or.inr (by simp [hm])⟩)
  have h5 := h5.one
  cases h5
  exact held_view k4 u

/-! ### C91 -/

/-- The loops are lock-free: a thread repeats a round no more often than other threads' operations take effect. -/
theorem C91_lock_free {d : A → V} {m : L → V} {l : List (Lab T A V L)} {s : St T A V L}
    (h : Exec (St.init d m) l s) (t : T) : vain t l ≤ others t l := by
  have := lost_exec h t
  have e : lost (St.init d m : St T A V L) t = 0 := rfl
  omega

/-- From any moment on: at most one round more than that. -/
theorem C91_from {l : List (Lab T A V L)} {s s' : St T A V L} (h : Exec s l s') (t : T) : vain t l ≤ others t l + 1 := by
  have := lost_exec h t
  have := lost_le s t
  omega
end

/-- what a thread does that stores a new number between the other's reading and exchanging -/
def meddle (n : Nat) : List (Lab Bool Unit Nat Unit) :=
  [.op (.inv false (.store () n)), .op (.lin false (.store () n) .unit), .op (.ret false .unit), .again true]

/-- states of the example: `true` adds 1 and expects `b`, the contents are `b`, `false` is idle -/
def stuck (b : Nat) : St Bool Unit Nat Unit :=
  ⟨fun _ => b, fun _ => 0, fun _ => [], fun t => if t = true then .loop () (· + 1) b else .idle⟩

theorem meddle_exec (n m : Nat) (h : n ≠ m) : Exec (stuck n) (meddle m) (stuck m) := by
  have e0 : Exec (stuck n) [] (stuck n) := Exec.nil
  have e1 := Exec.snoc e0 (Step.call _ false (.store () m) rfl)
  have e2 := Exec.snoc e1 (Step.single _ false (.store () m) rfl (fun _ => rfl))
  have e3 := Exec.snoc e2 (Step.ret _ false .unit rfl)
  have e4 := Exec.snoc e3 (Step.again _ true () (· + 1) n rfl rfl (by
    show m ≠ n
    exact fun c => h c.symm))
  refine cast (congrArg (Exec (stuck n) (meddle m)) ?_) e4
  · unfold stuck
    simp only [St.mk.injEq]
    refine ⟨?_, trivial, trivial, ?_⟩
    · funext a; simp [put, single, cmpxchg, Op.obj, stuck, Ne.symm h]
    · funext t; cases t <;> simp [put, single, cmpxchg, Op.obj]

/-- They are not wait-free: a thread can be made to repeat any number of times by another one that stores. -/
theorem C91_wait_free_false (N : Nat) : ∃ (l : List (Lab Bool Unit Nat Unit)) (s : St Bool Unit Nat Unit),
    Exec (St.init (fun _ => 0) (fun _ => 0)) l s ∧ vain true l = N ∧ ∀ o r, Lab.op (.lin true o r) ∉ l := by
  have key : ∀ N, ∃ (l : List (Lab Bool Unit Nat Unit)), Exec (St.init (fun _ => 0) (fun _ => 0)) l (stuck N) ∧ vain true l = N ∧
      ∀ o r, Lab.op (.lin true o r) ∉ l := by
    intro N
    induction N with
    | zero =>
      have e0 : Exec (St.init (fun _ => 0) (fun _ => 0) : St Bool Unit Nat Unit) [] _ := Exec.nil
      have e1 := Exec.snoc e0 (Step.call _ true (.fetch () (· + 1)) rfl)
      have e2 := Exec.snoc e1 (Step.enter _ true () (· + 1) rfl)
      refine ⟨[.op (.inv true (.fetch () (· + 1))), .quiet true], cast (congrArg (Exec _ _) ?_) e2, rfl, ?_⟩
      · unfold stuck
        simp only [St.mk.injEq]
        refine ⟨rfl, rfl, rfl, ?_⟩
        funext t; cases t <;> rfl
      · intro o r h; simp at h
    | succ N ih =>
      obtain ⟨l, h, hv, hn⟩ := ih
      refine ⟨_, h.trans (meddle_exec N (N + 1) (by omega)), ?_, ?_⟩
      · rw [vain_append, hv]; rfl
      · intro o r hm
        rcases List.mem_append.1 hm with hm | hm
        · exact hn o r hm
        · simp [meddle] at hm
  obtain ⟨l, h⟩ := key N
  exact ⟨l, _, h⟩

/-- publication at work: `true` writes 7 and stores 1; `false` then reads 7 -/
example : ∃ (l : List (Lab Bool Unit Nat Unit)) (s : St Bool Unit Nat Unit), Exec (St.init (fun _ => 0) (fun _ => 0)) l s ∧
    l = [] ++ [.write true () 7] ++ [.op (.inv true (.store () 1)), .flush true] ++ [.op (.lin true (.store () 1) .unit)] ++ [] ++
      [.read false () 7] := by
  have e0 : Exec (St.init (fun _ => 0) (fun _ => 0) : St Bool Unit Nat Unit) [] _ := Exec.nil
  have e1 := Exec.snoc e0 (Step.write _ true () 7 rfl)
  have e2 := Exec.snoc e1 (Step.call _ true (.store () 1) rfl)
  have e3 := Exec.snoc e2 (Step.flush _ true ((), 7) [] rfl)
  have e4 := Exec.snoc e3 (Step.single _ true (.store () 1) rfl (fun _ => rfl))
  have e5 := Exec.snoc e4 (Step.read _ false () rfl)
  exact ⟨_, _, e5, rfl⟩

end CE.Atomic
