import Verif.Proof.FnvShort
import Verif.Props.Fnv
import Verif.Props.Dictionary
/-! C143: short differences and short names under FNV-1a, and names as keys of a dictionary. -/
namespace CE.Fnv

/-- `fnv1a` over bytes -/
theorem fnv1a_bytes {w : Nat} (signed : Bool) : ∀ (l : List (BitVec (8 * 1))) (b : BitVec w), fnv1a signed l b = l.foldl mix b
  | [], _ => rfl
  | v :: l, b => by
    have h1 : fnv1a signed (v :: l) b = fnv1a signed l (element signed b v) := rfl
    rw [h1, fnv1a_bytes signed l, List.foldl_cons, element_eq (by omega)]
    simp

/-- C143.  Two byte strings that differ only within a stretch of at most three bytes have different 32 bit hashes, whatever comes
before and after and whatever the basis; with 64 bits the stretch may have six bytes. -/
theorem C143_stretch {w : Nat} (hw : w = 32 ∨ w = 64) (signed : Bool) (pre xs ys post : List (BitVec (8 * 1))) (b : BitVec w)
    (len : xs.length = ys.length) (hn : xs.length ≤ if w = 32 then 3 else 6) (ne : xs ≠ ys) :
    fnv1a signed (pre ++ xs ++ post) b ≠ fnv1a signed (pre ++ ys ++ post) b := by
  intro e
  rw [fnv1a_bytes, fnv1a_bytes] at e
  simp only [List.foldl_append] at e
  refine ne (short hw len ?_ _ (foldl_mix_inj hw _ _ _ e))
  unfold reach
  split_ifs at hn ⊢ <;> omega

/-- C143.  A stretch of four bytes is too long for 32 bits, one of seven for 64 bits: "S3vr" and "wBnk" have the same hash. -/
theorem C143_longer_false :
    (∃ xs ys : List (BitVec (8 * 1)), xs.length = 4 ∧ ys.length = 4 ∧ xs ≠ ys ∧ fnv1a false xs (basis 32) = fnv1a false ys (basis 32)) ∧
    (∃ xs ys : List (BitVec (8 * 1)), xs.length = 7 ∧ ys.length = 7 ∧ xs ≠ ys ∧ fnv1a false xs (basis 64) = fnv1a false ys (basis 64)) :=
  ⟨⟨[0x53, 0x33, 0x76, 0x72], [0x77, 0x42, 0x6e, 0x6b], by decide +kernel⟩,
    ⟨[203, 39, 96, 49, 164, 240, 65], [36, 179, 0, 0, 0, 10, 167], by decide +kernel⟩⟩

/-- `fnv1a(text)` of a text in memory -/
theorem text_eq (s rest : List (BitVec 8)) (h : (0 : BitVec 8) ∉ s) (b : BitVec 32) : fnv1aText b (s ++ 0 :: rest) = some (s.foldl mix b) := by
  induction s generalizing b with
  | nil => simp [fnv1aText]
  | cons c s ih =>
    simp only [List.mem_cons, not_or] at h
    rw [List.cons_append, fnv1aText, if_pos (Ne.symm h.1), ih h.2, List.foldl_cons]

/-- C143.  Different texts of up to three characters have different `fnv1a`, also if one is longer than the other, and none has 0. -/
theorem C143_names {s t : List (BitVec 8)} (hs : s.length ≤ 3) (ht : t.length ≤ 3) (zs : (0 : BitVec 8) ∉ s) (zt : (0 : BitVec 8) ∉ t)
    (rest rest' : List (BitVec 8)) :
    (fnv1aText (basis 32) (s ++ 0 :: rest) = fnv1aText (basis 32) (t ++ 0 :: rest') ↔ s = t) ∧ fnv1aText (basis 32) (s ++ 0 :: rest) ≠ some 0 := by
  rw [text_eq s rest zs, text_eq t rest' zt]
  refine ⟨⟨fun e => names_inj hs ht (Option.some.inj e), fun e => e ▸ rfl⟩, fun e => names_ne_zero hs (Option.some.inj e)⟩

/-- C143.  There is a text of four characters with hash 0, and two of four letters and digits with the same hash. -/
theorem C143_names_false : fnv1aText (basis 32) [0xcc, 0x24, 0x31, 0xc4, 0] = some 0 ∧
    fnv1aText (basis 32) [0x53, 0x33, 0x76, 0x72, 0] = fnv1aText (basis 32) [0x77, 0x42, 0x6e, 0x6b, 0] := by decide +kernel

-- "Jim" and "Syd"
example : fnv1aText (basis 32) [0x4a, 0x69, 0x6d, 0] ≠ fnv1aText (basis 32) [0x53, 0x79, 0x64, 0] := fun e =>
  absurd ((C143_names (s := [0x4a, 0x69, 0x6d]) (t := [0x53, 0x79, 0x64]) (by decide) (by decide) (by decide) (by decide) [] []).1.1 e) (by decide)

end CE.Fnv

namespace CE.Dictionary

variable {V : Type}

/-- a text that can be given to `fnv1a(text)`, of up to three characters -/
abbrev Name := { s : List (BitVec 8) // s.length ≤ 3 ∧ (0 : BitVec 8) ∉ s }

/-- what `fnv1a(text)` returns -/
def Name.key (s : Name) : BitVec 32 := (Fnv.fnv1aText (Fnv.basis 32) (s.1 ++ [0])).getD 0

theorem Name.key_eq (s : Name) : s.key = s.1.foldl Fnv.mix (Fnv.basis 32) := by
  unfold Name.key
  rw [Fnv.text_eq s.1 [] s.2.2]; rfl

theorem Name.key_inj {s t : Name} (h : s.key = t.key) : s = t := by
  rw [Name.key_eq, Name.key_eq] at h
  exact Subtype.ext (Fnv.names_inj s.2.1 t.2.1 h)

theorem Name.key_ne (s : Name) : s.key ≠ 0 := by
  rw [Name.key_eq]; exact Fnv.names_ne_zero s.2.1

/-- a call with the name's hash as the key, `d.bind(fnv1a("Jimmy"), ...)` as in test/dictionary.cpp:17-29 -/
def Op.hashed : Op Name V → Op (BitVec 32) V
  | .find n => .find n.key
  | .bind n v => .bind n.key v
  | .get p => .get p
  | .put p v => .put p v
  | .getName n => .getName n.key

/-- the same dictionary, seen by names -/
def Abs.named (σ : Abs (BitVec 32) V) : Abs Name V := ⟨fun n => σ.handle n.key, σ.value, σ.count⟩

/-- only names are bound -/
def Named (σ : Abs (BitVec 32) V) : Prop := ∀ k p, σ.handle k = some p → ∃ n : Name, n.key = k

theorem upd_named (f : BitVec 32 → Option Nat) (n : Name) (v : Option Nat) :
    (fun m : Name => Abs.upd f n.key v m.key) = Abs.upd (fun m : Name => f m.key) n v := by
  funext m
  unfold Abs.upd
  by_cases c : m = n
  · rw [if_pos c, if_pos (c ▸ rfl)]
  · rw [if_neg c, if_neg fun e => c (Name.key_inj e)]

theorem step_named {N : Nat} {σ σ' : Abs (BitVec 32) V} (h : Named σ) {op : Op Name V} {r : Out V} (s : SpecStep N σ op.hashed r σ') :
    SpecStep N σ.named op r σ'.named ∧ Named σ' := by
  cases op with
  | find n =>
    cases s with
    | find _ p e => exact ⟨.find n p e, h⟩
    | findNil _ e => exact ⟨.findNil n e, h⟩
  | bind n v =>
    cases s with
    | rebind _ _ p e => exact ⟨.rebind n v p e, h⟩
    | bind _ _ p e hc hp hN hnew =>
      refine ⟨?_, ?_⟩
      · have := SpecStep.bind (N := N) (σ := σ.named) n v p e hc hp hN fun m => hnew m.key
        unfold Abs.named at this ⊢
        dsimp only at this ⊢
        rw [upd_named]
        exact this
      · intro k q hk
        dsimp only at hk
        unfold Abs.upd at hk
        split_ifs at hk with c
        · exact ⟨n, c.symm⟩
        · exact h k q hk
    | bindFull _ _ e hc => exact ⟨.bindFull n v e hc, h⟩
  | get p =>
    cases s with
    | get k _ e =>
      obtain ⟨n, rfl⟩ := h k p e
      exact ⟨.get (σ := σ.named) n p e, h⟩
  | put p v =>
    cases s with
    | put k _ _ e =>
      obtain ⟨n, rfl⟩ := h k p e
      exact ⟨.put (σ := σ.named) n p v e, h⟩
  | getName n =>
    cases s with
    | getName _ p e => exact ⟨.getName (σ := σ.named) n p e, h⟩

theorem run_named {N : Nat} : ∀ {ops : List (Op Name V)} {σ σ' : Abs (BitVec 32) V} {rs : List (Out V)}, Named σ →
    SpecRun N σ (ops.map Op.hashed) rs σ' → SpecRun N σ.named ops rs σ'.named
  | [], _, _, _, _, s => by cases s; exact .nil _
  | op :: ops, _, _, _, h, s => by
    cases s with
    | cons s ss =>
      obtain ⟨s1, h1⟩ := step_named h s
      exact .cons s1 (run_named h1 ss)

/-- C143.  A zero-initialised dictionary whose keys are the hashes of texts of up to three characters is a map from texts: every sequence
of calls gives the results of a map with room for `N - 1` texts and stable handles, up to the first call that breaks a precondition. -/
theorem C143_dictionary (ge : BitVec 32 → BitVec 32 → Bool) (N : Nat) (hN : 2 ≤ N) (data : Nat → V) (ops : List (Op Name V)) :
    (∃ rs d' σ', run ge N ⟨0, data, 0, fun _ => 0⟩ (ops.map Op.hashed) = some (rs, d') ∧ SpecRun N (Abs.init data) ops rs σ') ∨
    (∃ pre op post rs d' σ', ops = pre ++ op :: post ∧ run ge N ⟨0, data, 0, fun _ => 0⟩ (pre.map Op.hashed) = some (rs, d') ∧
      SpecRun N (Abs.init data) pre rs σ' ∧ ¬ Pre σ' op) := by
  have i0 : Named (Abs.init data : Abs (BitVec 32) V) := by intro k p h; simp [Abs.init] at h
  have av : ∀ op ∈ ops.map Op.hashed, op.Avoids ((fun _ => 0 : Nat → BitVec 32) 0) := by
    intro op hop
    obtain ⟨o, -, rfl⟩ := List.mem_map.1 hop
    cases o <;> first | exact Name.key_ne _ | trivial
  rcases C32_history_refines_partial ge N hN (fun _ => 0) data (ops.map Op.hashed) av with
    ⟨rs, d', σ', r, s⟩ | ⟨pre, op, post, rs, d', σ', e, r, s, np⟩
  · exact .inl ⟨rs, d', σ'.named, r, run_named i0 s⟩
  · obtain ⟨pre', rest', rfl, rfl, e2⟩ := List.map_eq_append_iff.1 e
    obtain ⟨op', post', rfl, rfl, -⟩ := List.map_eq_cons_iff.1 e2
    refine .inr ⟨pre', op', post', rs, d', σ'.named, rfl, r, run_named i0 s, fun p => np ?_⟩
    cases op' with
    | find n => trivial
    | bind n v => trivial
    | get q => obtain ⟨n, hn⟩ := p; exact ⟨n.key, hn⟩
    | put q v => obtain ⟨n, hn⟩ := p; exact ⟨n.key, hn⟩
    | getName n => exact p

/-- "Jim" -/
def jim : Name := ⟨[0x4a, 0x69, 0x6d], by decide⟩
/-- "Syd" -/
def syd : Name := ⟨[0x53, 0x79, 0x64], by decide⟩

example : (run (fun a b => decide (b ≤ a)) 4 ⟨0, fun _ => 0, 0, fun _ => 0⟩
    (([.bind jim 9, .bind syd 5, .find jim, .getName syd] : List (Op Name Nat)).map Op.hashed)).map (
    fun r => r.1.map fun | .ptr p => p | .value v => 100 + v | .unit => 0) = some [1, 2, 1, 105] := by decide +kernel

end CE.Dictionary
