import Verif.Proof.Fnv
/-!
# C10, C11: FNV-1a
-/
namespace CE.Fnv

/-- C10.  Hashing an array of `k`-byte elements (signed or unsigned) is FNV-1a over the concatenated
little-endian bytes, for 32 and 64 bit hashes and any basis. -/
theorem C10_fnv1a_is_byte_fold {w k : Nat} (hw : w = 32 ∨ w = 64) (hk : 0 < k) (signed : Bool)
    (data : List (BitVec (8 * k))) (basis : BitVec w) :
    (fnv1a signed data basis).toNat =
      fnvSpec w basis.toNat (data.flatMap fun v => leBytes k v.toNat) := by
  induction data generalizing basis with
  | nil => rfl
  | cons v data ih =>
    have h1 : fnv1a signed (v :: data) basis = fnv1a signed data (element signed basis v) := rfl
    rw [h1, ih, element_eq hk, foldl_mix_toNat hw, List.flatMap_cons]
    have : (((List.range k).map fun j => v.extractLsb' (8 * j) 8).map BitVec.toNat)
        = leBytes k v.toNat := by
      rw [leBytes_eq, List.map_map]
      apply List.map_congr_left
      intro j _
      exact extract_toNat v j
    rw [this]
    simp [fnvSpec]

/-- published test vector: FNV-1a 32 of "foobar" is 0xbf9cf968 -/
example : fnv1a (k := 1) false ([0x66, 0x6f, 0x6f, 0x62, 0x61, 0x72] : List (BitVec 8)) (basis 32)
    = 0xbf9cf968 := by decide +kernel
/-- published test vector: FNV-1a 64 of "foobar" is 0x85944171f73967e8 -/
example : fnv1a (k := 1) false ([0x66, 0x6f, 0x6f, 0x62, 0x61, 0x72] : List (BitVec 8)) (basis 64)
    = 0x85944171f73967e8 := by decide +kernel
example : fnv1a (k := 2) true ([0x6f66, 0x626f, 0x7261] : List (BitVec 16)) (basis 32)
    = 0xbf9cf968 := by decide +kernel

/-- C10.  Hashing can be done in pieces, the hash of the prefix being the basis for the rest. -/
theorem C10_fnv1a_incremental {w k : Nat} (signed : Bool) (a b : List (BitVec (8 * k)))
    (basis : BitVec w) :
    fnv1a signed (a ++ b) basis = fnv1a signed b (fnv1a signed a basis) := by
  simp [fnv1a]

/-- C10.  The C string overload hashes the bytes before the first NUL and nothing else. -/
theorem C10_fnv1a_text (s rest : List (BitVec 8)) (h : (0 : BitVec 8) ∉ s) :
    ∃ r, fnv1aText (basis 32) (s ++ 0 :: rest) = some r ∧
      r.toNat = fnvSpec 32 (basis 32).toNat (s.map BitVec.toNat) := by
  have key : ∀ (s : List (BitVec 8)) (b : BitVec 32), (0 : BitVec 8) ∉ s →
      fnv1aText b (s ++ 0 :: rest) = some (s.foldl mix b) := by
    intro s
    induction s with
    | nil => intro b _; rfl
    | cons c s ih =>
      intro b hc
      simp only [List.mem_cons, not_or] at hc
      simp only [List.cons_append, fnv1aText]
      rw [if_pos (Ne.symm hc.1), ih _ hc.2]; rfl
  exact ⟨_, key s _ h, foldl_mix_toNat (Or.inl rfl) _ _⟩

example : (0 : BitVec 8) ∉ ([0x66, 0x6f] : List (BitVec 8)) := by decide

/-- C11.  Byte strings of the same length that differ in exactly one byte have different hashes. -/
theorem C11_single_byte_change_detected {w : Nat} (hw : w = 32 ∨ w = 64)
    (pre post : List (BitVec (8 * 1))) (x y : BitVec (8 * 1)) (hxy : x ≠ y) (signed : Bool)
    (basis : BitVec w) :
    fnv1a signed (pre ++ x :: post) basis ≠ fnv1a signed (pre ++ y :: post) basis := by
  have e : ∀ (l : List (BitVec (8 * 1))) (b : BitVec w), fnv1a signed l b = l.foldl mix b := by
    intro l
    induction l with
    | nil => intro b; rfl
    | cons v l ih =>
      intro b
      have h1 : fnv1a signed (v :: l) b = fnv1a signed l (element signed b v) := rfl
      rw [h1, ih, List.foldl_cons, element_eq (by omega)]
      simp
  intro h
  rw [e, e, List.foldl_append, List.foldl_append, List.foldl_cons, List.foldl_cons] at h
  exact hxy (mix_inj_right hw _ _ _ (foldl_mix_inj hw _ _ _ h))

example : (0x61 : BitVec (8 * 1)) ≠ 0x62 := by decide

/-- C11.  Different bases give different hashes of the same data (for every element width). -/
theorem C11_basis_injective {w k : Nat} (hw : w = 32 ∨ w = 64) (hk : 0 < k) (signed : Bool)
    (data : List (BitVec (8 * k))) (b b' : BitVec w)
    (h : fnv1a signed data b = fnv1a signed data b') : b = b' := by
  induction data generalizing b b' with
  | nil => exact h
  | cons v data ih =>
    have := ih _ _ h
    rw [element_eq hk, element_eq hk] at this
    exact foldl_mix_inj hw _ _ _ this

end CE.Fnv
