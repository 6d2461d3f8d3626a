import Verif.Proof.Path
import Verif.Props.Utf16
/-!
# Paths of files on Windows (C93)
-/
namespace CE.Path
open CE.Utf16

/-- The system gets the UTF-16 text of any path given as the UTF-8 text of scalar values, whatever the stack held and
whatever follows the path in memory. -/
theorem C93_path (cs : List Nat) (h : ∀ c ∈ cs, Scalar c ∧ c ≠ 0) (rest stale : List Nat) :
    osPath (cs.flatMap utf8 ++ 0 :: rest) stale = some (cs.flatMap utf16) := by
  have hv := C67_valid cs (fun c hc => (h c hc).1)
  rw [osPath_bytes (fun b hb => ?_) hv]
  · congr 1
    refine takeWhile_all (fun u hu => ?_)
    obtain ⟨c, hc, hu⟩ := List.mem_flatMap.1 hu
    have hc := (h c hc).2
    unfold utf16 at hu
    split at hu <;> simp at hu <;> omega
  · obtain ⟨c, hc, hb⟩ := List.mem_flatMap.1 hb
    have hc := (h c hc).2
    unfold utf8 at hb
    split at hb
    · simp at hb; omega
    · split at hb
      · simp at hb; omega
      · split at hb <;> simp at hb <;> omega

/-- Different such paths name different files. -/
theorem C93_distinct (a b : List Nat) (ha : ∀ c ∈ a, Scalar c ∧ c ≠ 0) (hb : ∀ c ∈ b, Scalar c ∧ c ≠ 0)
    (ra rb sa sb : List Nat) (h : osPath (a.flatMap utf8 ++ 0 :: ra) sa = osPath (b.flatMap utf8 ++ 0 :: rb) sb) : a = b := by
  rw [C93_path a ha, C93_path b hb] at h
  refine C67_lossless a b (fun c hc => (ha c hc).1) (fun c hc => (hb c hc).1) ?_
  rw [C67_valid a (fun c hc => (ha c hc).1), C67_valid b (fun c hc => (hb c hc).1)]
  exact h

/-- Whatever the bytes of the path, the conversion never writes behind the buffer, unless it reads behind the path. -/
theorem C93_fits {mem p d : List Nat} (hp : cstr mem = some p) (h : conv (p.length + 1) mem = some d) :
    d.length ≤ p.length + 1 := by
  obtain ⟨rest, rfl, -⟩ := cstr_some hp
  refine conv_len _ _ _ _ (Nat.le_refl _) (fun _ => ?_) h
  rw [Nat.add_sub_cancel, List.getElem?_append_right (Nat.le_refl _), Nat.sub_self]
  rfl

/-- A path of whole characters, valid or not, gives a name that depends on nothing else. -/
theorem C93_bytes {p : List Nat} (hp : ∀ c ∈ p, c ≠ 0) (h : toUtf16 p ≠ none) :
    ∃ name, ∀ rest stale, osPath (p ++ 0 :: rest) stale = some name := by
  cases e : toUtf16 p with
  | none => exact absurd e h
  | some d => exact ⟨_, fun rest stale => osPath_bytes hp e rest stale⟩

/-- A path that ends inside a character loses its terminator: whether the name has an end depends on what the stack held,
and what it is on what follows the path in memory. -/
theorem C93_truncated_false : osPath [0x41, 0xc3, 0] [7, 7, 0x42] = none ∧ osPath [0x41, 0xc3, 0] [7, 7, 0] = some [0x41, 0x40] ∧
    osPath [0x41, 0xe2, 0, 0x43] [7, 7, 0] = some [0x41, 0xffc3] ∧ osPath [0x41, 0xe2, 0, 0x44] [7, 7, 0] = some [0x41, 0xffc4] ∧
    osPath [0x41, 0xe2, 0] [7, 7, 0] = none := by
  decide

/-- The forbidden long form of 0 ends the name early: the file opened is not the one asked for. -/
theorem C93_overlong_false (rest stale : List Nat) :
    osPath ([0x61, 0xc0, 0x80, 0x2e, 0x62] ++ 0 :: rest) stale = some [0x61] :=
  osPath_bytes (d := [0x61, 0, 0x2e, 0x62]) (by decide) (by decide) rest stale

example : ∀ c ∈ [0x43, 0x3a, 0x5c, 0xe9, 0x20ac, 0x1f600], Scalar c ∧ c ≠ 0 := by unfold Scalar; decide
example : cstr [0x41, 0xf0, 0, 1, 2, 3] = some [0x41, 0xf0] ∧ (conv 3 [0x41, 0xf0, 0, 1, 2, 3]).isSome = true := by decide
example : (∀ c ∈ [0xbf, 0xc0, 0xc1], c ≠ 0) ∧ toUtf16 [0xbf, 0xc0, 0x41] ≠ none := by decide

end CE.Path
