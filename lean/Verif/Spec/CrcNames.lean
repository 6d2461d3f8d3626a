/-!
# Names

What the theorems about names need: the characters of a name.
-/
namespace CE.Crc

/-- a letter of either case or the underscore (ASCII) -/
def NameChar (b : BitVec 8) : Prop :=
  (0x41 ≤ b.toNat ∧ b.toNat ≤ 0x5a) ∨ b.toNat = 0x5f ∨ (0x61 ≤ b.toNat ∧ b.toNat ≤ 0x7a)

instance (b : BitVec 8) : Decidable (NameChar b) := by unfold NameChar; infer_instance

end CE.Crc
