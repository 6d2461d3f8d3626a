/-! FNV-1a as published: fold over bytes, xor then multiply, modulo `2^w`. -/
namespace CE.Fnv

/-- the published FNV prime: 2^24 + 2^8 + 0x93 (32 bit), 2^40 + 2^8 + 0xb3 (64 bit) -/
def specPrime (w : Nat) : Nat := if w = 32 then 2 ^ 24 + 2 ^ 8 + 0x93 else 2 ^ 40 + 2 ^ 8 + 0xb3

/-- FNV-1a on natural numbers -/
def fnvSpec (w : Nat) (basis : Nat) (bytes : List Nat) : Nat :=
  bytes.foldl (fun h b => (h ^^^ b) * specPrime w % 2 ^ w) basis

/-- little-endian bytes of a `k` byte number -/
def leBytes : Nat → Nat → List Nat
  | 0, _ => []
  | k + 1, v => v % 256 :: leBytes k (v / 256)

end CE.Fnv
