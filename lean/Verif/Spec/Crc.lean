/-! Textbook bit-serial CRC-32, reflected form. -/
namespace CE.Crc

/-- bits of a word, least significant first (transmission order of a reflected CRC) -/
def bitsOf {w : Nat} (x : BitVec w) : List Bool := (List.range w).map x.getLsbD

/-- one step of the shift register: feed one message bit -/
def serialStep (P v : BitVec 32) (b : Bool) : BitVec 32 :=
  if v.getLsbD 0 ^^ b then v >>> 1 ^^^ P else v >>> 1

/-- feed a sequence of bits -/
def serial (P v : BitVec 32) (bits : List Bool) : BitVec 32 := bits.foldl (serialStep P) v

/-- the CRC of a bit sequence, with complemented initial value and result -/
def crcSpec (P c : BitVec 32) (bits : List Bool) : BitVec 32 := ~~~ serial P (~~~ c) bits

/-- little-endian bytes of words -/
def bytes32 (x : BitVec 32) : List (BitVec 8) :=
  [x.extractLsb' 0 8, x.extractLsb' 8 8, x.extractLsb' 16 8, x.extractLsb' 24 8]
def bytes64 (x : BitVec 64) : List (BitVec 8) :=
  [x.extractLsb' 0 8, x.extractLsb' 8 8, x.extractLsb' 16 8, x.extractLsb' 24 8,
   x.extractLsb' 32 8, x.extractLsb' 40 8, x.extractLsb' 48 8, x.extractLsb' 56 8]

end CE.Crc
