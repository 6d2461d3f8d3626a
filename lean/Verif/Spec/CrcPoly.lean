import Mathlib.Algebra.Polynomial.Basic
import Mathlib.Data.ZMod.Basic
/-! Polynomials over GF(2) attached to a CRC. -/
namespace CE.Crc
open Polynomial

/-- a bit as an element of GF(2) -/
def bit2 (b : Bool) : ZMod 2 := if b then 1 else 0

/-- polynomial of degree < 32 of a register in reflected form: bit 31 is the constant term -/
noncomputable def regPoly (v : BitVec 32) : (ZMod 2)[X] :=
  ∑ i ∈ Finset.range 32, C (bit2 (v.getLsbD (31 - i))) * X ^ i

/-- generator polynomial, `x^32` plus the polynomial given (reflected) by `P` -/
noncomputable def genPoly (P : BitVec 32) : (ZMod 2)[X] := X ^ 32 + regPoly P

/-- message polynomial: the first transmitted bit has the highest power -/
noncomputable def msgPoly (bits : List Bool) : (ZMod 2)[X] :=
  bits.foldl (fun p b => p * X + C (bit2 b)) 0

end CE.Crc
