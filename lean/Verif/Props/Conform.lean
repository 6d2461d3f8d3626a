import Verif.Model.Crc
import Verif.Model.Fnv
import Verif.Model.Vec
import Verif.Model.Isqrt
import Verif.Model.Cordic
import Verif.Model.Pool
import Verif.Model.Dictionary
import Verif.Model.Bulk
import Verif.Model.Sort
import Verif.Model.Io
import Verif.Model.Nameof
import Verif.Model.ToText
import Verif.Model.Random
import Verif.Props.Cdt
/-! What the project's own tests and static assertions expect, asked of the model.  These are tests of the transcription, not proofs of
properties. -/
namespace CE.Conform

/-- the bytes of a text, with its terminator -/
def text (s : String) : List (BitVec 8) := s.toList.map (fun c => BitVec.ofNat 8 c.toNat) ++ [0]

/-! ### lib/h/ce/ce.h:1534-1549, static assertions -/

open CE.Crc in
example : tableAt crc32cPoly 0 0 = some 0 ∧ tableAt crc32cPoly 0 1 = some 0xf26b8303 ∧ tableAt crc32cPoly 0 255 = some 0xad7d5351 ∧
    tableAt crc32cPoly 1 0 = some 0 ∧ tableAt crc32cPoly 1 1 = some 0x13a29877 ∧ tableAt crc32cPoly 1 255 = some 0xa3e32483 ∧
    tableAt crc32cPoly 15 255 = some 0x8fda7dfa := by decide +kernel

open CE.Crc in
example : crc32Longs crc32cPoly 0 [0x1234567812345678] = crc32Words crc32cPoly 0 [0x12345678, 0x12345678] ∧
    crc32Longs crc32cPoly 0 [0x1234567812345678] = crc32Bytes crc32cPoly 0 [0x78, 0x56, 0x34, 0x12, 0x78, 0x56, 0x34, 0x12] := by
  decide +kernel

open CE.Crc in
example : crc32c (text "The quick brown fox jumps over the lazy dog") = some 0x22620404 ∧ crc32c (text "123456789") = some 0xe3069283 := by
  decide +kernel

example : Fnv.fnv1aText (Fnv.basis 32) (text "Mallori, Jimmy, Sydney") = some 0xaaad3b41 := by decide +kernel

/-! ### test/math.cpp -/

example : Vec.abLessCd 5 7 11 13 = some true := by decide
example : Vec.inside ⟨0, 10⟩ ⟨10, 0⟩ = some true ∧ Vec.inside ⟨0, 0⟩ ⟨10, 0⟩ = some true ∧ Vec.inside ⟨10, 0⟩ ⟨0, 10⟩ = some false ∧
    Vec.inside ⟨10, 0⟩ ⟨0, 0⟩ = some false := by decide
example : (Vec.sqrx1 0x01234567).map Isqrt.isqrt = some 0x01234567 := by decide +kernel

/-- `polar_ang(x, y)` -/
def ang (x y : Int) : Option Int := (Cordic.toPolar x y).map (·.2)

example : ang 100 0 = some 0 ∧ ang 100 100 = some 0x10000000 ∧ ang 0 100 = some 0x20000000 ∧ ang (-100) 100 = some 0x30000000 ∧
    ang (-100) 0 = some (-0x40000000) ∧ ang (-100) (-100) = some (-0x30000000) ∧ ang 0 (-100) = some (-0x20000000) ∧
    ang 100 (-100) = some (-0x10000000) ∧ (Cordic.toPolar 300 400).map (·.1) = some 500 := by decide +kernel

/-- `c_pi` is the double next to pi -/
example : Cordic.cpi.map (fun a => a.eqv ⟨884279719003555, -48⟩) = some true := by decide +kernel

/-- degrees_to_angle, in units of 45 degrees -/
example : [0, 45, 90, 135, -180, -135, -90, -45].map Vec.degreesToAngle =
    [0, 1, 2, 3, -4, -3, -2, -1].map fun n => some (n * 0x10000000) := by decide +kernel

/-! ### test/pool.cpp -/

open CE.Pool in
example : (run 1024 ⟨⟨fun _ => 0, 0, fun _ => 7⟩, fun _ => 0⟩ [.isEmpty 0, .append 0 0, .append 0 1, .append 0 2, .isEmpty 0, .head 0,
      .remove 0, .head 0, .remove 0, .head 0, .remove 0]).map
    (fun r => r.1.map fun | .ok b => (if b then 100 else 200) | .value v => v | _ => 0) =
    some [100, 100, 100, 100, 200, 0, 100, 1, 100, 2, 100] := by decide +kernel

open CE.Pool in
example : (run 1024 ⟨⟨fun _ => 0, 0, fun _ => 7⟩, fun _ => 0⟩ [.isEmpty 0, .insert 0 2, .insert 0 1, .insert 0 0, .isEmpty 0, .head 0,
      .remove 0, .head 0, .remove 0, .head 0, .remove 0]).map
    (fun r => r.1.map fun | .ok b => (if b then 100 else 200) | .value v => v | _ => 0) =
    some [100, 100, 100, 100, 200, 0, 100, 1, 100, 2, 100] := by decide +kernel

/-! ### test/dictionary.cpp -/

/-- the hash of a name -/
def hash (s : String) : Nat := ((Fnv.fnv1aText (Fnv.basis 32) (text s)).getD 0).toNat

open CE.Dictionary in
example : (run (fun a b => decide (b ≤ a)) 256 ⟨0, fun _ => (0, 0), 0, fun _ => 0⟩ [.bind (hash "Mallori") (1, 2), .bind (hash "Jimmy") (0, 9),
      .bind (hash "Sydney") (0, 9), .getName (hash "Mallori"), .getName (hash "Sydney"), .getName (hash "Jimmy"), .find (hash "Sydney"),
      .find (hash "Jimmy")]).map
    (fun r => (r.2.size, r.1.map fun | .ptr p => (p, 0) | .value v => (100 + v.1, v.2) | .unit => (0, 0))) =
    some (4, [(1, 0), (2, 0), (3, 0), (101, 2), (100, 9), (100, 9), (3, 0), (2, 0)]) := by decide +kernel

/-! ### test/main.cpp, bulk_simple -/

open CE.Bulk in
example : (run (⟨true, true, 0, true, id⟩ : Traits Nat) 4 (fun _ => none) [.new 0 (fun _ => 7), .append 0 1, .append 0 2, .room 0,
      .appendN 0 10, .room 0, .append 0 3, .append 0 4, .append 0 5, .room 0, .remove false 0 0, .get 0 0, .get 0 1, .get 0 2, .room 0,
      .remove true 0 0, .get 0 0, .get 0 1, .room 0]).map
    (fun r => r.1.map fun | .ok b => (if b then 100 else 200) | .value v => v | .count n => 300 + n | .unit => 0 | .values _ => 0) =
    some [0, 100, 100, 302, 200, 302, 100, 100, 200, 300, 100, 4, 2, 3, 301, 100, 2, 3, 302] := by decide +kernel

/-! ### test/sort.cpp -/

/-- the array of the tests -/
def a : List Nat := [10, 2, 6, 2, 5, 7, 4, 9, 12, 10]

open CE.Sorting in
example : (introSort (fun x y : Nat => decide (x < y)) ⟨0, 10⟩ 2 10 0 10 (a.getD · 0)).map (fun m => (List.range 10).map m) =
      some [2, 2, 4, 5, 6, 7, 9, 10, 10, 12] ∧
    (introSort (fun x y : Nat => decide (x < y)) ⟨0, 10⟩ 2 10 0 10 ([2, 2, 4, 5, 6, 7, 9, 10, 10, 12].getD · 0)).map
      (fun m => (List.range 10).map m) = some [2, 2, 4, 5, 6, 7, 9, 10, 10, 12] ∧
    (insertionSort (fun x y : Nat => decide (x < y)) ⟨0, 10⟩ 0 10 (a.getD · 0)).map (fun m => (List.range 10).map m) =
      some [2, 2, 4, 5, 6, 7, 9, 10, 10, 12] := by decide +kernel

/-! ### test/cdt.cpp: `cdt<10, 4096>`, `locate(0, 0, 0)` -/

example : Cdt.locate 10 Cdt.sample0 (2 ^ 10) 0 0 0 = some 31 := by decide +kernel

/-! ### test/nameof.cpp, for a compiler that writes values of no enumerator as a cast -/

/-- the characters of a text -/
def chars (s : String) : List Nat := s.toList.map Char.toNat

/-- how the enumeration `city` is written -/
def city : Nameof.Compiler where
  pre := chars "... [N = "
  suf := chars "]"
  item v := match v with
    | 0 => chars "city::_unknown"
    | 1 => chars "city::newport"
    | 2 => chars "city::irvine"
    | 3 => chars "city::costa_mesa"
    | 4 => chars "city::langua_beach"
    | _ => chars "(city)" ++ (List.replicate (v / 100) 49 ++ [48 + v / 10 % 10, 48 + v % 10])

/-- and the enumeration without a name -/
def colour : Nameof.Compiler where
  pre := chars "... [N = "
  suf := chars "]"
  item v := match v with
    | 0 => chars "red"
    | 1 => chars "green"
    | 2 => chars "blue"
    | _ => chars "(<unnamed enum>)" ++ (List.replicate (v / 100) 49 ++ [48 + v / 10 % 10, 48 + v % 10])

example : city.nameof 2 = some (chars "irvine" ++ [0]) ∧ city.nameof 45 = some (chars "???" ++ [0]) ∧
    colour.nameof 1 = some (chars "green" ++ [0]) ∧ colour.asEnum (chars "blue" ++ [0]) 0 = some 2 ∧
    colour.asEnum (chars "green" ++ [0]) 0 = some 1 ∧ colour.asEnum (chars "grey" ++ [0]) 0 = some 0 := by decide +kernel

/-! ### test/io.cpp -/

/-- what the test's class keeps: the text so far and the prefix -/
abbrev Cjson := String × String

/-- `io_as_cjson_text` -/
def cjson : Io.Handler Int Cjson where
  atom a s := some (a, (s.1 ++ s.2 ++ toString a, ", "))
  enterArray n _ s := some (n, (s.1 ++ s.2 ++ "[", ""))
  leaveArray n _ s := some (n, (s.1 ++ "]", ", "))
  name t s := some (s.1 ++ s.2 ++ t, ": ")
  enterClass s := some (s.1 ++ s.2 ++ "{", " ")
  leaveClass s := some (s.1 ++ " }", s.2)

/-- `vec2<int>`, visited as `int[2]` -/
def vec2 : Io.Ty := .arr 2 .atom
/-- `body_t` -/
def body : Io.Ty := .obj (.member "p" vec2 (.member "steps" (.arr 2 vec2) .nil))
/-- `world_t` -/
def world : Io.Ty := .obj (.member "time" .atom (.member "bodies" (.list 10 body) .nil))

/-- a vector -/
def v (x y : Int) : Io.Val Int vec2 := fun i => (if i.1 = 0 then x else y : Int)
/-- a body -/
def b (p s t : Io.Val Int vec2) : Io.Val Int body := (p, fun i => if i.1 = 0 then s else t, ())

/-- the text for one named value -/
def show' (name : String) (t : Io.Ty) (d : Io.Val Int t) : Option String :=
  (Io.item cjson (.member name t .nil) (d, ()) ("", "")).map (·.2.1)

example : show' "x" .atom (42 : Int) = some "x: 42" := by decide +kernel
example : show' "v" vec2 (v 1 2) = some "v: [1, 2]" := by decide +kernel
example : show' "w" world ((0 : Int), (0, fun _ => b (v 0 0) (v 0 0) (v 0 0)), ()) = some "w: { time: 0, bodies: [] }" := by decide +kernel
example : show' "w" world ((0 : Int), (2, fun i => if i.1 = 0 then b (v 1 2) (v 3 4) (v 5 6) else b (v (-1) (-2)) (v (-3) (-4)) (v (-5) (-6))), ()) =
    some "w: { time: 0, bodies: [{ p: [1, 2], steps: [[3, 4], [5, 6]] }, { p: [-1, -2], steps: [[-3, -4], [-5, -6]] }] }" := by decide +kernel

end CE.Conform
