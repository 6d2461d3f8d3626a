import Verif.Model.CdtView
/-!
# Model of the layout of structures that are looked at in two ways

* `rgba<T>` as an array of four (lib/h/ce/ce.h:903-914), `vec<N, T>` as an array of `N` (lib/h/ce/io.h:116-119);
* the union in `cdt` of vertices, faces and edges (lib/h/ce/cdt.h:57-127);
* `thread_mutex` and `thread_shared_mutex`, arrays of pointers in which a `std::mutex`, `std::shared_mutex` or `SRWLOCK` is
  constructed (lib/h/ce/mutex.h:47-63, lib/mutex_std.cpp:30-36, lib/mutex_win32.cpp:32-38).

The rules are those of the Itanium and the Microsoft ABI where they agree: members in order of declaration, each at the first
place its alignment allows; bit-fields of one type share units of the type, low bits first (little-endian).  Not modelled:
bases, virtual functions, bit-fields of different types next to each other, `#pragma pack`.
-/
namespace CE.Layout

/-- `sizeof` and `alignof` of a type -/
structure Ty where
  /-- `sizeof` in bytes -/
  size : Nat
  /-- `alignof` -/
  align : Nat
  deriving DecidableEq

/-- a member: its type and, for a bit-field, its width -/
structure Field where
  /-- the name -/
  name : String
  /-- the type -/
  ty : Ty
  /-- width of a bit-field -/
  width : Option Nat
  deriving DecidableEq

/-- the next multiple of `a` -/
def up (n a : Nat) : Nat := (n + a - 1) / a * a

/-- the bit at which a member starts when `pos` bits are taken -/
def start (pos : Nat) (f : Field) : Nat :=
  match f.width with
  | none => up pos (8 * f.ty.align)
  | some w => if pos / (8 * f.ty.size) = (pos + w - 1) / (8 * f.ty.size) then pos else up pos (8 * f.ty.size)

/-- the number of bits of a member -/
def Field.bits (f : Field) : Nat := f.width.getD (8 * f.ty.size)

/-- where the members are: name, first bit, bits -/
def place : Nat → List Field → List (String × Nat × Nat)
  | _, [] => []
  | pos, f :: fs => (f.name, start pos f, f.bits) :: place (start pos f + f.bits) fs

/-- the first bit behind the members -/
def ending : Nat → List Field → Nat
  | pos, [] => pos
  | pos, f :: fs => ending (start pos f + f.bits) fs

/-- the largest alignment of the members -/
def aligns : List Field → Nat
  | [] => 1
  | f :: fs => max f.ty.align (aligns fs)

/-- `sizeof` and `alignof` of a structure with at least one member -/
def struct (fs : List Field) : Ty := ⟨up (ending 0 fs) (8 * aligns fs) / 8, aligns fs⟩

/-- `T[n]` -/
def array (t : Ty) (n : Nat) : Ty := ⟨n * t.size, t.align⟩

/-- the address of element `i` of an array at address `a` -/
def element (t : Ty) (a i : Nat) : Nat := a + i * t.size

/-- the address of a member of a structure at address `a` (the member is not a bit-field) -/
def member (fs : List Field) (a : Nat) (name : String) : Option Nat :=
  ((place 0 fs).find? (fun m => m.1 = name)).map (fun m => a + m.2.1 / 8)

/-- `T name;` -/
def plain (t : Ty) (name : String) : Field := ⟨name, t, none⟩

/-- `rgba<T>` lib/h/ce/ce.h:906-909 -/
def rgba (t : Ty) : List Field := [plain t "r", plain t "g", plain t "b", plain t "a"]

/-- `vec<1, T>` to `vec<4, T>` lib/h/ce/ce.h:587-590 -/
def vec (t : Ty) (n : Nat) : List Field := (["x", "y", "z", "w"].take n).map (plain t)

/-- `uint16_t` and `int16_t` -/
def u16 : Ty := ⟨2, 2⟩

/-- `uint16_t name : w;` -/
def u16bits (name : String) (w : Nat) : Field := ⟨name, u16, some w⟩

/-- `edge_data` lib/h/ce/cdt.h:57-62 -/
def edgeData : List Field := [u16bits "c" 3, u16bits "p" 13, plain u16 "e"]

/-- `face_data` lib/h/ce/cdt.h:97-114 -/
def faceData : List Field :=
  [u16bits "c0" 3, u16bits "p0" 13, plain u16 "e0", u16bits "c1" 3, u16bits "p1" 13, plain u16 "e1",
    u16bits "c2" 3, u16bits "p2" 13, plain u16 "e2", plain u16 "fi", plain u16 "xy"]

/-- `vert_data` lib/h/ce/cdt.h:65-94 -/
def vertData : List Field :=
  [u16bits "a_c0" 3, u16bits "a_p0" 13, plain u16 "a_e0", u16bits "a_c1" 3, u16bits "a_p1" 13, plain u16 "a_e1",
    u16bits "a_c2" 3, u16bits "a_p2" 13, plain u16 "a_e2", plain u16 "a_fi", plain u16 "x",
    u16bits "b_c0" 3, u16bits "b_p0" 13, plain u16 "b_e0", u16bits "b_c1" 3, u16bits "b_p1" 13, plain u16 "b_e1",
    u16bits "b_c2" 3, u16bits "b_p2" 13, plain u16 "b_e2", plain u16 "b_fi", plain u16 "y"]

/-- first bit and number of bits of `a[i].name` in an array `a` of structures -/
def bitsAt (fs : List Field) (i : Nat) (name : String) : Option (Nat × Nat) :=
  ((place 0 fs).find? (fun m => m.1 = name)).map (fun m => (i * (8 * (struct fs).size) + m.2.1, m.2.2))

/-- `thread_mutex` lib/h/ce/mutex.h:62: an array of `sizeof(M) / sizeof(void*)` pointers; `none` if the `static_assert` of
lib/h/ce/mutex.h:58 fails -/
def opaqueTy (ptr m : Ty) : Option Ty :=
  if m.size % ptr.size = 0 then some (struct [plain (array ptr (m.size / ptr.size)) "opaque_data"]) else none

end CE.Layout
