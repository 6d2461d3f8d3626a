import Mathlib.Tactic.IntervalCases
import Verif.Proof.ZorderCorners
/-!
# z-order codes and rectangle queries (C54-C58)

A code holds a 48-bit cell and 16 bits of further data.  Queries are given by aligned corners
`L * 2^16`, `H * 2^16`.
-/
namespace CE.Zorder

/-! ## C54 -/

/-- The x and y bits of the code of a point are its coordinates, offset to be unsigned. -/
theorem C54_encode {x y : Int} (hx : -2 ^ 31 ≤ x ∧ x < 2 ^ 31) (hy : -2 ^ 31 ≤ y ∧ y < 2 ^ 31) :
    (cx (encode x y) : Int) = x + 2 ^ 31 ∧ (cy (encode x y) : Int) = y + 2 ^ 31 ∧ encode x y < 2 ^ 64 :=
  encode_coords hx hy

/-- Different points have different codes. -/
theorem C54_injective {x y x' y' : Int} (hx : -2 ^ 31 ≤ x ∧ x < 2 ^ 31) (hy : -2 ^ 31 ≤ y ∧ y < 2 ^ 31)
    (hx' : -2 ^ 31 ≤ x' ∧ x' < 2 ^ 31) (hy' : -2 ^ 31 ≤ y' ∧ y' < 2 ^ 31)
    (h : encode x y = encode x' y') : x = x' ∧ y = y' := by
  have h1 := encode_coords hx hy
  have h2 := encode_coords hx' hy'
  rw [h] at h1
  omega

/-- Moving up along either axis increases the code. -/
theorem C54_monotone {x y x' y' : Int} (hx : -2 ^ 31 ≤ x ∧ x < 2 ^ 31) (hy : -2 ^ 31 ≤ y ∧ y < 2 ^ 31)
    (hx' : -2 ^ 31 ≤ x' ∧ x' < 2 ^ 31) (hy' : -2 ^ 31 ≤ y' ∧ y' < 2 ^ 31)
    (h1 : x ≤ x') (h2 : y ≤ y') (h : x < x' ∨ y < y') : encode x y < encode x' y' := by
  have a := encode_coords hx hy
  have b := encode_coords hx' hy'
  apply coord_strict <;> omega

/-- `z_inside` is the rectangle test. -/
theorem C54_inside {x0 y0 x1 y1 x y : Int} (hx0 : -2 ^ 31 ≤ x0 ∧ x0 < 2 ^ 31) (hy0 : -2 ^ 31 ≤ y0 ∧ y0 < 2 ^ 31)
    (hx1 : -2 ^ 31 ≤ x1 ∧ x1 < 2 ^ 31) (hy1 : -2 ^ 31 ≤ y1 ∧ y1 < 2 ^ 31)
    (hx : -2 ^ 31 ≤ x ∧ x < 2 ^ 31) (hy : -2 ^ 31 ≤ y ∧ y < 2 ^ 31) :
    inside (encode x0 y0) (encode x1 y1) (encode x y) = true ↔ (x0 ≤ x ∧ x ≤ x1) ∧ y0 ≤ y ∧ y ≤ y1 := by
  have a := encode_coords hx0 hy0
  have b := encode_coords hx1 hy1
  have c := encode_coords hx hy
  rw [inside_iff a.2.2 b.2.2 c.2.2]
  unfold InBox
  omega

example : encode (-1) 0 = 0x9555555555555555 ∧ encode 0 0 = 0xc000000000000000 := by decide
example : inside (encode (-1) 0) (encode 5 7) (encode 5 0) = true ∧
    inside (encode (-1) 0) (encode 5 7) (encode 6 0) = false := by decide

/-! ## C58 -/

/-- Splitting a rectangle of more than one cell: the two boxes are rectangles, they have no cell in common, together
they are the rectangle, every cell of the first has a smaller code than every cell of the second, and `jo`, `ji` are the
largest code of the first and the smallest code of the second. -/
theorem C58_split {L H : Nat} (hL : L < 2 ^ 48) (hH : H < 2 ^ 48) (hx : cx L ≤ cx H) (hy : cy L ≤ cy H)
    (hne : L ≠ H) :
    ∃ J I, (split (L * 2 ^ 16) (H * 2 ^ 16)).jo = J * 2 ^ 16 ∧ (split (L * 2 ^ 16) (H * 2 ^ 16)).ji = I * 2 ^ 16 ∧
      (∀ c, InBox L H c ↔ InBox L J c ∨ InBox I H c) ∧
      (∀ c, ¬ (InBox L J c ∧ InBox I H c)) ∧
      (∀ c d, InBox L J c → InBox I H d → c < d) ∧
      (InBox L J J ∧ ∀ c, InBox L J c → c ≤ J) ∧
      (InBox I H I ∧ ∀ d, InBox I H d → I ≤ d) ∧
      ((split (L * 2 ^ 16) (H * 2 ^ 16)).go = true ↔ J + 1 < I) := by
  obtain ⟨J, I, P, hs, hh, -, -⟩ := split_cells ⟨hL, hH, hx, hy⟩ hne
  have hlt := hh.lt
  rw [hs]
  have key : ∀ c d, InBox L J c → InBox I H d → c < d := fun c d h1 h2 => by
    have := InBox.le h1; have := InBox.ge h2; omega
  have v1 := hh.v1
  have v2 := hh.v2
  refine ⟨J, I, rfl, rfl, hh.cover, fun c h => ?_, key, ⟨?_, fun c h => InBox.le h⟩, ⟨?_, fun c h => InBox.ge h⟩, ?_⟩
  · exact Nat.lt_irrefl _ (key c c h.1 h.2)
  · exact ⟨v1.2.2.1, le_refl _, v1.2.2.2, le_refl _⟩
  · exact ⟨le_refl _, v2.2.2.1, le_refl _, v2.2.2.2⟩
  · exact decide_eq_true_iff

/-- The halves are cut along one axis in two adjacent strips. -/
theorem C58_strips {L H : Nat} (hL : L < 2 ^ 48) (hH : H < 2 ^ 48) (hx : cx L ≤ cx H) (hy : cy L ≤ cy H)
    (hne : L ≠ H) :
    ∃ J I, (split (L * 2 ^ 16) (H * 2 ^ 16)).jo = J * 2 ^ 16 ∧ (split (L * 2 ^ 16) (H * 2 ^ 16)).ji = I * 2 ^ 16 ∧
      ((cx J + 1 = cx I ∧ cy J = cy H ∧ cy I = cy L) ∨ (cy J + 1 = cy I ∧ cx J = cx H ∧ cx I = cx L)) := by
  obtain ⟨J, I, P, hs, hh, -, -⟩ := split_cells ⟨hL, hH, hx, hy⟩ hne
  rw [hs]
  exact ⟨J, I, rfl, rfl, hh.strips⟩

/-- A single cell is not worth splitting. -/
theorem C58_single {L : Nat} (hL : L < 2 ^ 48) : (split (L * 2 ^ 16) (L * 2 ^ 16)).go = false := by
  rw [split_same hL]

example : InBox 1 6 3 ∧ InBox 1 6 4 ∧ ¬ InBox 1 6 2 ∧ split (1 * 2 ^ 16) (6 * 2 ^ 16) = ⟨false, 3 * 2 ^ 16, 4 * 2 ^ 16⟩ := by
  decide +kernel

/-! ## C55 -/

/-- When the walk stays within its span stack, the output is the data at ascending indices, and these include every
element whose cell is in the rectangle, except one equal to the last code of the last cell. -/
theorem C55_query_partial {data : Nat → Nat} {size L H : Nat} (hsort : ∀ i j, i ≤ j → j < size → data i ≤ data j)
    (hL : L < 2 ^ 48) (hH : H < 2 ^ 48) (hx : cx L ≤ cx H) (hy : cy L ≤ cy H) {out : List Nat}
    (h : query (L * 2 ^ 16) (H * 2 ^ 16) size data = some out) :
    ∃ idx : List Nat, out = idx.map data ∧ idx.Pairwise (· < ·) ∧ (∀ k ∈ idx, k < size) ∧
      ∀ k, k < size → InBox L H (cell (data k)) → data k ≠ H * 2 ^ 16 + 0xffff → k ∈ idx := by
  unfold query lowerBound at h
  have hlb := lowerLoop_spec (data := data) (z := add64 (H * 2 ^ 16) 0xffff) (size - 0) 0
    (fun i j h1 h2 => hsort i j h1 (by omega))
  rw [add_low hH] at h hlb
  generalize lowerLoop data (H * 2 ^ 16 + 0xffff) 0 (size - 0) = last at *
  obtain ⟨idx, h1, h2, h3, h4⟩ := (queryLoop_spec (L0 := L) (H0 := H) (last := last)
    (fun i j a b => hsort i j a (by omega)) _ 0 (le_refl _) (S := []) (L := L) (H := H) ⟨hL, hH, hx, hy⟩
    ⟨⟨le_refl _, hx, le_refl _, hy⟩, ⟨hx, le_refl _, hy, le_refl _⟩⟩).2 out h
  refine ⟨idx, h1, h2, fun k hk => by have := h3 k hk; omega, fun k hk hb hne => ?_⟩
  refine h4 k (by omega) ?_ hb
  by_contra hc
  have hge := hlb.2.2.2 k (by omega) (by omega)
  have hle := InBox.le hb
  have : ¬ H < cell (data k) := by omega
  rw [← gt_hi hH, add_low hH] at this
  omega

/-- What is missed is always missed: every reported element is below the last code of the last cell. -/
theorem C55_below_last {data : Nat → Nat} {size L H : Nat} (hsort : ∀ i j, i ≤ j → j < size → data i ≤ data j)
    (hL : L < 2 ^ 48) (hH : H < 2 ^ 48) (hx : cx L ≤ cx H) (hy : cy L ≤ cy H) {out : List Nat}
    (h : query (L * 2 ^ 16) (H * 2 ^ 16) size data = some out) {z : Nat} (hz : z ∈ out) : z < H * 2 ^ 16 + 0xffff := by
  unfold query lowerBound at h
  have hlb := lowerLoop_spec (data := data) (z := add64 (H * 2 ^ 16) 0xffff) (size - 0) 0
    (fun i j h1 h2 => hsort i j h1 (by omega))
  rw [add_low hH] at h hlb
  generalize lowerLoop data (H * 2 ^ 16 + 0xffff) 0 (size - 0) = last at *
  obtain ⟨idx, h1, h2, h3, h4⟩ := (queryLoop_spec (L0 := L) (H0 := H) (last := last)
    (fun i j a b => hsort i j a (by omega)) _ 0 (le_refl _) (S := []) (L := L) (H := H) ⟨hL, hH, hx, hy⟩
    ⟨⟨le_refl _, hx, le_refl _, hy⟩, ⟨hx, le_refl _, hy, le_refl _⟩⟩).2 out h
  rw [h1, List.mem_map] at hz
  obtain ⟨k, hk, rfl⟩ := hz
  have := h3 k hk
  exact hlb.2.2.1 k (by omega) (by omega)

/-- The walk reads only the array. -/
theorem C55_reads {d1 d2 : Nat → Nat} {lo hi size : Nat} (h : ∀ k, k < size → d1 k = d2 k) :
    query lo hi size d1 = query lo hi size d2 :=
  query_reads h

/-- An element with the last code of the last cell is missed: the search for the end is exclusive. -/
theorem C55_misses_last_false :
    query 0 0 1 (fun _ => 0xffff) = some [] ∧ InBox 0 0 (cell 0xffff) := by
  decide +kernel

example : query (1 * 2 ^ 16) (6 * 2 ^ 16) 1 (fun _ => 3 * 2 ^ 16) = some [3 * 2 ^ 16] := by
  decide +kernel

/-! ## C56 -/

/-- Each reported element lies, in z-order, between the corners of a sub-rectangle of the query which is a single cell or
whose two halves are adjacent in z-order. Missing for the full claim: that its cell lies in the query, see
`C56_outside_false`. -/
theorem C56_range_partial {data : Nat → Nat} {size L H : Nat} (hsort : ∀ i j, i ≤ j → j < size → data i ≤ data j)
    (hL : L < 2 ^ 48) (hH : H < 2 ^ 48) (hx : cx L ≤ cx H) (hy : cy L ≤ cy H) {out : List Nat}
    (h : query (L * 2 ^ 16) (H * 2 ^ 16) size data = some out) {z : Nat} (hz : z ∈ out) :
    ∃ L' H', InBox L H L' ∧ InBox L H H' ∧ cx L' ≤ cx H' ∧ cy L' ≤ cy H' ∧ L' ≤ cell z ∧ cell z ≤ H' ∧
      (L' = H' ∨ ∃ J, ∀ d, InBox L' H' d ↔ InBox L' J d ∨ InBox (J + 1) H' d) := by
  unfold query lowerBound at h
  have hlb := lowerLoop_le (d := data) (z := add64 (H * 2 ^ 16) 0xffff) (size - 0) 0
  generalize lowerLoop data (add64 (H * 2 ^ 16) 0xffff) 0 (size - 0) = last at *
  obtain ⟨idx, h1, h2, h3, h4⟩ := (queryLoop_spec (L0 := L) (H0 := H) (last := last)
    (fun i j a b => hsort i j a (by omega)) _ 0 (le_refl _) (S := []) (L := L) (H := H) ⟨hL, hH, hx, hy⟩
    ⟨⟨le_refl _, hx, le_refl _, hy⟩, ⟨hx, le_refl _, hy, le_refl _⟩⟩).2 out h
  rw [h1, List.mem_map] at hz
  obtain ⟨k, hk, rfl⟩ := hz
  obtain ⟨L', H', hv, a1, a2, a3, a4, a5⟩ := (h3 k hk).2.2
  refine ⟨L', H', a1, a2, hv.2.2.1, hv.2.2.2, a3, a4, a5.imp id ?_⟩
  rintro ⟨J, -, -, hJ⟩
  exact ⟨J, hJ⟩

/-- The query for a square aligned to its power of two size returns only elements of the square. -/
theorem C56_square {data : Nat → Nat} {size s n : Nat} (hsort : ∀ i j, i ≤ j → j < size → data i ≤ data j)
    (hs : s * 2 ^ (2 * n) + (2 ^ (2 * n) - 1) < 2 ^ 48) {out : List Nat}
    (h : query (s * 2 ^ (2 * n) * 2 ^ 16) ((s * 2 ^ (2 * n) + (2 ^ (2 * n) - 1)) * 2 ^ 16) size data = some out)
    {z : Nat} (hz : z ∈ out) :
    InBox (s * 2 ^ (2 * n)) (s * 2 ^ (2 * n) + (2 ^ (2 * n) - 1)) (cell z) := by
  have hpos := Nat.two_pow_pos (2 * n)
  have hd : ∀ c, s * 2 ^ (2 * n) ≤ c → c ≤ s * 2 ^ (2 * n) + (2 ^ (2 * n) - 1) → c / 2 ^ (2 * n) = s := by
    intro c h1 h2
    rw [Nat.div_eq_iff hpos]
    constructor
    · exact h1
    · omega
  have hcx : ∀ c, c / 2 ^ (2 * n) = s → cx c / 2 ^ n = cx s ∧ cy c / 2 ^ n = cy s := by
    intro c hc
    rw [cx_div, cy_div, show (4 : Nat) ^ n = 2 ^ (2 * n) by rw [Nat.pow_mul], hc]
    exact ⟨rfl, rfl⟩
  have lo := corner_lo s n
  have hi := corner_hi s n
  obtain ⟨L', H', a1, a2, -, -, a3, a4, -⟩ := C56_range_partial hsort (by omega) hs
    (by rw [lo.1, hi.1]; omega) (by rw [lo.2, hi.2]; omega) h hz
  have e := hcx (cell z) (hd _ (by have := InBox.ge a1; omega) (by have := InBox.le a2; omega))
  unfold InBox
  rw [lo.1, lo.2, hi.1, hi.2, ← e.1, ← e.2]
  have p := Nat.two_pow_pos n
  have d1 := Nat.div_add_mod (cx (cell z)) (2 ^ n)
  have d2 := Nat.div_add_mod (cy (cell z)) (2 ^ n)
  have m1 := Nat.mod_lt (cx (cell z)) p
  have m2 := Nat.mod_lt (cy (cell z)) p
  rw [Nat.mul_comm] at d1 d2
  omega

/-- The query for columns 1-2 and rows 0-1 reports an element of column 0. -/
theorem C56_outside_false :
    query (1 * 2 ^ 16) (6 * 2 ^ 16) 1 (fun _ => 2 * 2 ^ 16) = some [2 * 2 ^ 16] ∧ ¬ InBox 1 6 (cell (2 * 2 ^ 16)) := by
  decide +kernel

/-! ## C57 -/

/-- A query of up to 2^kx columns and 2^ky rows of cells, kx + ky ≤ 32, wherever it lies, stays within the 32 spans and
terminates; for instance one of up to 65536 by 65536 cells. Missing for the full claim: larger queries, see
`C57_sharp_false`. -/
theorem C57_stack_partial {data : Nat → Nat} {size L H kx ky : Nat}
    (hsort : ∀ i j, i ≤ j → j < size → data i ≤ data j)
    (hL : L < 2 ^ 48) (hH : H < 2 ^ 48) (hx : cx L ≤ cx H) (hy : cy L ≤ cy H)
    (hw : cx H - cx L < 2 ^ kx) (hh : cy H - cy L < 2 ^ ky) (hk : kx + ky ≤ 32) :
    ∃ out, query (L * 2 ^ 16) (H * 2 ^ 16) size data = some out := by
  have ho : OkBox (L * 2 ^ 16) (H * 2 ^ 16) := by
    refine ⟨up_lt hL, ?_, by rw [cell_mul, cell_mul]; exact hx, by rw [cell_mul, cell_mul]; exact hy⟩
    rw [← add_low hH]
    exact Nat.mod_lt _ (by norm_num)
  refine Option.ne_none_iff_exists'.1 ((query_any hsort ho).1 ?_)
  rw [cell_mul, cell_mul]
  exact ⟨kx, ky, hk, ⟨hx, Or.inl hw⟩, ⟨hy, Or.inl hh⟩⟩

/-- For the rectangle of columns 1 to 2^18-2 and rows 1 to 2^17-2, with one element in its first cell, the walk
writes past the end of the span stack. -/
theorem C57_overflow_false :
    query (3 * 2 ^ 16) ((2 ^ 35 - 4) * 2 ^ 16) 1 (fun _ => 3 * 2 ^ 16) = none := by
  decide +kernel

/-- The bound of `C57_stack_partial` is sharp: for any two sides of 2^kx by 2^ky cells with kx + ky = 33, there is a
rectangle of that size, and one element, for which the walk writes past the end of the span stack. -/
theorem C57_sharp_false {kx ky : Nat} (h1 : kx ≤ 23) (h2 : ky ≤ 23) (h : kx + ky = 33) :
    ∃ L H z, L < 2 ^ 48 ∧ H < 2 ^ 48 ∧ cx L ≤ cx H ∧ cy L ≤ cy H ∧ cx H - cx L < 2 ^ kx ∧ cy H - cy L < 2 ^ ky ∧
      InBox L H (cell z) ∧ query (L * 2 ^ 16) (H * 2 ^ 16) 1 (fun _ => z) = none := by
  obtain rfl : ky = 33 - kx := by omega
  have h3 : 10 ≤ kx := by omega
  refine ⟨3, 4 ^ kx + 2 * 4 ^ (33 - kx), 3 * 2 ^ 16, ?_⟩
  clear h h2
  interval_cases kx <;> decide +kernel

example : cx 6 - cx 1 < 2 ^ 16 ∧ cy 6 - cy 1 < 2 ^ 16 ∧ cx 1 ≤ cx 6 ∧ cy 1 ≤ cy 6 := by decide +kernel

example : query (4 * 2 ^ 16) (7 * 2 ^ 16) 3 (fun k => (k + 3) * 2 ^ 16) = some [4 * 2 ^ 16, 5 * 2 ^ 16] := by
  decide +kernel

end CE.Zorder
