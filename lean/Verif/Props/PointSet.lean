import Verif.Props.Sort
import Verif.Props.ZorderCorners
/-!
# C116: a set of points sorted by code can be searched by rectangle
-/
namespace CE.Zorder

open CE.Sorting

theorem strictWeak_code : StrictWeak (fun x y : Nat => decide (x < y)) where
  irrefl := by simp
  trans := by intro a b c; simp; omega
  negtrans := by intro a b c; simp; omega

/-- what is in the rectangle, as points and as codes -/
theorem filter_points {x0 y0 x1 y1 : Int} (h0 : Int32Point x0 y0) (h1 : Int32Point x1 y1) {pts : List (Int × Int)}
    (hp : ∀ p ∈ pts, Int32Point p.1 p.2) :
    (pts.map fun p => encode p.1 p.2).filter (inside (encode x0 y0) (encode x1 y1) ·) =
      (pts.filter fun p => decide ((x0 ≤ p.1 ∧ p.1 ≤ x1) ∧ y0 ≤ p.2 ∧ p.2 ≤ y1)).map fun p => encode p.1 p.2 := by
  rw [List.filter_map]
  congr 1
  apply List.filter_congr
  intro p h
  have hk := hp p h
  rw [Bool.eq_iff_iff]
  simp only [Function.comp_apply, decide_eq_true_eq]
  exact C54_inside h0.1 h0.2 h1.1 h1.2 hk.1 hk.2

/-- C116.  Any points, encoded, sorted by `intro_sort` and asked for a rectangle with `z_query` and `z_inside`: the answer is the
points of the rectangle, each as often as given. The rectangle has up to 2^32 cells and does not reach the far corner of the plane
(C100_world_false, C57_sharp_false say what happens otherwise). -/
theorem C116_search {pts : List (Int × Int)} (hp : ∀ p ∈ pts, Int32Point p.1 p.2) {m : Nat → Nat} {a N depth : Nat} (hN : 1 ≤ N)
    (hd : pts.length < depth + N) (hd0 : 0 < depth) (hm : slice m a (a + pts.length) = pts.map fun p => encode p.1 p.2)
    {x0 y0 x1 y1 : Int} (h0 : Int32Point x0 y0) (h1 : Int32Point x1 y1) (hx : x0 ≤ x1)
    (hy : y0 ≤ y1) (hr : x1 < 2 ^ 31 - 256 ∨ y1 < 2 ^ 31 - 256) {kx ky : Nat} (hw : x1 - x0 ≤ 256 * (2 ^ kx - 1))
    (hh : y1 - y0 ≤ 256 * (2 ^ ky - 1)) (hk : kx + ky ≤ 32) :
    ∃ m' out, introSort (fun x y : Nat => decide (x < y)) ⟨a, a + pts.length⟩ N depth a (a + pts.length) m = some m' ∧
      query (encode x0 y0) (encode x1 y1) pts.length (fun k => m' (a + k)) = some out ∧
      (out.filter (inside (encode x0 y0) (encode x1 y1) ·)).Perm
        ((pts.filter fun p => decide ((x0 ≤ p.1 ∧ p.1 ≤ x1) ∧ y0 ≤ p.2 ∧ p.2 ≤ y1)).map fun p => encode p.1 p.2) := by
  obtain ⟨m', run, so, pm, -⟩ := C22_intro_sort (fun x y : Nat => decide (x < y)) strictWeak_code N hN a (a + pts.length)
    (by omega) m depth (by omega) hd0
  rw [hm] at pm
  have sl : slice m' a (a + pts.length) = (List.range pts.length).map fun k => m' (a + k) := by
    unfold slice
    rw [Nat.add_sub_cancel_left, List.range'_eq_map_range, List.map_map]
    rfl
  rw [sl] at so pm
  -- sorted
  have hsort : ∀ i j, i ≤ j → j < pts.length → m' (a + i) ≤ m' (a + j) := by
    intro i j hij hj
    rcases Nat.lt_or_eq_of_le hij with h | rfl
    · unfold CE.Sorted at so
      rw [List.pairwise_map] at so
      have := List.pairwise_iff_getElem.1 so i j (by simp; omega) (by simpa using hj) h
      simpa using this
    · rfl
  -- codes of points
  have code : ∀ k, ∃ p : Int × Int, k < pts.length → Int32Point p.1 p.2 ∧ m' (a + k) = encode p.1 p.2 := by
    intro k
    by_cases h : k < pts.length
    · have : m' (a + k) ∈ pts.map fun p => encode p.1 p.2 := by
        rw [← pm.mem_iff, List.mem_map]
        exact ⟨k, List.mem_range.2 h, rfl⟩
      obtain ⟨p, hm, e⟩ := List.mem_map.1 this
      exact ⟨p, fun _ => ⟨hp p hm, e.symm⟩⟩
    · exact ⟨(0, 0), fun h' => absurd h' h⟩
  choose pt hpt using code
  obtain ⟨out, q⟩ := C100_returns h0 h1 hx hy hr hw hh hk (data := fun k => m' (a + k)) (size := pts.length) hsort
  refine ⟨m', out, run, q, ?_⟩
  have rd : query (encode x0 y0) (encode x1 y1) pts.length (fun k => m' (a + k)) =
      query (encode x0 y0) (encode x1 y1) pts.length (fun k => encode (pt k).1 (pt k).2) :=
    C55_reads fun k hk => (hpt k hk).2
  rw [rd] at q
  have ans := C100_query_partial h0 h1 hx hy hr (pts := pt) (size := pts.length) (fun k hk => (hpt k hk).1)
    (fun i j hij hj => by rw [← (hpt i (by omega)).2, ← (hpt j hj).2]; exact hsort i j hij hj) q
  rw [ans, ← filter_points h0 h1, ← filter_points h0 h1 hp]
  · apply List.Perm.filter
    rw [List.map_map]
    refine List.Perm.trans (List.Perm.of_eq ?_) pm
    apply List.map_congr_left
    intro k hk
    exact (hpt k (List.mem_range.1 hk)).2.symm
  · intro p hp
    obtain ⟨k, hk, rfl⟩ := List.mem_map.1 hp
    exact (hpt k (List.mem_range.1 hk)).1

example : (∀ p ∈ [((5000 : Int), (5000 : Int)), (900, 399), (-7, 30), (900, 399)], Int32Point p.1 p.2) ∧
    slice (fun k => ([encode 5000 5000, encode 900 399, encode (-7) 30, encode 900 399] : List Nat).getD k 0) 0 (0 + 4) =
      [((5000 : Int), (5000 : Int)), (900, 399), (-7, 30), (900, 399)].map fun p => encode p.1 p.2 := by
  constructor
  · unfold Int32Point; decide
  · decide +kernel

example : ((introSort (fun x y : Nat => decide (x < y)) ⟨0, 4⟩ 2 8 0 4
      (fun k => ([encode 5000 5000, encode 900 399, encode (-7) 30, encode 900 399] : List Nat).getD k 0)).bind fun m =>
      (query (encode (-1000) 20) (encode 1000 400) 4 m)) = some [encode (-7) 30, encode 900 399, encode 900 399] := by
  decide +kernel

end CE.Zorder
