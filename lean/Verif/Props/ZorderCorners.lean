import Verif.Props.Zorder
/-!
# Rectangle queries between points (C100)

The corners are the codes `z_encode` gives for two points, the elements are codes of points, and the answer is filtered
by `z_inside`.
-/
namespace CE.Zorder

/-- `x`, `y` are `int32_t` -/
def Int32Point (x y : Int) : Prop := (-2 ^ 31 ≤ x ∧ x < 2 ^ 31) ∧ -2 ^ 31 ≤ y ∧ y < 2 ^ 31

theorem okBox_points {x0 y0 x1 y1 : Int} (h0 : Int32Point x0 y0) (h1 : Int32Point x1 y1) (hx : x0 ≤ x1) (hy : y0 ≤ y1)
    (hr : x1 < 2 ^ 31 - 256 ∨ y1 < 2 ^ 31 - 256) : OkBox (encode x0 y0) (encode x1 y1) := by
  have a := encode_coords h0.1 h0.2
  have b := encode_coords h1.1 h1.2
  have c := cell_coords (encode x0 y0)
  have d := cell_coords (encode x1 y1)
  refine ⟨a.2.2, room b.2.2 (by omega), ?_, ?_⟩
  · rw [c.1, d.1]; exact Nat.div_le_div_right (by omega)
  · rw [c.2, d.2]; exact Nat.div_le_div_right (by omega)

/-- The answer to a query between two points, filtered by `z_inside`, is exactly the stored points of the rectangle,
each as often as stored and in the order stored. Missing for the full claim: a far corner in the last cell, see
`C100_world_false`, and that the walk stays within its span stack, see `C100_returns`. -/
theorem C100_query_partial {x0 y0 x1 y1 : Int} (h0 : Int32Point x0 y0) (h1 : Int32Point x1 y1) (hx : x0 ≤ x1)
    (hy : y0 ≤ y1) (hr : x1 < 2 ^ 31 - 256 ∨ y1 < 2 ^ 31 - 256) {pts : Nat → Int × Int} {size : Nat}
    (hp : ∀ k, k < size → Int32Point (pts k).1 (pts k).2)
    (hsort : ∀ i j, i ≤ j → j < size → encode (pts i).1 (pts i).2 ≤ encode (pts j).1 (pts j).2) {out : List Nat}
    (h : query (encode x0 y0) (encode x1 y1) size (fun k => encode (pts k).1 (pts k).2) = some out) :
    out.filter (inside (encode x0 y0) (encode x1 y1) ·) =
      (((List.range size).map pts).filter fun p => decide ((x0 ≤ p.1 ∧ p.1 ≤ x1) ∧ y0 ≤ p.2 ∧ p.2 ≤ y1)).map
        fun p => encode p.1 p.2 := by
  obtain ⟨idx, rfl, i2, i3, i4⟩ := (query_any hsort (okBox_points h0 h1 hx hy hr)).2 out h
  have a := encode_coords h0.1 h0.2
  have b := encode_coords h1.1 h1.2
  rw [filter_idx i2 i3 fun k hk hi => i4 k hk ?_]
  · rw [List.filter_map, List.filter_map, List.map_map]
    have e : ∀ k ∈ List.range size, ((inside (encode x0 y0) (encode x1 y1) ·) ∘ fun k => encode (pts k).1 (pts k).2) k =
        ((fun p : Int × Int => decide ((x0 ≤ p.1 ∧ p.1 ≤ x1) ∧ y0 ≤ p.2 ∧ p.2 ≤ y1)) ∘ pts) k := by
      intro k hk
      have hk := hp k (List.mem_range.1 hk)
      rw [Bool.eq_iff_iff]
      simp only [Function.comp_apply, decide_eq_true_eq]
      exact C54_inside h0.1 h0.2 h1.1 h1.2 hk.1 hk.2
    rw [List.filter_congr e]
    rfl
  · exact (inside_iff a.2.2 b.2.2 (encode_coords (hp k hk).1 (hp k hk).2).2.2).1 hi

/-- The query returns if the rectangle has up to 2^kx by 2^ky cells of 256 by 256 units and kx + ky ≤ 32, for instance if
both sides are at most 16776960. -/
theorem C100_returns {x0 y0 x1 y1 : Int} (h0 : Int32Point x0 y0) (h1 : Int32Point x1 y1) (hx : x0 ≤ x1)
    (hy : y0 ≤ y1) (hr : x1 < 2 ^ 31 - 256 ∨ y1 < 2 ^ 31 - 256) {kx ky : Nat} (hw : x1 - x0 ≤ 256 * (2 ^ kx - 1))
    (hh : y1 - y0 ≤ 256 * (2 ^ ky - 1)) (hk : kx + ky ≤ 32) {data : Nat → Nat} {size : Nat}
    (hsort : ∀ i j, i ≤ j → j < size → data i ≤ data j) :
    ∃ out, query (encode x0 y0) (encode x1 y1) size data = some out := by
  have ho := okBox_points h0 h1 hx hy hr
  refine Option.ne_none_iff_exists'.1 ((query_any hsort ho).1 ?_)
  have a := encode_coords h0.1 h0.2
  have b := encode_coords h1.1 h1.2
  have c := cell_coords (encode x0 y0)
  have d := cell_coords (encode x1 y1)
  refine ⟨kx, ky, hk, ⟨ho.2.2.1, Or.inl ?_⟩, ⟨ho.2.2.2, Or.inl ?_⟩⟩
  · rw [c.1, d.1]
    have hw' : x1 - x0 ≤ 256 * (((2 ^ kx : Nat) : Int) - 1) := by push_cast; exact hw
    generalize 2 ^ kx = w at hw'
    omega
  · rw [c.2, d.2]
    have hh' : y1 - y0 ≤ 256 * (((2 ^ ky : Nat) : Int) - 1) := by push_cast; exact hh
    generalize 2 ^ ky = w at hh'
    omega

/-- Querying the whole plane finds nothing: the end of the last cell wraps around. -/
theorem C100_world_false :
    query (encode (-2 ^ 31) (-2 ^ 31)) (encode (2 ^ 31 - 1) (2 ^ 31 - 1)) 1 (fun _ => encode 5 7) = some [] ∧
      inside (encode (-2 ^ 31) (-2 ^ 31)) (encode (2 ^ 31 - 1) (2 ^ 31 - 1)) (encode 5 7) = true := by
  decide +kernel

/-- Without the filter the answer may hold points outside the rectangle. -/
theorem C100_unfiltered_false :
    query (encode 256 0) (encode 767 511) 1 (fun _ => encode 3 300) = some [encode 3 300] ∧
      inside (encode 256 0) (encode 767 511) (encode 3 300) = false := by
  decide +kernel

example : Int32Point (-1000) 20 ∧ Int32Point 1000 400 ∧ (-1000 : Int) ≤ 1000 ∧ (20 : Int) ≤ 400 ∧
    (1000 : Int) < 2 ^ 31 - 256 ∧ (1000 : Int) - -1000 ≤ 256 * (2 ^ 16 - 1) ∧
    encode (-7) 30 ≤ encode 900 399 := by
  unfold Int32Point; decide +kernel

example : query (encode (-1000) 20) (encode 1000 400) 3
    (fun k => encode ([(-7, 30), (900, 399), (5000, 5000)].getD k (0, 0)).1 ([(-7, 30), (900, 399), (5000, 5000)].getD k (0, 0)).2) =
    some [encode (-7) 30, encode 900 399] := by
  decide +kernel

end CE.Zorder
