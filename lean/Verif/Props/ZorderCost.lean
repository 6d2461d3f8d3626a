import Verif.Proof.ZorderCost
import Verif.Props.ZorderCorners
import Mathlib.Tactic.Linarith
/-!
# C145: how many stored codes a rectangle query looks at
-/
namespace CE.ZorderCost
open CE.Zorder

/-- Counting the reads changes nothing else. -/
theorem C145_same (lo hi size : Nat) (data : Nat → Nat) :
    (query lo hi size data).map (·.1) = CE.Zorder.query lo hi size data := query_fst lo hi size data

/-- The codes of a rectangle form runs of consecutive cells.  However many codes are stored, the query reads those it
reports, and for every run one more and one binary search, and a first search and a last look. -/
theorem C145_runs {data : Nat → Nat} {lo hi size : Nat} (hsort : ∀ i j, i ≤ j → j < size → data i ≤ data j)
    (ho : OkBox lo hi) {out : List Nat} {reads : Nat} (h : query lo hi size data = some (out, reads)) :
    reads ≤ out.length + (Nat.size size + 1) * ((entries (cell lo) (cell hi)).card + 1) := by
  have := query_cost hsort ho h
  dsimp only at this
  have e : (Nat.size size + 1) * ((entries (cell lo) (cell hi)).card + 1) =
      1 + Nat.size size + (entries (cell lo) (cell hi)).card * (Nat.size size + 1) := by ring
  omega

/-- A rectangle has at most twice as many runs as columns and rows of cells together. -/
theorem C145_runs_bound {L H : Nat} (hx : cx L ≤ cx H) (hy : cy L ≤ cy H) :
    (entries L H).card ≤ 2 * ((cx H + 1 - cx L) + (cy H + 1 - cy L)) := entries_card hx hy

/-- **A query between two points** reads, besides the codes it reports, at most about
`4 + (width + height) / 256` times two binary searches: a bound by the circumference, not by the number of points stored.
(It does return unless the rectangle is huge: C100.) -/
theorem C145_query {x0 y0 x1 y1 : Int} (h0 : Int32Point x0 y0) (h1 : Int32Point x1 y1) (hx : x0 ≤ x1) (hy : y0 ≤ y1)
    (hr : x1 < 2 ^ 31 - 256 ∨ y1 < 2 ^ 31 - 256) {data : Nat → Nat} {size : Nat}
    (hsort : ∀ i j, i ≤ j → j < size → data i ≤ data j) {out : List Nat} {reads : Nat}
    (h : query (encode x0 y0) (encode x1 y1) size data = some (out, reads)) :
    (reads : Int) ≤ out.length + (Nat.size size + 1) * (2 * ((x1 - x0) / 256 + (y1 - y0) / 256 + 4) + 1) := by
  have ho := okBox_points h0 h1 hx hy hr
  have hc := C145_runs hsort ho h
  have hb := C145_runs_bound ho.valid.2.2.1 ho.valid.2.2.2
  have a := encode_coords h0.1 h0.2
  have b := encode_coords h1.1 h1.2
  have c := cell_coords (encode x0 y0)
  have d := cell_coords (encode x1 y1)
  have hn : ((entries (cell (encode x0 y0)) (cell (encode x1 y1))).card : Int) ≤
      2 * ((x1 - x0) / 256 + (y1 - y0) / 256 + 4) := by
    rw [c.1, c.2, d.1, d.2] at hb
    have a1 := a.1
    have a2 := a.2.1
    have b1 := b.1
    have b2 := b.2.1
    omega
  have h2 : ((Nat.size size + 1 : Nat) : Int) * (((entries (cell (encode x0 y0)) (cell (encode x1 y1))).card : Int) + 1) ≤
      ((Nat.size size + 1 : Nat) : Int) * (2 * ((x1 - x0) / 256 + (y1 - y0) / 256 + 4) + 1) :=
    mul_le_mul_of_nonneg_left (by omega) (by omega)
  have h3 : (reads : Int) ≤ out.length + ((Nat.size size + 1 : Nat) : Int) *
      (((entries (cell (encode x0 y0)) (cell (encode x1 y1))).card : Int) + 1) := by exact_mod_cast hc
  push_cast at h2 h3 ⊢
  linarith

/-- A square block of cells is a single run: its query reads what it reports and makes two searches. -/
theorem C145_block {data : Nat → Nat} {size s n : Nat} (hsort : ∀ i j, i ≤ j → j < size → data i ≤ data j)
    (hs : s * 2 ^ (2 * n) + (2 ^ (2 * n) - 1) < 2 ^ 48) {out : List Nat} {reads : Nat}
    (h : query (s * 2 ^ (2 * n) * 2 ^ 16) ((s * 2 ^ (2 * n) + (2 ^ (2 * n) - 1)) * 2 ^ 16) size data = some (out, reads)) :
    reads ≤ out.length + 2 * (Nat.size size + 1) := by
  have hpos := Nat.two_pow_pos (2 * n)
  have lo := corner_lo s n
  have hi := corner_hi s n
  have ho : OkBox (s * 2 ^ (2 * n) * 2 ^ 16) ((s * 2 ^ (2 * n) + (2 ^ (2 * n) - 1)) * 2 ^ 16) := by
    refine ⟨up_lt (by omega), ?_, ?_, ?_⟩
    · rw [← add_low hs]; exact Nat.mod_lt _ (by norm_num)
    · rw [cell_mul, cell_mul, lo.1, hi.1]; omega
    · rw [cell_mul, cell_mul, lo.2, hi.2]; omega
  have hc := C145_runs hsort ho h
  rw [cell_mul, cell_mul] at hc
  have h1 : (entries (s * 2 ^ (2 * n)) (s * 2 ^ (2 * n) + (2 ^ (2 * n) - 1))).card ≤ 1 := by
    have : entries (s * 2 ^ (2 * n)) (s * 2 ^ (2 * n) + (2 ^ (2 * n) - 1)) ⊆ {s * 2 ^ (2 * n)} := by
      intro c hc
      obtain ⟨-, hb, h0⟩ := Finset.mem_filter.1 hc
      rw [Finset.mem_singleton]
      have hge := InBox.ge hb
      have hle := InBox.le hb
      by_contra hne
      rcases h0 with h0 | h0
      · omega
      · apply h0
        have hd : (c - 1) / 2 ^ (2 * n) = s := by
          rw [Nat.div_eq_iff hpos]; constructor <;> omega
        have e1 : cx (c - 1) / 2 ^ n = cx s := by
          rw [cx_div, show (4 : Nat) ^ n = 2 ^ (2 * n) by rw [Nat.pow_mul], hd]
        have e2 : cy (c - 1) / 2 ^ n = cy s := by
          rw [cy_div, show (4 : Nat) ^ n = 2 ^ (2 * n) by rw [Nat.pow_mul], hd]
        unfold InBox
        rw [lo.1, lo.2, hi.1, hi.2, ← e1, ← e2]
        have p := Nat.two_pow_pos n
        have d1 := Nat.div_add_mod (cx (c - 1)) (2 ^ n)
        have d2 := Nat.div_add_mod (cy (c - 1)) (2 ^ n)
        have m1 := Nat.mod_lt (cx (c - 1)) p
        have m2 := Nat.mod_lt (cy (c - 1)) p
        rw [Nat.mul_comm] at d1 d2
        omega
    exact (Finset.card_le_card this).trans (by simp)
  have h2 : (Nat.size size + 1) * ((entries (s * 2 ^ (2 * n)) (s * 2 ^ (2 * n) + (2 ^ (2 * n) - 1))).card + 1) ≤
      (Nat.size size + 1) * 2 := Nat.mul_le_mul_left _ (by omega)
  omega

/-- The bound for blocks does not hold for other rectangles: in a column of eight cells, with stored codes only beside it,
nothing is reported and there are 24 reads. -/
theorem C145_block_only_false : ∃ lo hi size data reads, OkBox lo hi ∧ (∀ i j, i ≤ j → j < size → data i ≤ data j) ∧
    query lo hi size data = some ([], reads) ∧ ¬ reads ≤ 2 * (Nat.size size + 1) := by
  refine ⟨0, 42 * 2 ^ 16, 8, fun k => ([1, 3, 9, 11, 33, 35, 41, 43].getD k 0) * 2 ^ 16, 24, ?_, ?_, ?_, ?_⟩
  · unfold OkBox; decide +kernel
  · intro i j h1 h2
    revert i
    revert j
    decide +kernel
  · decide +kernel
  · decide +kernel

/-- the hypotheses are met: three codes, of which two are in the block of cells 4 to 7 -/
example : query (4 * 2 ^ 16) (7 * 2 ^ 16) 3 (fun k => (k + 3) * 2 ^ 16) = some ([4 * 2 ^ 16, 5 * 2 ^ 16], 7) := by
  decide +kernel

/-- columns 1 to 2 and rows 0 to 1 hold the cells 1, 3, 4, 6: three runs -/
example : entries 1 6 = {1, 3, 6} ∧ InBox 1 6 4 := by decide +kernel

end CE.ZorderCost
