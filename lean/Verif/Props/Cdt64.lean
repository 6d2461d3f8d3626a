import Verif.Proof.Cdt64
import Verif.Props.View
/-! C96: apart from the determinant of `incircle`, inserting does not overflow. -/
namespace CE.Cdt

open CE.Vec (V2 Is32)

variable {m m' : Mesh}

/-! ### C96 -/

/-- C96.  `insert_point(int64_t, int64_t, hint)` never overflows in the walk, in the tests of the face or in the flips, whatever the
mesh contains, as long as the coordinates are at most 3036967731 from zero; and the assertion of line 622 never fails. -/
theorem C96_point (h : ∀ v, (-32768 ≤ m.x v ∧ m.x v ≤ 32767) ∧ -32768 ≤ m.y v ∧ m.y v ≤ 32767) {px py : Int} (hx : |px| ≤ 3036967731)
    (hy : |py| ≤ 3036967731) (limit k hint : Nat) : insertPoint64 limit k m px py hint = insertPoint limit k m px py hint := by
  have nx : Near px := abs_le.1 hx
  have ny : Near py := abs_le.1 hy
  unfold insertPoint64 insertPoint
  rw [locateIns64_eq h nx ny]
  simp only [insertAt64_eq h nx ny]

/-- C96.  The bound is exact: one further, the walk in the empty mesh overflows at once. -/
theorem C96_point_undefined (m : Mesh) (limit k : Nat) : insertPoint64 limit k (reset m) 3036967732 3036967732 0 = none ∧
    insertPoint64 limit (k + 2) (reset m) 3036967731 3036967731 0 = some (reset m, 0) := by
  constructor
  · have : locateIns64 k (reset m) 3036967732 3036967732 0 = none := by
      unfold locateIns64 walkFrom Mesh.at64 in64 CE.Vec.i64 reset
      norm_num
    unfold insertPoint64
    rw [this]; rfl
  · have : locateIns64 (k + 2) (reset m) 3036967731 3036967731 0 = some 0 := by
      unfold locateIns64 walkFrom Mesh.at64 in64 CE.Vec.i64 reset
      norm_num [walk, nx, pv]
    unfold insertPoint64
    rw [this]; rfl

/-- C96.  `insert_edge(int64_t, …)`, with everything it calls (the walks, both insertions, the flips, the cross products, the
crossings with constraints and the two recursive calls), never overflows either, whatever the mesh contains. -/
theorem C96_edge (h : ∀ v, (-32768 ≤ m.x v ∧ m.x v ≤ 32767) ∧ -32768 ≤ m.y v ∧ m.y v ≤ 32767) {px py qx qy : Int}
    (hpx : |px| ≤ 3036967731) (hpy : |py| ≤ 3036967731) (hqx : |qx| ≤ 3036967731) (hqy : |qy| ≤ 3036967731) (limit k hint : Nat) :
    insertEdge64 limit k m px py qx qy hint = insertEdge limit k m px py qx qy hint :=
  ((edges64 limit k).1 m px py qx qy hint h (abs_le.1 hpx) (abs_le.1 hpy) (abs_le.1 hqx) (abs_le.1 hqy)).1

theorem userCoord_near {Q : Nat} {p : Int} (h : Is32 p) : |userCoord Q p| ≤ 3036967731 := by
  have hw : (1 : Int) ≤ 2 ^ Q := by exact_mod_cast Nat.one_le_two_pow
  unfold Is32 at h
  norm_num at h
  have a : -2147483648 ≤ p / 2 ^ Q := by
    rw [Int.le_ediv_iff_mul_le (by omega)]; nlinarith
  have b : p / 2 ^ Q < 2147483648 := by
    rw [Int.ediv_lt_iff_lt_mul (by omega)]; nlinarith
  unfold userCoord
  rw [abs_le]
  omega

/-- C96.  With user coordinates nothing overflows, for all 32-bit coordinates and all scales. -/
theorem C96_user (h : ∀ v, (-32768 ≤ m.x v ∧ m.x v ≤ 32767) ∧ -32768 ≤ m.y v ∧ m.y v ≤ 32767) {p q : V2}
    (hp : Is32 p.x ∧ Is32 p.y) (hq : Is32 q.x ∧ Is32 q.y) (limit k Q hint : Nat) :
    insertPointUser64 limit k Q m p hint = insertPointUser limit k Q m p hint ∧
    insertEdgeUser64 limit k Q m p q hint = insertEdgeUser limit k Q m p q hint := by
  constructor
  · unfold insertPointUser64 insertPointUser
    rw [C96_point h (userCoord_near hp.1) (userCoord_near hp.2)]
    cases insertPoint limit k m (userCoord Q p.x) (userCoord Q p.y) hint with
    | none => rfl
    | some r => obtain ⟨m', r⟩ := r; by_cases e : r = 0 <;> simp [e]
  · exact C96_edge h (userCoord_near hp.1) (userCoord_near hp.2) (userCoord_near hq.1) (userCoord_near hq.2) _ _ _

/-- C96.  Without constraints `insert_point` with user coordinates ends, with defined behaviour but for the determinant. -/
theorem C96_user_defined (r : Points limit m) (h : ∀ v, (-32768 ≤ m.x v ∧ m.x v ≤ 32767) ∧ -32768 ≤ m.y v ∧ m.y v ≤ 32767) {p : V2}
    (hp : Is32 p.x ∧ Is32 p.y) (Q hint : Nat) : ∃ K r, ∀ k, K ≤ k → insertPointUser64 limit k Q m p hint = some r := by
  obtain ⟨K, ⟨m', n⟩, hr⟩ := C80_insert_ends_partial r (userCoord Q p.x) (userCoord Q p.y) hint
  refine ⟨K, (m', decide (n ≠ 0)), fun k hk => ?_⟩
  rw [(C96_user h hp hp limit k Q hint).1]
  unfold insertPointUser
  rw [hr k hk]
  rfl

/-- a segment is constrained, and a second one that crosses it is divided at the crossing -/
example : (insertEdgeUser64 100 100 0 sample0 ⟨0, 0⟩ ⟨1000, 2⟩ 0).map (·.2) = some true ∧
    (insertEdge64 100 100 cross1 500 (-500) 600 500 0).map (fun r => (r.1.size, r.2)) = some (9, false) := by decide +kernel

example : insertEdgeUser64 100 100 3 sample0 ⟨-8000, 24⟩ ⟨8000, 2147483647⟩ 0 = insertEdgeUser 100 100 3 sample0 ⟨-8000, 24⟩ ⟨8000, 2147483647⟩ 0 :=
  (C96_user (by
    intro v
    unfold sample0 reset
    dsimp only
    constructor <;> (repeat' split) <;> decide) (by unfold Is32; decide) (by unfold Is32; decide) _ _ _ _).2

end CE.Cdt
