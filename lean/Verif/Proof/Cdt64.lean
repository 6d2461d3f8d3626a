import Verif.Model.Cdt64
import Verif.Proof.CdtInsert
import Mathlib.Tactic.Ring
import Mathlib.Tactic.Linarith
/-! Checked 64-bit arithmetic agrees with exact arithmetic. -/
namespace CE.Cdt

open CE.Vec (V2 i64)

/-- coordinates are stored in `int16_t` -/
def M16 (m : Mesh) : Prop := ∀ v, Is16 (m.x v) ∧ Is16 (m.y v)

/-- how far from the origin a point may be -/
def Near (p : Int) : Prop := -3036967731 ≤ p ∧ p ≤ 3036967731

theorem Is16.near {p} (h : Is16 p) : Near p := by unfold Is16 Near at *; omega

theorem i64_some {n : Int} (h : |n| ≤ 9223372036854775807) : i64 n = some n := by
  rw [abs_le] at h
  unfold i64
  rw [if_pos (by norm_num; omega)]

theorem abs_mul_le {a b A B : Int} (ha : |a| ≤ A) (hb : |b| ≤ B) : |a * b| ≤ A * B := by
  rw [abs_mul]
  exact mul_le_mul ha hb (abs_nonneg _) ((abs_nonneg _).trans ha)

/-- a vector with components up to `A` -/
def Bd (A : Int) (v : V2) : Prop := |v.x| ≤ A ∧ |v.y| ≤ A

theorem near_diff {x p} (hx : Is16 x) (hp : Near p) : |x - p| ≤ 3037000499 := by
  unfold Is16 Near at *; rw [abs_le]; omega

variable {m m' : Mesh} {px py : Int}

theorem at64_eq (h : M16 m) (hx : Near px) (hy : Near py) (v : Nat) : m.at64 px py v = some ⟨m.x v - px, m.y v - py⟩ := by
  unfold Mesh.at64
  rw [i64_some ((near_diff (h v).1 hx).trans (by norm_num)), i64_some ((near_diff (h v).2 hy).trans (by norm_num))]
  rfl

theorem at_bd (h : M16 m) (hx : Near px) (hy : Near py) (v : Nat) : Bd 3037000499 ⟨m.x v - px, m.y v - py⟩ :=
  ⟨near_diff (h v).1 hx, near_diff (h v).2 hy⟩

theorem in64_eq {a b : V2} (ha : Bd 3037000499 a) (hb : Bd 3037000499 b) : in64 a b = some (inn a.x a.y b.x b.y) := by
  unfold in64
  rw [i64_some ((abs_mul_le ha.1 hb.2).trans (by norm_num)), i64_some ((abs_mul_le ha.2 hb.1).trans (by norm_num))]
  rfl

theorem lt64_eq {a b : V2} (ha : Bd 3037000499 a) (hb : Bd 3037000499 b) : lt64 a b = some (decide (a.x * b.y < a.y * b.x)) := by
  unfold lt64
  rw [i64_some ((abs_mul_le ha.1 hb.2).trans (by norm_num)), i64_some ((abs_mul_le ha.2 hb.1).trans (by norm_num))]
  rfl

theorem Bd.mono {A B v} (h : Bd A v) (l : A ≤ B) : Bd B v := ⟨h.1.trans l, h.2.trans l⟩

theorem cross64_eq {A B} {a b : V2} (ha : Bd A a) (hb : Bd B b) (l : A * B ≤ 4611686018427387903) :
    cross64 a b = some (a.x * b.y - a.y * b.x) ∧ |a.x * b.y - a.y * b.x| ≤ 2 * (A * B) := by
  have h1 := abs_mul_le ha.1 hb.2
  have h2 := abs_mul_le ha.2 hb.1
  have h3 : |a.x * b.y - a.y * b.x| ≤ 2 * (A * B) := by
    have := abs_sub (a.x * b.y) (a.y * b.x); linarith
  refine ⟨?_, h3⟩
  unfold cross64
  rw [i64_some (h1.trans (by omega)), i64_some (h2.trans (by omega))]
  exact i64_some (h3.trans (by omega))

/-! ### the walk -/

theorem walk_congr {at1 at2 : Nat → Option V2} {in1 in2 : V2 → V2 → Option Bool} {P : V2 → Prop} (asrt : Bool)
    (hat : ∀ v, at1 v = at2 v) (hP : ∀ v u, at2 v = some u → P u) (hin : ∀ a b, P a → P b → in1 a b = in2 a b) :
    ∀ k s e p1 p2, P p1 → P p2 → walk m at1 in1 asrt k s e p1 p2 = walk m at2 in2 asrt k s e p1 p2 := by
  intro k
  induction k with
  | zero => intro s e p1 p2 _ _; cases s <;> rfl
  | succ k ih =>
    intro s e p1 p2 h1 h2
    cases s with
    | false =>
      rw [walk, walk, hat]
      split
      · rfl
      · cases h : at2 (m.p e) with
        | none => rfl
        | some p0 =>
          have h0 := hP _ _ h
          simp only [Option.bind_eq_bind, Option.bind_some]
          rw [hin _ _ h2 h0, hin _ _ h0 h1, ih _ _ _ _ h1 h0, ih _ _ _ _ h0 h2, ih _ _ _ _ h0 h2]
    | true =>
      rw [walk, walk, hat, hin _ _ h1 h2]
      cases h : at2 (m.p e) with
      | none => rfl
      | some p0 =>
        have h0 := hP _ _ h
        simp only [Option.bind_eq_bind, Option.bind_some]
        rw [hin _ _ h2 h0, hin _ _ h0 h1, ih _ _ _ _ h1 h0, ih _ _ _ _ h0 h2]

theorem locateIns64_eq (h : M16 m) (hx : Near px) (hy : Near py) (k hint : Nat) :
    locateIns64 k m px py hint = locateIns k m px py hint := by
  unfold locateIns64 locateIns
  dsimp only
  generalize (if hint < 24 ∨ hint ≥ m.size * 8 then m.size * 8 - 4 else hint) / 4 * 4 = e
  have e0 : m.at64 px py = fun v => some ⟨m.x v - px, m.y v - py⟩ := funext (at64_eq h hx hy)
  have b1 := at_bd h hx hy
  unfold walkFrom
  rw [e0]
  simp only [Option.bind_eq_bind, Option.bind_some]
  rw [in64_eq (b1 _) (b1 _)]
  simp only [Option.bind_some]
  have key := walk_congr (m := m) (at1 := fun v => some (⟨m.x v - px, m.y v - py⟩ : V2))
    (at2 := fun v => some ⟨m.x v - px, m.y v - py⟩) (in1 := in64) (in2 := fun a b => some (inn a.x a.y b.x b.y)) (P := Bd 3037000499)
    true (fun _ => rfl) (fun v u e => by cases e; exact b1 v) (fun a b ha hb => in64_eq ha hb) k
  rw [key _ _ _ _ (b1 _) (b1 _), key _ _ _ _ (b1 _) (b1 _)]

/-! ### inserting a point -/

theorem insertAt_none {limit k n} (hn : n ≠ 0) (h : (m.inFace px py (n / 4 * 4) && m.code px py (n / 4 * 4) != 0) = false) :
    insertAt limit k m px py n = none := by
  unfold insertAt
  rw [if_neg hn]
  dsimp only
  rw [Bool.and_eq_false_iff] at h
  rcases h with h | h
  · rw [h]; simp
  · have : m.code px py (n / 4 * 4) = 0 := by simpa using h
    rw [this]; simp

theorem face64_eq (h : M16 m) (hx : Near px) (hy : Near py) (un : Nat) :
    m.face64 px py un = some (m.inFace px py un && m.code px py un != 0) := by
  unfold Mesh.face64
  have b := at_bd h hx hy
  simp only [at64_eq h hx hy, Option.bind_eq_bind, Option.bind_some, in64_eq (b _) (b _), lt64_eq (b _) (b _), pure]
  unfold Mesh.inFace Mesh.code
  dsimp only
  generalize m.x (m.p un) - px = ax
  generalize m.y (m.p un) - py = ay
  generalize m.x (m.p (un + 1)) - px = bx
  generalize m.y (m.p (un + 1)) - py = b_y
  generalize m.x (m.p (un + 2)) - px = cx
  generalize m.y (m.p (un + 2)) - py = cy
  by_cases e1 : bx * cy < b_y * cx <;> by_cases e2 : cx * ay < cy * ax <;> by_cases e4 : ax * b_y < ay * bx <;>
    simp [e1, e2, e4]
  all_goals
    intro _ _ _
    refine ⟨⟨?_, ?_⟩, ?_⟩ <;>
    · intro h1 h2; subst h1 h2; simp at e1 e2 e4

theorem insertAt64_eq (h : M16 m) (hx : Near px) (hy : Near py) (limit k n : Nat) :
    insertAt64 limit k m px py n = insertAt limit k m px py n := by
  unfold insertAt64
  by_cases hn : n = 0
  · rw [if_pos hn]; unfold insertAt; rw [if_pos hn]
  · rw [if_neg hn, face64_eq h hx hy]
    simp only [Option.bind_eq_bind, Option.bind_some]
    split
    · rfl
    · rename_i g
      exact (insertAt_none hn (by simpa using g)).symm

/-! ### coordinates stay in `int16_t` -/

theorem i16_is (v : Int) : Is16 (i16 v) := by unfold i16 Is16; omega

theorem setE'_xy (m : Mesh) (n v : Nat) : (m.setE' n v).x = m.x ∧ (m.setE' n v).y = m.y := by
  unfold Mesh.setE' Mesh.setE; split <;> exact ⟨rfl, rfl⟩

theorem doFlip_xy {n} (hr : m.doFlip n = some m') : m'.x = m.x ∧ m'.y = m.y := by
  unfold Mesh.doFlip at hr
  dsimp only at hr
  split at hr
  · cases hr
    simp only [Mesh.setE, Mesh.setC, Mesh.setP, (setE'_xy _ _ _).1, (setE'_xy _ _ _).2, and_self]
  · cases hr

theorem flip_xy : ∀ {k : Nat} {m m' : Mesh} {n : Nat}, flip k m n = some m' → m'.x = m.x ∧ m'.y = m.y := by
  intro k
  induction k with
  | zero => intro m m' n h; cases h
  | succ k ih =>
    intro m m' n h
    rw [flip] at h
    dsimp only at h
    split at h
    · cases h
    · split at h
      · cases h; exact ⟨rfl, rfl⟩
      · split at h
        · split at h
          · simp only [Option.bind_eq_bind, Option.bind_eq_some_iff] at h
            obtain ⟨m1, h1, m2, h2, m3, h3, m4, h4, h5⟩ := h
            have a := doFlip_xy h1
            have b := ih h2
            have c := ih h3
            have d := ih h4
            have e := ih h5
            exact ⟨by rw [e.1, d.1, c.1, b.1, a.1], by rw [e.2, d.2, c.2, b.2, a.2]⟩
          · cases h; exact ⟨rfl, rfl⟩
        · cases h

theorem M16.of_xy (h : M16 m) (e : m'.x = m.x ∧ m'.y = m.y) : M16 m' := fun v => by rw [e.1, e.2]; exact h v
theorem M16.flip (h : M16 m) {k n} (e : flip k m n = some m') : M16 m' := h.of_xy (flip_xy e)

theorem M16.splitFace (h : M16 m) (u0 : Nat) : M16 (m.splitFace px py u0) := by
  intro v
  have e : (m.splitFace px py u0).x = upd m.x m.size (i16 px) ∧ (m.splitFace px py u0).y = upd m.y m.size (i16 py) := by
    unfold Mesh.splitFace Mesh.faceV Mesh.faceW Mesh.faceU
    simp only [Mesh.setE, Mesh.setC, Mesh.setP, Mesh.setFi, Mesh.setX, Mesh.setY, (setE'_xy _ _ _).1, (setE'_xy _ _ _).2, and_self]
  rw [e.1, e.2]
  unfold upd
  constructor <;> split
  · exact i16_is _
  · exact (h v).1
  · exact i16_is _
  · exact (h v).2

theorem M16.splitEdge (h : M16 m) (a b : Nat) : M16 (m.splitEdge px py a b) := by
  intro v
  have e : (m.splitEdge px py a b).x = upd m.x m.size (i16 px) ∧ (m.splitEdge px py a b).y = upd m.y m.size (i16 py) := by
    unfold Mesh.splitEdge Mesh.edgeX Mesh.edgeY
    simp only [Mesh.setE, Mesh.setC, Mesh.setP, Mesh.setFi, Mesh.setX, Mesh.setY, (setE'_xy _ _ _).1, (setE'_xy _ _ _).2, and_self]
  rw [e.1, e.2]
  unfold upd
  constructor <;> split
  · exact i16_is _
  · exact (h v).1
  · exact i16_is _
  · exact (h v).2

theorem insertAt_M16 (h : M16 m) {limit k n r} (hr : insertAt limit k m px py n = some (m', r)) : M16 m' := by
  have keep : ∀ {u}, some (m, u) = some (m', r) → M16 m' := fun e => by cases e; exact h
  unfold insertAt at hr
  by_cases g1 : n = 0
  · rw [if_pos g1] at hr; exact keep hr
  rw [if_neg g1] at hr
  extract_lets un e un' v0 m0 ue ve lo hi m0' at hr
  by_cases g2 : ¬ (m.edge un && m.inFace px py un) = true
  · rw [if_pos g2] at hr; cases hr
  rw [if_neg g2] at hr
  by_cases g3 : e = 0
  · rw [if_pos g3] at hr; cases hr
  rw [if_neg g3] at hr
  by_cases g4 : e = 1 ∨ e = 2 ∨ e = 4
  · rw [if_pos g4] at hr; exact keep hr
  rw [if_neg g4] at hr
  by_cases g5 : m.size ≥ limit
  · rw [if_pos g5] at hr; exact keep hr
  rw [if_neg g5] at hr
  by_cases g6 : e = 7
  · rw [if_pos g6] at hr
    simp only [Option.bind_eq_bind, Option.bind_eq_some_iff] at hr
    obtain ⟨m1, h1, m2, h2, m3, h3, h4⟩ := hr
    rw [Option.some.injEq, Prod.mk.injEq] at h4
    obtain ⟨rfl, -⟩ := h4
    exact (((h.splitFace _).flip h1).flip h2).flip h3
  rw [if_neg g6] at hr
  by_cases g7 : ve = 0
  · rw [if_pos g7] at hr; exact keep hr
  rw [if_neg g7] at hr
  by_cases g8 : (m.edge ve && m.e ve == ue) = true
  · rw [if_pos g8] at hr
    simp only [Option.bind_eq_bind, Option.bind_eq_some_iff] at hr
    obtain ⟨m1, h1, m2, h2, m3, h3, m4, h4, h5⟩ := hr
    rw [Option.some.injEq, Prod.mk.injEq] at h5
    obtain ⟨rfl, -⟩ := h5
    exact ((((h.splitEdge _ _).flip h1).flip h2).flip h3).flip h4
  · rw [if_neg g8] at hr; cases hr

/-- an accepted point is inside the square -/
theorem insertAt_is16 (h : M16 m) {limit k n r} (hr : insertAt limit k m px py n = some (m', r)) (hr0 : r ≠ 0) : Is16 px ∧ Is16 py := by
  by_cases hn : n = 0
  · unfold insertAt at hr
    rw [if_pos hn] at hr
    cases hr; exact absurd rfl hr0
  by_cases g : (m.inFace px py (n / 4 * 4) && m.code px py (n / 4 * 4) != 0) = true
  · rw [Bool.and_eq_true] at g
    obtain ⟨g1, g2⟩ := g
    unfold Mesh.inFace inn at g1
    simp only [Bool.and_eq_true, decide_eq_true_eq] at g1
    obtain ⟨⟨i1, i2⟩, i3⟩ := g1
    have g2' : m.code px py (n / 4 * 4) ≠ 0 := by simpa using g2
    unfold Mesh.code at g2'
    dsimp only at g2'
    generalize n / 4 * 4 = u at *
    refine range_of_in (a := m.p u) (b := m.p (u + 1)) (c := m.p (u + 2)) (h _) (h _) (h _) ?_ ?_ ?_ ?_
    · unfold Mesh.crP; linarith
    · unfold Mesh.crP; linarith
    · unfold Mesh.crP; linarith
    · rw [← crP_sum m px py]
      unfold Mesh.crP
      by_contra hc
      apply g2'
      rw [if_neg (by linarith), if_neg (by linarith), if_neg (by linarith)]
  · rw [insertAt_none hn (by simpa using g)] at hr
    cases hr

theorem constrainEdge_M16 (h : M16 m) {k en} (hr : constrainEdge k m en = some m') : M16 m' := by
  unfold constrainEdge at hr
  split at hr
  · simp only [Option.bind_eq_bind, Option.bind_eq_some_iff] at hr
    obtain ⟨m1, h1, m2, h2, m3, h3, h4⟩ := hr
    have h0 : M16 ((m.setC (m.e en) 1).setC en 1) := h
    exact (((h0.flip h1).flip h2).flip h3).flip h4
  · cases hr

theorem tryFlip_M16 (h : M16 m) {n r} (hr : m.tryFlip n = some (m', r)) : M16 m' := by
  unfold Mesh.tryFlip at hr
  split at hr
  · rw [Option.map_eq_some_iff] at hr
    obtain ⟨m1, h1, h2⟩ := hr
    cases h2
    exact h.of_xy (doFlip_xy h1)
  · cases hr; exact h

theorem tryFlip64_eq (h : M16 m) (n : Nat) : m.tryFlip64 n = m.tryFlip n := by
  unfold Mesh.tryFlip64 Mesh.tryFlip
  have e : m.canFlip64 n = some (m.canFlip n) := by
    unfold Mesh.canFlip64 Mesh.canFlip
    split
    · rfl
    · have hx := (h (m.p n)).1.near
      have hy := (h (m.p n)).2.near
      have b := at_bd h hx hy
      simp only [at64_eq h hx hy, Option.bind_eq_bind, Option.bind_some, lt64_eq (b _) (b _)]
      split
      · rename_i g
        rw [g, Bool.true_and]
      · rename_i g
        simp only [Bool.not_eq_true] at g
        rw [g, Bool.false_and]
  rw [e]
  rfl

/-! ### inserting an edge -/

theorem tdiv_abs_le {u t d : Int} (h0 : 0 ≤ t) (h1 : t ≤ d) : |(u * t).tdiv d| ≤ |u| := by
  rcases eq_or_lt_of_le (h0.trans h1) with rfl | hd
  · simp
  have e : |(u * t).tdiv d| = |u * t| / d := by
    rw [Int.abs_eq_natAbs, Int.natAbs_tdiv, Int.abs_eq_natAbs (u * t)]
    conv_rhs => rw [← Int.natAbs_of_nonneg hd.le]
    exact Int.natCast_ediv _ _
  rw [e]
  refine Int.ediv_le_of_le_mul hd ?_
  rw [abs_mul, abs_of_nonneg h0]
  exact mul_le_mul_of_nonneg_left h1 (abs_nonneg _)

theorem intersectEdges64_eq {q a b : V2} (hq : Bd 65535 q) (ha : Bd 65535 a) (hb : Bd 65535 b) :
    intersectEdges64 q a b = intersectEdges q a b ∧ ∀ r, intersectEdges q a b = some r → Bd 196605 r := by
  have u1 : |b.x - a.x| ≤ 131070 := (abs_sub _ _).trans (by linarith [ha.1, hb.1])
  have u2 : |b.y - a.y| ≤ 131070 := (abs_sub _ _).trans (by linarith [ha.2, hb.2])
  have hu : Bd 131070 ⟨b.x - a.x, b.y - a.y⟩ := ⟨u1, u2⟩
  obtain ⟨d1, d2⟩ := cross64_eq hu hq (by norm_num)
  obtain ⟨t1, t2⟩ := cross64_eq hq ha (by norm_num)
  have key : ∀ {w c t d : Int}, |w| ≤ 131070 → |c| ≤ 65535 → 0 ≤ t → t ≤ d → |c + (w * t).tdiv d| ≤ 196605 := by
    intro w c t d hw hc h0 h1
    have e1 := tdiv_abs_le (u := w) h0 h1
    have e2 := abs_add_le c ((w * t).tdiv d)
    linarith
  constructor
  · unfold intersectEdges64 intersectEdges
    rw [i64_some (u1.trans (by norm_num)), i64_some (u2.trans (by norm_num))]
    simp only [Option.bind_eq_bind, Option.bind_some, d1, t1]
    split
    · split
      · rename_i g0 g
        rw [i64_some ((abs_mul_le u1 t2).trans (by norm_num)), i64_some ((abs_mul_le u2 t2).trans (by norm_num))]
        simp only [Option.bind_some]
        rw [i64_some ((key u1 ha.1 g.1 g.2).trans (by norm_num)), i64_some ((key u2 ha.2 g.1 g.2).trans (by norm_num))]
        rfl
      · rfl
    · rfl
  · intro r hr
    unfold intersectEdges at hr
    dsimp only at hr
    split at hr
    · split at hr
      · rename_i g0 g
        cases hr
        exact ⟨key u1 ha.1 g.1 g.2, key u2 ha.2 g.1 g.2⟩
      · cases hr
    · cases hr

/-- same run, and the result keeps its coordinates in `int16_t` -/
def Same (a b : Option (Mesh × Bool)) : Prop := a = b ∧ ∀ m' r, b = some (m', r) → M16 m'

theorem Same.pure (h : M16 m) (r : Bool) : Same (some (m, r)) (some (m, r)) := ⟨rfl, fun _ _ e => by cases e; exact h⟩
theorem Same.none : Same none none := ⟨rfl, fun _ _ e => by cases e⟩
theorem Same.bind {α} {x : Option α} {f g : α → Option (Mesh × Bool)} (h : ∀ v, x = some v → Same (f v) (g v)) :
    Same (x.bind f) (x.bind g) := by
  cases x with
  | none => exact Same.none
  | some v => exact h v rfl

theorem diff16 {x p} (hx : Is16 x) (hp : Is16 p) : |x - p| ≤ 65535 := by unfold Is16 at *; rw [abs_le]; omega

theorem edges64 (limit : Nat) : ∀ k,
    (∀ m px py qx qy hint, M16 m → Near px → Near py → Near qx → Near qy →
      Same (insertEdge64 limit k m px py qx qy hint) (insertEdge limit k m px py qx qy hint)) ∧
    (∀ m px py qx qy pn, M16 m → Is16 px → Is16 py → Is16 qx → Is16 qy →
      Same (edgeLoop64 limit k m px py qx qy pn) (edgeLoop limit k m px py qx qy pn)) ∧
    (∀ m px py q i pn p1 p2, M16 m → Is16 px → Is16 py → Is16 (px + q.x) → Is16 (py + q.y) →
      p1 = ⟨m.x (m.p (nx i)) - px, m.y (m.p (nx i)) - py⟩ → p2 = ⟨m.x (m.p (pv i)) - px, m.y (m.p (pv i)) - py⟩ →
      Same (corner64 limit k m px py q i pn p1 p2) (corner limit k m px py q i pn)) ∧
    (∀ m px py q a b hint, M16 m → Is16 px → Is16 py → Is16 (px + q.x) → Is16 (py + q.y) → Bd 65535 a → Bd 65535 b →
      Same (splitConstraint64 limit k m px py q a b hint) (splitConstraint limit k m px py q a b hint)) := by
  intro k
  induction k with
  | zero =>
    refine ⟨?_, ?_, ?_, ?_⟩ <;> intros <;>
      simp only [insertEdge64, insertEdge, edgeLoop64, edgeLoop, corner64, corner, splitConstraint64, splitConstraint] <;> exact Same.none
  | succ k ih =>
    obtain ⟨ihI, ihE, ihC, ihS⟩ := ih
    refine ⟨?_, ?_, ?_, ?_⟩
    · intro m px py qx qy hint h hpx hpy hqx hqy
      rw [insertEdge64, insertEdge, locateIns64_eq h hpx hpy]
      refine Same.bind fun n _ => ?_
      rw [insertAt64_eq h hpx hpy]
      refine Same.bind fun ⟨m1, pn⟩ e1 => ?_
      have h1 := insertAt_M16 h e1
      dsimp only
      split
      · exact Same.pure h1 _
      · rename_i g1
        have p16 := insertAt_is16 h e1 g1
        split
        · exact Same.pure h1 _
        · rw [locateIns64_eq h1 hqx hqy]
          refine Same.bind fun n _ => ?_
          rw [insertAt64_eq h1 hqx hqy]
          refine Same.bind fun ⟨m2, qn⟩ e2 => ?_
          have h2 := insertAt_M16 h1 e2
          dsimp only
          split
          · exact Same.pure h2 _
          · rename_i g2
            have q16 := insertAt_is16 h1 e2 g2
            rw [locateIns64_eq h2 hpx hpy]
            refine Same.bind fun n _ => ?_
            exact ihE _ _ _ _ _ _ h2 p16.1 p16.2 q16.1 q16.2
    · intro m px py qx qy pn h hpx hpy hqx hqy
      rw [edgeLoop64, edgeLoop]
      simp only [at64_eq h hpx.near hpy.near, Option.bind_eq_bind, Option.bind_some,
        i64_some ((diff16 hqx hpx).trans (by norm_num)), i64_some ((diff16 hqy hpy).trans (by norm_num))]
      have ex : px + (qx - px) = qx := by omega
      have ey : py + (qy - py) = qy := by omega
      have m4 : pn / 4 * 4 % 4 = 0 := by omega
      have n0 : nx (pn / 4 * 4) = pn / 4 * 4 + 1 := by unfold nx; rw [if_pos (by omega)]
      have n1 : nx (pn / 4 * 4 + 1) = pn / 4 * 4 + 2 := by unfold nx; rw [if_pos (by omega)]
      have n2 : nx (pn / 4 * 4 + 2) = pn / 4 * 4 := by unfold nx; rw [if_neg (by omega)]; omega
      have v0 : pv (pn / 4 * 4) = pn / 4 * 4 + 2 := by unfold pv; rw [if_neg (by omega)]
      have v1 : pv (pn / 4 * 4 + 1) = pn / 4 * 4 := by unfold pv; rw [if_pos (by omega)]; omega
      have v2 : pv (pn / 4 * 4 + 2) = pn / 4 * 4 + 1 := by unfold pv; rw [if_pos (by omega)]; omega
      split
      · exact Same.pure h _
      split
      · exact Same.none
      split
      · exact ihC _ _ _ _ _ _ _ _ h hpx hpy (by rw [ex]; exact hqx) (by rw [ey]; exact hqy) (by rw [n0]) (by rw [v0])
      split
      · exact ihC _ _ _ _ _ _ _ _ h hpx hpy (by rw [ex]; exact hqx) (by rw [ey]; exact hqy) (by rw [n1]) (by rw [v1])
      split
      · exact ihC _ _ _ _ _ _ _ _ h hpx hpy (by rw [ex]; exact hqx) (by rw [ey]; exact hqy) (by rw [n2]) (by rw [v2])
      · exact Same.none
    · intro m px py q i pn p1 p2 h hpx hpy hqx hqy e1 e2
      rw [corner64, corner]
      have b1 : Bd 65535 p1 := by rw [e1]; exact ⟨diff16 (h _).1 hpx, diff16 (h _).2 hpy⟩
      have b2 : Bd 65535 p2 := by rw [e2]; exact ⟨diff16 (h _).1 hpx, diff16 (h _).2 hpy⟩
      have bq : Bd 65535 q := by
        have a := diff16 hqx hpx
        have b := diff16 hqy hpy
        rw [add_sub_cancel_left] at a b
        exact ⟨a, b⟩
      rw [(cross64_eq b1 bq (by norm_num)).1, (cross64_eq b2 bq (by norm_num)).1]
      simp only [Option.bind_eq_bind, Option.bind_some]
      subst e1 e2
      dsimp only at b1 b2 ⊢
      split
      · split
        · refine Same.bind fun m1 c1 => ?_
          have h1 := constrainEdge_M16 h c1
          have hx : Is16 (px + (m.x (m.p (pv i)) - px)) := by rw [add_sub_cancel]; exact (h _).1
          have hy : Is16 (py + (m.y (m.p (pv i)) - py)) := by rw [add_sub_cancel]; exact (h _).2
          rw [i64_some (n := px + _) (by unfold Is16 at hx; rw [abs_le]; omega),
            i64_some (n := py + _) (by unfold Is16 at hy; rw [abs_le]; omega)]
          simp only [Option.bind_some]
          rw [locateIns64_eq h1 hx.near hy.near]
          refine Same.bind fun n _ => ?_
          exact ihE _ _ _ _ _ _ h1 hx hy hqx hqy
        · rw [tryFlip64_eq h]
          refine Same.bind fun ⟨m1, d⟩ c1 => ?_
          have h1 := tryFlip_M16 h c1
          dsimp only
          split
          · rw [locateIns64_eq h1 hpx.near hpy.near]
            refine Same.bind fun n _ => ?_
            exact ihE _ _ _ _ _ _ h1 hpx hpy hqx hqy
          · exact ihS _ _ _ _ _ _ _ h1 hpx hpy hqx hqy b1 b2
      · exact ihE _ _ _ _ _ _ h hpx hpy hqx hqy
    · intro m px py q a b hint h hpx hpy hqx hqy ha hb
      rw [splitConstraint64, splitConstraint]
      have bq : Bd 65535 q := by
        have a := diff16 hqx hpx
        have b := diff16 hqy hpy
        rw [add_sub_cancel_left] at a b
        exact ⟨a, b⟩
      obtain ⟨i1, i2⟩ := intersectEdges64_eq bq ha hb
      rw [i1]
      refine Same.bind fun r er => ?_
      have br := i2 _ er
      dsimp only
      split
      · exact Same.pure h _
      · have bx := abs_le.1 br.1
        have bY := abs_le.1 br.2
        have nx : Near (px + r.x) := by unfold Near Is16 at *; omega
        have ny : Near (py + r.y) := by unfold Near Is16 at *; omega
        rw [i64_some (n := px + r.x) (by unfold Near at nx; rw [abs_le]; omega),
          i64_some (n := py + r.y) (by unfold Near at ny; rw [abs_le]; omega),
          i64_some (n := px + q.x) (by unfold Is16 at hqx; rw [abs_le]; omega),
          i64_some (n := py + q.y) (by unfold Is16 at hqy; rw [abs_le]; omega)]
        simp only [Option.bind_eq_bind, Option.bind_some]
        obtain ⟨s1, s2⟩ := ihI m px py (px + r.x) (py + r.y) hint h hpx.near hpy.near nx ny
        rw [s1]
        refine Same.bind fun ⟨m1, r1⟩ c1 => ?_
        have h1 := s2 _ _ c1
        dsimp only
        obtain ⟨s3, s4⟩ := ihI m1 (px + r.x) (py + r.y) (px + q.x) (py + q.y) hint h1 nx ny hqx.near hqy.near
        rw [s3]
        refine Same.bind fun ⟨m2, r2⟩ c2 => ?_
        exact Same.pure (s4 _ _ c2) _

end CE.Cdt
