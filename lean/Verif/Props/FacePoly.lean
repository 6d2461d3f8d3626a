import Verif.Props.View
import Verif.Props.PolyParts
/-!
# C141: in_polygon over the faces of a triangulation

A program that looks for the face of a point with `for (auto f : mesh.faces()) if (in_polygon(p, 3, f.ps)) ...` finds exactly
one face for every point of the square, its left and bottom sides included and the other two not, and none for other points.
`locate` includes the other two sides and gives points on edges to other faces.
-/
namespace CE.Vec

/-- no overflow as long as the differences to the corners are less than `2^31` -/
theorem inPolygon_near (p : V2) (ps : List V2)
    (hps : ∀ v ∈ ps, (-(2 ^ 31 - 1) ≤ p.x - v.x ∧ p.x - v.x ≤ 2 ^ 31 - 1) ∧ (-(2 ^ 31 - 1) ≤ p.y - v.y ∧ p.y - v.y ≤ 2 ^ 31 - 1)) :
    ∃ w, inPolygon p ps = some w := by
  have loop : ∀ (vs : List V2) (a : V2) (w : Nat), (∀ v ∈ vs, (-(2 ^ 31 - 1) ≤ p.x - v.x ∧ p.x - v.x ≤ 2 ^ 31 - 1) ∧
      (-(2 ^ 31 - 1) ≤ p.y - v.y ∧ p.y - v.y ≤ 2 ^ 31 - 1)) → (-(2 ^ 31 - 1) ≤ a.x ∧ a.x ≤ 2 ^ 31 - 1) →
      (-(2 ^ 31 - 1) ≤ a.y ∧ a.y ≤ 2 ^ 31 - 1) → ∃ r, polyLoop p.x p.y a w vs = some r := by
    intro vs
    induction vs with
    | nil => intro a w _ _ _; exact ⟨w, rfl⟩
    | cons v vs ih =>
      intro a w hv hax hay
      obtain ⟨hbx, hby⟩ := hv v (by simp)
      have m1 := mul_bounds hax hby
      have m2 := mul_bounds hay hbx
      norm_num only at m1 m2
      have : ∃ w', polyRound p.x p.y a w v = some (⟨p.x - v.x, p.y - v.y⟩, w') := by
        unfold polyRound
        rw [i64_eq (n := p.x - v.x) ⟨by omega, by omega⟩, i64_eq (n := p.y - v.y) ⟨by omega, by omega⟩]
        simp only [Option.bind_eq_bind, Option.bind_some]
        split
        · rw [i64_eq (n := a.x * _) ⟨by omega, by omega⟩, i64_eq (n := a.y * _) ⟨by omega, by omega⟩]
          simp only [Option.bind_some]
          rw [i64_eq (n := _ - _) ⟨by omega, by omega⟩]
          exact ⟨_, rfl⟩
        · exact ⟨_, rfl⟩
      obtain ⟨w', hw'⟩ := this
      rw [polyLoop, hw']
      exact ih _ _ (fun u hu => hv u (by simp [hu])) hbx hby
  unfold inPolygon
  cases hl : ps.getLast? with
  | none => exact ⟨0, rfl⟩
  | some v =>
    obtain ⟨hx, hy⟩ := hps v (List.mem_of_getLast? hl)
    dsimp only
    rw [i64_eq (n := p.x - v.x) ⟨by omega, by omega⟩, i64_eq (n := p.y - v.y) ⟨by omega, by omega⟩]
    exact loop ps _ _ hps hx hy

end CE.Vec

namespace CE.Cdt

open CE.Vec

variable {m : Mesh} {limit : Nat}

/-- the square with its left and bottom sides, without the others -/
def InSquareLow (w : Int) (p : V2) : Prop := (-32768 * w ≤ p.x ∧ p.x < 32767 * w) ∧ (-32768 * w ≤ p.y ∧ p.y < 32767 * w)

instance (w : Int) (p : V2) : Decidable (InSquareLow w p) := by unfold InSquareLow; infer_instance

/-- the corners of the square, clockwise -/
def corners (w : Int) : List V2 := [⟨-32768 * w, -32768 * w⟩, ⟨-32768 * w, 32767 * w⟩, ⟨32767 * w, 32767 * w⟩, ⟨32767 * w, -32768 * w⟩]

/-- `in_polygon(p, 3, f.ps)` for the face at a position of `faces()` -/
def faceCount (m : Mesh) (w : Int) (p : V2) (fn : Nat) : Option Nat := do
  let v ← m.faceAt w fn
  inPolygon p [v.ps.1, v.ps.2.1, v.ps.2.2]

/-- the count of an axis-parallel box -/
theorem box_sum (lx hx ly hy x y : Int) (h1 : lx < hx) (h2 : ly < hy) :
    ((polyEdges [⟨lx, ly⟩, ⟨lx, hy⟩, ⟨hx, hy⟩, ⟨hx, ly⟩]).map (cr ⟨x, y⟩)).sum =
      if (lx ≤ x ∧ x < hx) ∧ (ly ≤ y ∧ y < hy) then -1 else 0 := by
  show (List.map (cr ⟨x, y⟩) [(⟨hx, ly⟩, ⟨lx, ly⟩), (⟨lx, ly⟩, ⟨lx, hy⟩), (⟨lx, hy⟩, ⟨hx, hy⟩), (⟨hx, hy⟩, ⟨hx, ly⟩)]).sum = _
  simp only [List.map_cons, List.map_nil, List.sum_cons, List.sum_nil]
  unfold cr
  have hz : ∀ a b : V2, a.y = b.y → crossing a b = 0 := by
    intro a b e
    rcases lt_or_ge a.y 0 with h | h
    · exact crossing_below h (by omega)
    · exact crossing_above h (by omega)
  unfold rel
  dsimp only
  rw [hz ⟨x - hx, y - ly⟩ ⟨x - lx, y - ly⟩ rfl, hz ⟨x - lx, y - hy⟩ ⟨x - hx, y - hy⟩ rfl]
  rcases lt_or_ge (y - ly) 0 with a | a
  · rw [crossing_below a (by dsimp only; omega), crossing_below (by dsimp only; omega) a, if_neg (by omega)]; rfl
  rcases lt_or_ge (y - hy) 0 with b | b
  · rw [crossing_down a b, crossing_up b a]
    dsimp only
    have e1 : (x - lx) * (y - hy) - (y - ly) * (x - lx) = (x - lx) * (ly - hy) := by ring
    have e2 : (x - hx) * (y - ly) - (y - hy) * (x - hx) = (x - hx) * (hy - ly) := by ring
    rw [e1, e2]
    have k1 : 0 < (x - lx) * (ly - hy) ↔ x < lx := by
      constructor
      · intro h; by_contra hc; have := mul_nonpos_of_nonneg_of_nonpos (show 0 ≤ x - lx by omega) (show ly - hy ≤ 0 by omega); omega
      · intro h; exact mul_pos_of_neg_of_neg (by omega) (by omega)
    have k2 : (x - hx) * (hy - ly) < 0 ↔ x < hx := by
      constructor
      · intro h; by_contra hc; have := mul_nonneg (show 0 ≤ x - hx by omega) (show 0 ≤ hy - ly by omega); omega
      · intro h; exact mul_neg_of_neg_of_pos (by omega) (by omega)
    simp only [k1, k2]
    split_ifs <;> omega
  · rw [crossing_above a b, crossing_above b a, if_neg (by omega)]; rfl

theorem tris_parts (h : Inv m) (R : Rim m) (w : Int) : PartsOf (CE.Vec.tris (m.tris w)) (corners w) := by
  obtain ⟨I, hI, he⟩ := tris_boundary h R w
  have key : ∀ Ts : List Tri, ((Ts.flatMap Tri.edges : List (V2 × V2)) : Multiset (V2 × V2)) = ((CE.Vec.tris Ts).flatMap polyEdges : List (V2 × V2)) := by
    intro Ts
    induction Ts with
    | nil => rfl
    | cons T Ts ih =>
      unfold CE.Vec.tris at *
      rw [List.flatMap_cons, List.map_cons, List.flatMap_cons, ← Multiset.coe_add, ← Multiset.coe_add, ih]
      congr 1
      show ((Tri.edges T : List (V2 × V2)) : Multiset (V2 × V2)) = ([(T.c, T.a), (T.a, T.b), (T.b, T.c)] : List (V2 × V2))
      rw [Multiset.coe_eq_coe]
      exact List.perm_append_comm (l₁ := [(T.a, T.b), (T.b, T.c)]) (l₂ := [(T.c, T.a)])
  refine ⟨I, hI, ?_⟩
  rw [← key, he]
  congr 1

/-- range of the differences to the corners, for scales up to `2 ^ 15` -/
theorem near_corner (h : Inv m) {w : Int} (hw : 0 < w) (hw' : w ≤ 32768) {p : V2}
    (hp : (-2 ^ 30 ≤ p.x ∧ p.x < 2 ^ 30) ∧ (-2 ^ 30 ≤ p.y ∧ p.y < 2 ^ 30)) {v : Nat} (hv : v < m.size) :
    (-(2 ^ 31 - 1) ≤ p.x - (m.pt w v).x ∧ p.x - (m.pt w v).x ≤ 2 ^ 31 - 1) ∧
      (-(2 ^ 31 - 1) ≤ p.y - (m.pt w v).y ∧ p.y - (m.pt w v).y ≤ 2 ^ 31 - 1) := by
  obtain ⟨hx, hy⟩ := h.rng v hv
  unfold Is16 at hx hy
  have x1 : -32768 * w ≤ m.x v * w := mul_le_mul_of_nonneg_right hx.1 hw.le
  have x2 : m.x v * w ≤ 32767 * w := mul_le_mul_of_nonneg_right (by omega) hw.le
  have y1 : -32768 * w ≤ m.y v * w := mul_le_mul_of_nonneg_right hy.1 hw.le
  have y2 : m.y v * w ≤ 32767 * w := mul_le_mul_of_nonneg_right (by omega) hw.le
  show (_ ≤ p.x - m.x v * w ∧ p.x - m.x v * w ≤ _) ∧ (_ ≤ p.y - m.y v * w ∧ p.y - m.y v * w ≤ _)
  omega

theorem tri_count (h : Inv m) {w : Int} (hw : 0 < w) (hw' : w ≤ 32768) {p : V2}
    (hp : (-2 ^ 30 ≤ p.x ∧ p.x < 2 ^ 30) ∧ (-2 ^ 30 ≤ p.y ∧ p.y < 2 ^ 30)) {f : Nat} (hf : IsF m.size f) :
    ∃ c, inPolygon p [(m.tri w f).a, (m.tri w f).b, (m.tri w f).c] = some c := by
  apply inPolygon_near
  have e := hf.edges
  intro v hv
  simp only [List.mem_cons, List.not_mem_nil, or_false] at hv
  rcases hv with rfl | rfl | rfl
  · exact near_corner h hw hw' hp (h.pl _ e.1)
  · exact near_corner h hw hw' hp (h.pl _ e.2.1)
  · exact near_corner h hw hw' hp (h.pl _ e.2.2)

theorem pow_scale {Q : Nat} (hQ : Q ≤ 15) : (0 : Int) < 2 ^ Q ∧ (2 : Int) ^ Q ≤ 32768 := by
  refine ⟨by positivity, ?_⟩
  calc (2 : Int) ^ Q ≤ 2 ^ 15 := by exact_mod_cast Nat.pow_le_pow_right (by decide) hQ
    _ = 32768 := by norm_num

theorem faceCount_eq (h : Reach limit m) {Q f} (hQ : Q ≤ 15) (uf : Used m f) (p : V2) :
    faceCount m (2 ^ Q) p (4 * f) = inPolygon p [(m.tri (2 ^ Q) f).a, (m.tri (2 ^ Q) f).b, (m.tri (2 ^ Q) f).c] := by
  obtain ⟨v, hv, e, -⟩ := C84_face_value h (Q := Q) (by omega) uf
  unfold faceCount
  rw [hv]
  simp only [Option.bind_eq_bind, Option.bind_some]
  rw [e]
  rfl

/-- C141.  Over the faces that `faces()` visits, `in_polygon` is 0 or -1 (modulo 2^64), and it is -1 for exactly one face if
the point is in the square (left and bottom sides included, right and top sides not), also on edges and vertices, and for none
otherwise. -/
theorem C141_one_face (h : Reach limit m) {Q : Nat} (hQ : Q ≤ 15) {p : V2}
    (hp : (-2 ^ 30 ≤ p.x ∧ p.x < 2 ^ 30) ∧ (-2 ^ 30 ≤ p.y ∧ p.y < 2 ^ 30)) {k : Nat} (hk : 2 * m.size ≤ k) :
    ∃ l, m.faceList k = some l ∧
      (∀ n ∈ l, faceCount m (2 ^ Q) p n = some 0 ∨ faceCount m (2 ^ Q) p n = some (2 ^ 64 - 1)) ∧
      (InSquareLow (2 ^ Q) p → ∃! n, n ∈ l ∧ faceCount m (2 ^ Q) p n = some (2 ^ 64 - 1)) ∧
      (¬ InSquareLow (2 ^ Q) p → ∀ n ∈ l, faceCount m (2 ^ Q) p n = some 0) := by
  obtain ⟨I, R⟩ := reach_inv h
  obtain ⟨w0, w1⟩ := pow_scale hQ
  obtain ⟨l, hl, -, -, hmem, -⟩ := C84_faces h hk
  -- the counts as a function of the triangle
  let g : Tri → Nat := fun T => (inPolygon p [T.a, T.b, T.c]).getD 0
  have hg : ∀ f, Used m f → inPolygon p [(m.tri (2 ^ Q) f).a, (m.tri (2 ^ Q) f).b, (m.tri (2 ^ Q) f).c] = some (g (m.tri (2 ^ Q) f)) := by
    intro f uf
    obtain ⟨c, hc⟩ := tri_count I w0 w1 hp (f := f) uf
    show _ = some ((inPolygon p _).getD 0)
    rw [hc]; rfl
  have hgT : ∀ T ∈ m.tris (2 ^ Q), inPolygon p [T.a, T.b, T.c] = some (g T) := by
    intro T hT
    obtain ⟨f, hf, rfl⟩ := mem_tris.1 hT
    exact hg f hf
  have hcw := tris_clockwise I w0
  have val : ∀ f, Used m f → g (m.tri (2 ^ Q) f) = 0 ∨ g (m.tri (2 ^ Q) f) = 2 ^ 64 - 1 := by
    intro f uf
    have cw : area2 (m.tri (2 ^ Q) f).a (m.tri (2 ^ Q) f).b (m.tri (2 ^ Q) f).c < 0 := hcw _ (mem_tris.2 ⟨f, uf, rfl⟩)
    rcases C138_triangle p _ _ _ _ (hg f uf) with e | ⟨e, -⟩ | ⟨-, e⟩
    · exact Or.inl e
    · omega
    · exact Or.inr e
  -- the total
  have tot := CE.Vec.tris_count p (m.tris (2 ^ Q)) g hcw hgT
  rw [parts_sum p _ _ (tris_parts I R (2 ^ Q))] at tot
  have box := box_sum (-32768 * 2 ^ Q) (32767 * 2 ^ Q) (-32768 * 2 ^ Q) (32767 * 2 ^ Q) p.x p.y (by omega) (by omega)
  unfold corners at tot
  have cnt : ((m.tris (2 ^ Q)).countP fun T => g T ≠ 0) = if InSquareLow (2 ^ Q) p then 1 else 0 := by
    rw [show p = ⟨p.x, p.y⟩ from rfl] at tot
    rw [box] at tot
    by_cases hs : InSquareLow (2 ^ Q) p
    · rw [if_pos hs]; unfold InSquareLow at hs; rw [if_pos hs] at tot; omega
    · rw [if_neg hs]; unfold InSquareLow at hs; rw [if_neg hs] at tot; omega
  refine ⟨l, hl, ?_, ?_, ?_⟩
  · intro n hn
    obtain ⟨f, uf, rfl⟩ := (hmem n).1 hn
    rw [faceCount_eq h hQ uf, hg f uf]
    rcases val f uf with e | e
    · left; rw [e]
    · right; rw [e]
  · intro hs
    rw [if_pos hs] at cnt
    have pos : 0 < (m.tris (2 ^ Q)).countP fun T => g T ≠ 0 := by omega
    rw [List.countP_pos_iff] at pos
    obtain ⟨T, hT, hc⟩ := pos
    obtain ⟨f, uf, rfl⟩ := mem_tris.1 hT
    have hc : g (m.tri (2 ^ Q) f) ≠ 0 := by simpa using hc
    refine ⟨4 * f, ⟨(hmem _).2 ⟨f, uf, rfl⟩, ?_⟩, ?_⟩
    · rw [faceCount_eq h hQ uf, hg f uf]
      rcases val f uf with e | e
      · exact absurd e hc
      · rw [e]
    · rintro n ⟨hn, hc'⟩
      obtain ⟨f', uf', rfl⟩ := (hmem n).1 hn
      rw [faceCount_eq h hQ uf', hg f' uf'] at hc'
      injection hc' with hc'
      unfold Mesh.tris at cnt
      rw [List.countP_map] at cnt
      have e := countP_le_one List.nodup_range' (q := (fun T => decide (g T ≠ 0)) ∘ m.tri (2 ^ Q)) (by rw [cnt]) (a := f') (b := f)
        (by rw [List.mem_range'_1]; unfold Used at uf'; omega) (by rw [List.mem_range'_1]; unfold IsF at uf; omega)
        (by simp [hc']) (by simp [hc])
      rw [e]
  · intro hs n hn
    obtain ⟨f, uf, rfl⟩ := (hmem n).1 hn
    rw [if_neg hs, List.countP_eq_zero] at cnt
    have := cnt _ (mem_tris.2 ⟨f, uf, rfl⟩)
    rw [faceCount_eq h hQ uf, hg f uf]
    simp at this
    rw [this]

/-- the line from corner `j` of the face to the next one passes through the point -/
def OnSide (m : Mesh) (w : Int) (p : V2) (f j : Nat) : Prop :=
  (m.x (m.corner f j) * w - p.x) * (m.y (m.corner f (j + 1)) * w - p.y) = (m.y (m.corner f j) * w - p.y) * (m.x (m.corner f (j + 1)) * w - p.x)

/-- C141.  The face that `locate` returns is the one that `in_polygon` finds, if the point is not on an edge of it. -/
theorem C141_locate (h : Reach limit m) {Q : Nat} (hQ : Q ≤ 15) {px py : Int}
    (hp : (-2 ^ 30 ≤ px ∧ px < 2 ^ 30) ∧ (-2 ^ 30 ≤ py ∧ py < 2 ^ 30)) {k hint r : Nat} (run : locate k m (2 ^ Q) px py hint = some r)
    (h0 : r ≠ 0) (off : ∀ j, j < 3 → ¬ OnSide m (2 ^ Q) ⟨px, py⟩ (r / 4) j) :
    faceCount m (2 ^ Q) ⟨px, py⟩ (4 * (r / 4)) = some (2 ^ 64 - 1) := by
  obtain ⟨I, R⟩ := reach_inv h
  obtain ⟨w0, w1⟩ := pow_scale hQ
  rcases C75_locate h w0 run with ⟨e, -⟩ | ⟨uf, -, ht⟩
  · exact absurd e h0
  obtain ⟨c, hc⟩ := tri_count I w0 w1 (p := ⟨px, py⟩) hp (f := r / 4) uf
  rw [faceCount_eq h hQ uf, hc]
  have e := inPolygon_some hc
  rw [CE.Vec.tri_sum] at e
  obtain ⟨-, -, -, r1, r2, r3, e1, e2, e3, er⟩ := inTriangle_some ht
  simp only [Bool.true_eq, Bool.and_eq_true] at er
  have i1 := (insd_of_inside e1).1 er.1.1
  have i2 := (insd_of_inside e2).1 er.1.2
  have i3 := (insd_of_inside e3).1 er.2
  have k0 := off 0 (by omega)
  have k1 := off 1 (by omega)
  have k2 := off 2 (by omega)
  unfold OnSide at k0 k1 k2
  dsimp only at k0 k1 k2
  unfold Insd Mesh.pt at i1 i2 i3
  dsimp only at i1 i2 i3
  have l1 := i1.resolve_right (fun hh => k0 (by linarith [hh.1]))
  have l2 := i2.resolve_right (fun hh => k1 (by linarith [hh.1]))
  have l3 := i3.resolve_right (fun hh => k2 (by
    have : m.corner (r / 4) (2 + 1) = m.corner (r / 4) 0 := rfl
    rw [this]; linarith [hh.1]))
  have hi := (around_inside (rel ⟨px, py⟩ (m.tri (2 ^ Q) (r / 4)).a) (rel ⟨px, py⟩ (m.tri (2 ^ Q) (r / 4)).b)
    (rel ⟨px, py⟩ (m.tri (2 ^ Q) (r / 4)).c)).2 (by
      refine ⟨Or.inl ?_, Or.inl ?_, Or.inl ?_⟩ <;> unfold rel Mesh.tri Mesh.pt <;> dsimp only
      · show (px - m.x (m.corner (r / 4) 0) * 2 ^ Q) * (py - m.y (m.corner (r / 4) 1) * 2 ^ Q) -
          (py - m.y (m.corner (r / 4) 0) * 2 ^ Q) * (px - m.x (m.corner (r / 4) 1) * 2 ^ Q) < 0
        linarith
      · show (px - m.x (m.corner (r / 4) 1) * 2 ^ Q) * (py - m.y (m.corner (r / 4) 2) * 2 ^ Q) -
          (py - m.y (m.corner (r / 4) 1) * 2 ^ Q) * (px - m.x (m.corner (r / 4) 2) * 2 ^ Q) < 0
        linarith
      · show (px - m.x (m.corner (r / 4) 2) * 2 ^ Q) * (py - m.y (m.corner (r / 4) 0) * 2 ^ Q) -
          (py - m.y (m.corner (r / 4) 2) * 2 ^ Q) * (px - m.x (m.corner (r / 4) 0) * 2 ^ Q) < 0
        linarith)
  rw [hi] at e
  congr 1
  omega

/-- C141.  On an edge the two differ: `locate` returns another face than the one that `in_polygon` finds, and on the sides of
the square one of them finds a face and the other does not. -/
theorem C141_locate_edges_false : Reach 100 sample0 ∧
    locate 30 sample0 2 0 (-2) 0 = some 27 ∧ faceCount sample0 2 ⟨0, -2⟩ 24 = some 0 ∧ faceCount sample0 2 ⟨0, -2⟩ 28 = some (2 ^ 64 - 1) ∧
    locate 30 sample0 2 (-65536) 0 0 = some 0 ∧ faceCount sample0 2 ⟨-65536, 0⟩ 24 = some (2 ^ 64 - 1) ∧
    locate 30 sample0 2 65534 0 0 = some 31 ∧ faceCount sample0 2 ⟨65534, 0⟩ 24 = some 0 ∧ faceCount sample0 2 ⟨65534, 0⟩ 28 = some 0 :=
  ⟨.reset _, by decide +kernel, by decide +kernel, by decide +kernel, by decide +kernel, by decide +kernel, by decide +kernel,
    by decide +kernel, by decide +kernel⟩

/-- a vertex of the sample in user coordinates: of the faces around it one counts it -/
example : sample.faceList 12 = some [24, 28, 32, 36, 40, 44] ∧
    ([24, 28, 32, 36, 40, 44].map fun n => faceCount sample 4 ⟨-80000, -40000⟩ n).count (some (2 ^ 64 - 1)) = 1 ∧
    InSquareLow 4 ⟨-80000, -40000⟩ ∧ sample.Vertex (-20000) (-10000) := by
  refine ⟨by decide +kernel, by decide +kernel, by decide, ⟨4, by decide +kernel, by decide +kernel, by decide +kernel⟩⟩

example : ∃ l, sample.faceList 12 = some l ∧ ∃! n, n ∈ l ∧ faceCount sample (2 ^ 2) ⟨-80000, -40000⟩ n = some (2 ^ 64 - 1) := by
  obtain ⟨l, hl, -, h, -⟩ := C141_one_face sample_reach (Q := 2) (by decide) (p := ⟨-80000, -40000⟩) (by decide) (k := 12) (by decide +kernel)
  exact ⟨l, hl, h (by decide)⟩

example : locate 30 sample (2 ^ 8) 1000 (-2000) 0 = some 43 ∧ (∀ j, j < 3 → ¬ OnSide sample (2 ^ 8) ⟨1000, -2000⟩ 10 j) := by
  unfold OnSide; decide +kernel

end CE.Cdt
