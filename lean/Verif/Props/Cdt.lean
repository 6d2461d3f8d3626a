import Verif.Spec.Cdt
import Verif.Proof.CdtLocate
/-! C71–C76: the triangulation. -/
namespace CE.Cdt

open CE.Vec

variable {m m' : Mesh} {limit : Nat}

/-! ### translation -/

theorem Used.isF {f} (h : Used m f) : IsF m.size f := h
theorem Used.isE {f j} (h : Used m f) (hj : j < 3) : IsE m.size (4 * f + j) := by unfold Used at h; unfold IsE; omega
theorem corner_nx (m : Mesh) (f : Nat) {j : Nat} (hj : j < 3) : m.corner f (j + 1) = m.p (nx (4 * f + j)) := by
  unfold Mesh.corner nx
  congr 1
  split <;> omega
theorem corner_pv (m : Mesh) (f : Nat) {j : Nat} (hj : j < 3) : m.corner f (j + 2) = m.p (pv (4 * f + j)) := by
  unfold Mesh.corner pv
  congr 1
  split <;> omega
theorem corner_at (m : Mesh) (f : Nat) {j : Nat} (hj : j < 3) : m.corner f j = m.p (4 * f + j) := by
  unfold Mesh.corner; rw [Nat.mod_eq_of_lt hj]

theorem Paint.rim {info} (h : Paint info m m') (R : Rim m) : Rim m' := by
  rw [h.same]; exact ⟨R.mem, R.one, R.xy0, R.xy1, R.xy2, R.xy3⟩

theorem fill_paint {k n info} (run : fill k m n info = some m') : Paint info m m' := by
  unfold fill at run
  simp only at run
  split at run
  · injection run with e; subst e; exact .refl _
  · split at run
    · injection run with e; subst e; exact .refl _
    · exact (paint_set m (n / 4)).trans ((fill_within info (fun _ => True) k).1 _ _ _ _ (fun _ _ _ _ _ => trivial) trivial (fun _ _ => trivial) run).paint

theorem reach_inv (h : Reach limit m) : Inv m ∧ Rim m := by
  have key : ∀ {m m'}, Inv m ∧ Rim m → Steps m m' → Inv m' ∧ Rim m' := fun h s => ⟨s.inv h.1, s.rim h.1 h.2⟩
  induction h with
  | reset m => exact ⟨reset_inv m, reset_rim m⟩
  | point _ run ih => exact key ih (insertPoint_spec ih.1 run).steps
  | edge _ run ih => exact key ih ((edges_steps limit _).1 _ _ _ _ _ _ _ _ ih.1 run)
  | constrain _ u hj run ih => exact key ih (constrainEdge_steps ih.1 run)
  | flip _ u hj run ih => exact key ih (flip_steps ih.1 (Or.inl (u.isE hj)) run)
  | tryFlip _ u hj run ih => exact key ih (tryFlip_steps ih.1 (u.isE hj) run)
  | fill _ u run ih => exact ⟨(fill_paint run).inv ih.1, (fill_paint run).rim ih.2⟩

/-- a mesh with two inserted points and a constrained edge between them, for the examples -/
def sample0 : Mesh := CE.Cdt.reset ⟨0, fun _ => 0, fun _ => 0, fun _ => 0, fun _ => 0, fun _ => 0, fun _ => 0⟩
/-- one more point -/
def sample1 : Mesh := ((insertPoint 100 30 sample0 (-20000) (-10000) 0).get (by decide +kernel)).1
/-- and an edge -/
def sample : Mesh := ((insertEdge 100 30 sample1 (-20000) (-10000) 5000 6000 0).get (by decide +kernel)).1

theorem get_pair {α β : Type} (o : Option (α × β)) (h : o.isSome = true) : o = some ((o.get h).1, (o.get h).2) := by simp

theorem sample_reach : Reach 100 sample := by
  have h1 : Reach 100 sample1 := by
    unfold sample1
    exact .point (.reset _) (get_pair _ _)
  unfold sample
  exact .edge h1 (get_pair _ _)

/-! ### C71 -/

/-- C71.  After `reset` and any sequence of insertions, flips, constraints and fills the links are consistent. -/
theorem C71_linked (h : Reach limit m) : Linked m := by
  obtain ⟨I, -⟩ := reach_inv h
  constructor
  · intro f j u
    unfold Mesh.corner
    exact I.pl _ (u.isE (Nat.mod_lt _ (by omega)))
  · intro f j u hj
    have i := u.isE hj
    by_cases h0 : m.e (4 * f + j) = 0
    · exact Or.inl ⟨h0, I.bd _ i h0⟩
    · obtain ⟨t1, t2, t3, t4, t5⟩ := I.tw _ i h0
      have hq : m.e (4 * f + j) = 4 * (m.e (4 * f + j) / 4) + m.e (4 * f + j) % 4 := by omega
      have hl : m.e (4 * f + j) % 4 < 3 := by unfold IsE at t1; omega
      refine Or.inr ⟨m.e (4 * f + j) / 4, m.e (4 * f + j) % 4, t1.isF, hl, hq, ?_, ?_, ?_, ?_⟩
      · rw [← hq]; exact t2
      · rw [← hq]; exact t3
      · rw [corner_nx m _ hl, corner_pv m _ hj, ← hq]; exact t4
      · rw [corner_pv m _ hl, corner_nx m _ hj, ← hq]; exact t5

/-- C71.  The outline is always the square. -/
theorem C71_outline (h : Reach limit m) : Outline m := by
  obtain ⟨I, R⟩ := reach_inv h
  refine ⟨?_, ?_, ?_⟩
  · rw [R.xy0.1, R.xy0.2, R.xy1.1, R.xy1.2, R.xy2.1, R.xy2.2, R.xy3.1, R.xy3.2]; exact ⟨rfl, rfl, rfl, rfl⟩
  · intro f j u hj h0
    rw [corner_nx m f hj, corner_pv m f hj]
    exact R.mem _ ⟨u.isE hj, h0⟩
  · intro s hs
    obtain ⟨i, b, e, un⟩ := R.one s hs
    have hl : i % 4 < 3 := by have := b.1; unfold IsE at this; omega
    have hq : 4 * (i / 4) + i % 4 = i := by omega
    refine ⟨(i / 4, i % 4), ⟨b.1.isF, hl, ?_, ?_⟩, ?_⟩
    · simp only; rw [hq]; exact b.2
    · simp only; rw [corner_nx m _ hl, corner_pv m _ hl, hq]; exact e
    · rintro ⟨f, j⟩ u hj h0 e'
      rw [corner_nx m _ hj, corner_pv m _ hj] at e'
      have := un _ ⟨u.isE hj, h0⟩ e'
      simp only at hj
      rw [← this]
      exact Prod.ext (by simp only; omega) (by simp only; omega)

/-- C71.  Vertices never move: an operation only appends them. -/
theorem C71_vertices {k px py hint r} (h : Reach limit m) (run : insertPoint limit k m px py hint = some (m', r)) :
    m.size ≤ m'.size ∧ ∀ v, v < m.size → m'.x v = m.x v ∧ m'.y v = m.y v :=
  (insertPoint_spec (reach_inv h).1 run).steps.keep

-- the history of `sample` is one of those: six vertices, and the links between them
example : Reach 100 sample ∧ sample.size = 6 ∧ Linked sample ∧ Outline sample :=
  ⟨sample_reach, by decide +kernel, C71_linked sample_reach, C71_outline sample_reach⟩

/-! ### C72 -/

/-- C72.  Every face of every mesh a program can have is strictly clockwise, with 16-bit coordinates. -/
theorem C72_clockwise (h : Reach limit m) : Clockwise m ∧ Coords m := by
  obtain ⟨I, -⟩ := reach_inv h
  refine ⟨fun f u => ?_, fun v hv => ?_⟩
  · have := I.cw _ (u.isE (j := 0) (by omega))
    rw [← corner_nx m f (by omega), ← corner_pv m f (by omega), ← corner_at m f (by omega)] at this
    exact this
  · have := I.rng v hv
    unfold Is16 at this
    omega

/-- C72.  The assertions of `validate_face` other than `e0 != e1`, `e1 != e2`, `e2 != e0` hold for every face in use. -/
theorem C72_validate (h : Reach limit m) {f} (u : Used m f) : m.validFace (4 * f) = true := by
  obtain ⟨I, -⟩ := reach_inv h
  have tw : ∀ j, j < 3 → m.e (m.e (m.e (4 * f + j))) = m.e (4 * f + j) ∧ m.c (m.e (4 * f + j)) = m.c (4 * f + j) := by
    intro j hj
    by_cases h0 : m.e (4 * f + j) = 0
    · rw [h0, I.bd _ (u.isE hj) h0]
      obtain ⟨a, -, b⟩ := I.low 0 (by omega) (by omega)
      rw [b, a]; exact ⟨b, rfl⟩
    · obtain ⟨-, t2, t3, -⟩ := I.tw _ (u.isE hj) h0
      rw [t2]; exact ⟨rfl, t3⟩
  have i := u.isE (j := 0) (by omega)
  rw [Nat.add_zero] at i
  have B := base i (by omega)
  have cw := I.cw _ i
  have n1 := I.ne1 i
  have n2 := I.ne2 i
  have n3 := I.ne3 i
  rw [B.n0] at cw n1 n3
  rw [B.p0] at cw n2 n3
  unfold Mesh.validFace
  simp only [show 4 * f / 4 * 4 = 4 * f by omega, Bool.and_eq_true, bne_iff_ne, beq_iff_eq, decide_eq_true_eq]
  have t0 := tw 0 (by omega)
  have t1 := tw 1 (by omega)
  have t2 := tw 2 (by omega)
  rw [Nat.add_zero] at t0
  have r1 : m.cr (m.p (4 * f + 1)) (m.p (4 * f + 2)) (m.p (4 * f)) < 0 := by unfold Mesh.cr at *; linarith
  have r2 : m.cr (m.p (4 * f + 2)) (m.p (4 * f)) (m.p (4 * f + 1)) < 0 := by unfold Mesh.cr at *; linarith
  exact ⟨⟨⟨⟨⟨⟨⟨⟨⟨⟨⟨n1, n3⟩, Ne.symm n2⟩, t0.1⟩, t1.1⟩, t2.1⟩, t0.2⟩, t1.2⟩, t2.2⟩, cw⟩, r1⟩, r2⟩

/-- C72.  Those three do not: the faces of the empty mesh have two edges on the outline. -/
theorem C72_distinct_twins_false : ∃ (m : Mesh) (f : Nat), Reach limit m ∧ Used m f ∧ m.distinctTwins (4 * f) = false :=
  ⟨CE.Cdt.reset ⟨0, fun _ => 0, fun _ => 0, fun _ => 0, fun _ => 0, fun _ => 0, fun _ => 0⟩, 6, .reset _, by unfold Used; decide, by decide⟩

example : Used sample 9 ∧ sample.area (sample.corner 9 0) (sample.corner 9 1) (sample.corner 9 2) < 0 ∧ sample.validFace 36 = true := by
  unfold Used; decide +kernel

/-! ### C73 -/

/-- C73.  Started from any edge of any mesh a program can have, `flip` ends, without a failed assertion; what it returns does not
depend on how many rounds it was given. -/
theorem C73_flip_ends (h : Reach limit m) {f j} (u : Used m f) (hj : j < 3) :
    ∃ K m', ∀ k, K ≤ k → flip k m (4 * f + j) = some m' := by
  obtain ⟨I, -⟩ := reach_inv h
  have hp := I.phi_nonneg
  obtain ⟨m', e, -⟩ := flip_ends (m.phi + 1).toNat m I _ (Or.inl (u.isE hj)) (by omega)
  exact ⟨_, m', fun k hk => flip_mono' hk e⟩

/-- C73.  Inserting a point into a face that contains it ends, without a failed assertion. -/
theorem C73_insert_ends (h : Reach limit m) {f px py} (u : Used m f) (hin : m.Holds px py f) :
    ∃ K, ∀ k, K ≤ k → ∃ r, insertAt limit k m px py (4 * f) = some r := by
  obtain ⟨I, -⟩ := reach_inv h
  have e : 4 * f / 4 * 4 = 4 * f := by omega
  have i := u.isE (j := 0) (by omega)
  rw [Nat.add_zero] at i
  refine insertAt_some I (by rw [e]; exact i) ?_ limit
  rw [e]
  have h0 := hin 0 (by omega)
  have h1 := hin 1 (by omega)
  have h2 := hin 2 (by omega)
  have c1 := corner_nx m f (j := 0) (by omega)
  have c2 := corner_pv m f (j := 0) (by omega)
  have c0 := corner_at m f (j := 0) (by omega)
  have c3 : m.corner f 3 = m.corner f 0 := rfl
  change m.corner f 1 = m.p (nx (4 * f)) at c1
  change m.corner f 2 = m.p (pv (4 * f)) at c2
  change m.corner f 0 = m.p (4 * f) at c0
  unfold Mesh.InClosed Mesh.crP
  rw [← c0, ← c1, ← c2]
  exact ⟨h0, h1, h2⟩

/-- C73.  Constraining an edge ends, without a failed assertion. -/
theorem C73_constrain_ends (h : Reach limit m) {f j} (u : Used m f) (hj : j < 3) :
    ∃ K, ∀ k, K ≤ k → ∃ m', constrainEdge k m (4 * f + j) = some m' :=
  constrainEdge_some (reach_inv h).1 (u.isE hj)

-- an insertion with four flips
example : sample0.Holds (-20000) (-10000) 6 ∧ (insertAt 100 30 sample0 (-20000) (-10000) 24).isSome = true := by
  refine ⟨?_, by decide +kernel⟩
  unfold Mesh.Holds
  intro j hj
  have : j = 0 ∨ j = 1 ∨ j = 2 := by omega
  rcases this with rfl | rfl | rfl <;> decide +kernel
example : Used sample 10 ∧ (flip 30 sample 41).isSome = true ∧ (constrainEdge 30 sample 41).isSome = true := by
  unfold Used; decide +kernel

/-! ### C74 -/

/-- C74 is false: the very first insertion can overflow.  Into the empty mesh insert the point `(-20000, -20000)`: the first flip asks
whether vertex 3 is in the circle of the face at the diagonal, and the product overflows. -/
theorem C74_no_overflow_false : ∀ m : Mesh, ∃ n, locateIns 3 (CE.Cdt.reset m) (-20000) (-20000) 0 = some n ∧ n / 4 * 4 = 24 ∧
    ((CE.Cdt.reset m).splitFace (-20000) (-20000) 24).incircle64 6 3 = none := by
  intro m
  refine ⟨24, ?_, rfl, ?_⟩
  · simp [locateIns, walkFrom, walk, inn, CE.Cdt.reset, nx, pv]
  · have e : ((CE.Cdt.reset m).splitFace (-20000) (-20000) 24).incircle64 6 3 = CE.Cdt.incircle64 (-52767) (-52767) (-65535) 0 0 (-65535) := by
      simp [Mesh.incircle64, Mesh.splitFace, Mesh.faceV, Mesh.faceW, Mesh.faceU, Mesh.setC, Mesh.setP, Mesh.setE, Mesh.setE', Mesh.setX, Mesh.setY,
        Mesh.setFi, CE.Cdt.reset, upd, i16]
    rw [e]; decide

/-- C74, as far as it holds: computed in two's complement the sum is the exact determinant for all 16-bit coordinates. -/
theorem C74_wrapped_partial {ax ay bx b_y cx cy dx dy : ℤ} (h1 : Is16 ax) (h2 : Is16 ay) (h3 : Is16 bx) (h4 : Is16 b_y)
    (h5 : Is16 cx) (h6 : Is16 cy) (h7 : Is16 dx) (h8 : Is16 dy) :
    incircleSum (ax - dx) (ay - dy) (bx - dx) (b_y - dy) (cx - dx) (cy - dy) = circleDet ax ay bx b_y cx cy dx dy := by
  rw [incircleSum_eq h1 h2 h3 h4 h5 h6 h7 h8]
  unfold detE circleDet; ring

/-- a cross product of two points seen from a third, all in a square -/
theorem cross_box {px py qx qy dx dy x0 y0 s : ℤ} (h1 : x0 ≤ px ∧ px ≤ x0 + s) (h2 : y0 ≤ py ∧ py ≤ y0 + s) (h3 : x0 ≤ qx ∧ qx ≤ x0 + s)
    (h4 : y0 ≤ qy ∧ qy ≤ y0 + s) (h5 : x0 ≤ dx ∧ dx ≤ x0 + s) (h6 : y0 ≤ dy ∧ dy ≤ y0 + s) :
    |(px - dx) * (qy - dy) - (py - dy) * (qx - dx)| ≤ s * s := by
  obtain ⟨a1, a2⟩ := h1; obtain ⟨b1, b2⟩ := h2; obtain ⟨c1, c2⟩ := h3
  obtain ⟨d1, d2⟩ := h4; obtain ⟨e1, e2⟩ := h5; obtain ⟨f1, f2⟩ := h6
  have e : (px - dx) * (qy - dy) - (py - dy) * (qx - dx) =
      (px - x0) * ((qy - y0) - (dy - y0)) + (qx - x0) * ((dy - y0) - (py - y0)) + (dx - x0) * ((py - y0) - (qy - y0)) := by ring
  rw [e]
  have p0 : 0 ≤ px - x0 ∧ px - x0 ≤ s := by constructor <;> linarith
  have q0 : 0 ≤ qx - x0 ∧ qx - x0 ≤ s := by constructor <;> linarith
  have d0 : 0 ≤ dx - x0 ∧ dx - x0 ≤ s := by constructor <;> linarith
  have p1 : 0 ≤ py - y0 ∧ py - y0 ≤ s := by constructor <;> linarith
  have q1 : 0 ≤ qy - y0 ∧ qy - y0 ≤ s := by constructor <;> linarith
  have r1 : 0 ≤ dy - y0 ∧ dy - y0 ≤ s := by constructor <;> linarith
  generalize px - x0 = a at *
  generalize qx - x0 = b at *
  generalize dx - x0 = c at *
  generalize py - y0 = u at *
  generalize qy - y0 = v at *
  generalize dy - y0 = w at *
  have hs : 0 ≤ s := by linarith
  -- a multiple of a difference is at most the larger end
  have up : ∀ {x t : ℤ}, 0 ≤ x ∧ x ≤ s → x * t ≤ s * max t 0 := by
    intro x t hx
    rcases le_total t 0 with h | h
    · rw [max_eq_right h]; nlinarith [hx.1]
    · rw [max_eq_left h]; exact mul_le_mul_of_nonneg_right hx.2 h
  have dn : ∀ {x t : ℤ}, 0 ≤ x ∧ x ≤ s → s * min t 0 ≤ x * t := by
    intro x t hx
    rcases le_total t 0 with h | h
    · rw [min_eq_left h]; exact mul_le_mul_of_nonpos_right hx.2 h
    · rw [min_eq_right h]; nlinarith [hx.1]
  have M : max (v - w) 0 + max (w - u) 0 + max (u - v) 0 ≤ s := by omega
  have N : -s ≤ min (v - w) 0 + min (w - u) 0 + min (u - v) 0 := by omega
  rw [abs_le]
  constructor
  · have := @dn a (v - w) p0; have := @dn b (w - u) q0; have := @dn c (u - v) d0
    nlinarith [mul_le_mul_of_nonneg_left N hs]
  · have := @up a (v - w) p0; have := @up b (w - u) q0; have := @up c (u - v) d0
    nlinarith [mul_le_mul_of_nonneg_left M hs]

/-- C74, as far as it holds: within a square of side 35210 nothing overflows. -/
theorem C74_small_partial {ax ay bx b_y cx cy dx dy x0 y0 : ℤ}
    (hx : ∀ v ∈ [ax, bx, cx, dx], x0 ≤ v ∧ v ≤ x0 + 35210) (hy : ∀ v ∈ [ay, b_y, cy, dy], y0 ≤ v ∧ v ≤ y0 + 35210) :
    incircle64 (ax - dx) (ay - dy) (bx - dx) (b_y - dy) (cx - dx) (cy - dy) = some (circleDet ax ay bx b_y cx cy dx dy) := by
  have hX : ∀ u ∈ [ax, bx, cx], |u - dx| ≤ 35210 := by
    intro u hu
    have h1 := hx u (by simp only [List.mem_cons, List.not_mem_nil, or_false] at hu ⊢; tauto)
    have h2 := hx dx (by simp)
    rw [abs_le]; constructor <;> linarith
  have hY : ∀ u ∈ [ay, b_y, cy], |u - dy| ≤ 35210 := by
    intro u hu
    have h1 := hy u (by simp only [List.mem_cons, List.not_mem_nil, or_false] at hu ⊢; tauto)
    have h2 := hy dy (by simp)
    rw [abs_le]; constructor <;> linarith
  have cr : ∀ {px py qx qy : ℤ}, px ∈ [ax, bx, cx] → py ∈ [ay, b_y, cy] → qx ∈ [ax, bx, cx] → qy ∈ [ay, b_y, cy] →
      |(px - dx) * (qy - dy) - (py - dy) * (qx - dx)| ≤ 35210 * 35210 := by
    intro px py qx qy a b c d
    have in' : ∀ {u : ℤ}, u ∈ [ax, bx, cx] → u ∈ [ax, bx, cx, dx] := fun h => by
      simp only [List.mem_cons, List.not_mem_nil, or_false] at h ⊢; tauto
    have in'' : ∀ {u : ℤ}, u ∈ [ay, b_y, cy] → u ∈ [ay, b_y, cy, dy] := fun h => by
      simp only [List.mem_cons, List.not_mem_nil, or_false] at h ⊢; tauto
    exact cross_box (hx _ (in' a)) (hy _ (in'' b)) (hx _ (in' c)) (hy _ (in'' d)) (hx dx (by simp)) (hy dy (by simp))
  have e : circleDet ax ay bx b_y cx cy dx dy =
      ((ax - dx) * (ax - dx) + (ay - dy) * (ay - dy)) * ((bx - dx) * (cy - dy) - (b_y - dy) * (cx - dx)) +
      ((bx - dx) * (bx - dx) + (b_y - dy) * (b_y - dy)) * ((cx - dx) * (ay - dy) - (cy - dy) * (ax - dx)) +
      ((cx - dx) * (cx - dx) + (cy - dy) * (cy - dy)) * ((ax - dx) * (b_y - dy) - (ay - dy) * (bx - dx)) := by
    unfold circleDet; ring
  rw [e]
  have bc := @cr bx b_y cx cy (by simp) (by simp) (by simp) (by simp)
  have ca := @cr cx cy ax ay (by simp) (by simp) (by simp) (by simp)
  have ab := @cr ax ay bx b_y (by simp) (by simp) (by simp) (by simp)
  have a1 := hX ax (by simp)
  have a2 := hY ay (by simp)
  have b1 := hX bx (by simp)
  have b2 := hY b_y (by simp)
  have c1 := hX cx (by simp)
  have c2 := hY cy (by simp)
  generalize ax - dx = p1 at *
  generalize ay - dy = p2 at *
  generalize bx - dx = q1 at *
  generalize b_y - dy = q2 at *
  generalize cx - dx = r1 at *
  generalize cy - dy = r2 at *
  have pr : ∀ {u v : ℤ}, |u| ≤ 35210 → |v| ≤ 35210 → |u * v| ≤ 35210 * 35210 := fun hu hv => by
    rw [abs_mul]; exact mul_le_mul hu hv (abs_nonneg _) (by norm_num)
  have sq : ∀ {u v : ℤ}, |u| ≤ 35210 → |v| ≤ 35210 → |u * u + v * v| ≤ 2 * (35210 * 35210) := fun hu hv => by
    exact le_trans (abs_add_le _ _) (by have := pr hu hu; have := pr hv hv; linarith)
  have ok : ∀ {u : ℤ}, |u| ≤ 6 * (35210 * 35210) * (35210 * 35210) → i64 u = some u := fun h => by
    apply i64_eq; unfold Is64; rw [abs_le] at h; constructor <;> [linarith [h.1]; linarith [h.2]]
  have tri : ∀ {u v : ℤ}, |u| ≤ 2 * (35210 * 35210) → |v| ≤ 35210 * 35210 → |u * v| ≤ 2 * (35210 * 35210) * (35210 * 35210) := fun hu hv => by
    rw [abs_mul]; exact mul_le_mul hu hv (abs_nonneg _) (by norm_num)
  have le : ∀ {u t : ℤ}, |u| ≤ t → t ≤ 6 * (35210 * 35210) * (35210 * 35210) → i64 u = some u := fun h h' => ok (le_trans h h')
  have t1 := tri (sq a1 a2) bc
  have t2 := tri (sq b1 b2) ca
  have t3 := tri (sq c1 c2) ab
  have s1 := abs_add_le ((p1 * p1 + p2 * p2) * (q1 * r2 - q2 * r1)) ((q1 * q1 + q2 * q2) * (r1 * p2 - r2 * p1))
  have s2 := abs_add_le ((p1 * p1 + p2 * p2) * (q1 * r2 - q2 * r1) + (q1 * q1 + q2 * q2) * (r1 * p2 - r2 * p1))
    ((r1 * r1 + r2 * r2) * (p1 * q2 - p2 * q1))
  unfold incircle64
  simp only [Option.bind_eq_bind, le (pr a1 a1) (by norm_num), le (pr a2 a2) (by norm_num), le (pr b1 b1) (by norm_num),
    le (pr b2 b2) (by norm_num), le (pr c1 c1) (by norm_num), le (pr c2 c2) (by norm_num), Option.bind_some,
    le (sq a1 a2) (by norm_num), le (sq b1 b2) (by norm_num), le (sq c1 c2) (by norm_num),
    le (pr b1 c2) (by norm_num), le (pr b2 c1) (by norm_num), le (pr c1 a2) (by norm_num), le (pr c2 a1) (by norm_num),
    le (pr a1 b2) (by norm_num), le (pr a2 b1) (by norm_num), le bc (by norm_num), le ca (by norm_num), le ab (by norm_num),
    le t1 (by norm_num), le t2 (by norm_num), le t3 (by norm_num)]
  rw [ok (by linarith), Option.bind_some, ok (by linarith)]

example : incircle64 (100 - 0) (3 - 0) (-7 - 0) (35000 - 0) (0 - 0) (-20 - 0) = some (circleDet 100 3 (-7) 35000 0 (-20) 0 0) :=
  C74_small_partial (ax := 100) (ay := 3) (bx := -7) (b_y := 35000) (cx := 0) (cy := -20) (dx := 0) (dy := 0) (x0 := -7) (y0 := -20)
    (by decide) (by decide)
example : Is16 (-32768) ∧ Is16 32767 := by unfold Is16; decide

/-! ### C75 -/

/-- C75.  What `locate` returns: 0 only for points that are not in the (half-open) square, and otherwise a face in use that claims the point. -/
theorem C75_locate (h : Reach limit m) {w px py : Int} (hw : 0 < w) {k hint r : Nat} (run : locate k m w px py hint = some r) :
    (r = 0 ∧ ¬ InSquare w ⟨px, py⟩) ∨
    (Used m (r / 4) ∧ r % 4 = 3 ∧ inTriangle ⟨px, py⟩ (m.pt w (m.corner (r / 4) 0)) (m.pt w (m.corner (r / 4) 1)) (m.pt w (m.corner (r / 4) 2)) = some true) := by
  obtain ⟨I, R⟩ := reach_inv h
  rcases locate_spec I R hw run with e | ⟨h1, h2, h3⟩
  · exact Or.inl e
  · refine Or.inr ⟨h1, h2, ?_⟩
    unfold claims at h3
    rw [beq_iff_eq] at h3
    exact h3

/-- C75.  Exactly one face claims a point of the square and none any other point. -/
theorem C75_one_face (h : Reach limit m) {w : Int} (hw : 0 < w) {p : V2} (hf : ∀ v, v < m.size → Fits p (m.pt w v)) :
    (InSquare w p → ∃! f, Used m f ∧ inTriangle p (m.pt w (m.corner f 0)) (m.pt w (m.corner f 1)) (m.pt w (m.corner f 2)) = some true) ∧
    (¬ InSquare w p → ∀ f, Used m f → inTriangle p (m.pt w (m.corner f 0)) (m.pt w (m.corner f 1)) (m.pt w (m.corner f 2)) = some false) := by
  obtain ⟨I, R⟩ := reach_inv h
  have c := tris_count I R hw hf
  have cl : ∀ f, claims p (m.tri w f) = true ↔
      inTriangle p (m.pt w (m.corner f 0)) (m.pt w (m.corner f 1)) (m.pt w (m.corner f 2)) = some true := by
    intro f; unfold claims; rw [beq_iff_eq]; rfl
  constructor
  · intro hs
    rw [if_pos hs] at c
    have : 0 < (m.tris w).countP (claims p) := by omega
    rw [List.countP_pos_iff] at this
    obtain ⟨T, hT, hc⟩ := this
    obtain ⟨f, hF, rfl⟩ := mem_tris.1 hT
    refine ⟨f, ⟨hF, (cl f).1 hc⟩, ?_⟩
    rintro g ⟨hG, hc'⟩
    exact face_unique I R hw hf hG hF ((cl g).2 hc') hc
  · intro hs f u
    rw [if_neg hs] at c
    rw [List.countP_eq_zero] at c
    have n := c _ (mem_tris.2 ⟨f, u, rfl⟩)
    rw [cl] at n
    obtain ⟨r, hr⟩ := inTriangle_fits (hf _ ((C71_linked h).vertex f 0 u)) (hf _ ((C71_linked h).vertex f 1 u)) (hf _ ((C71_linked h).vertex f 2 u))
    cases r
    · exact hr
    · exact absurd hr n

/-- C75.  No 32-bit difference overflows for a point of the square when the scale is at most `2 ^ 15`. -/
theorem C75_fits (h : Reach limit m) {w : Int} (hw : 0 < w) (hw' : w ≤ 32768) {p : V2} (hp : InSquare w p) :
    ∀ v, v < m.size → Fits p (m.pt w v) ∧ m.at32 w p.x p.y v = some ⟨m.x v * w - p.x, m.y v * w - p.y⟩ := by
  obtain ⟨I, -⟩ := reach_inv h
  intro v hv
  obtain ⟨hx, hy⟩ := I.rng v hv
  obtain ⟨⟨p1, p2⟩, p3, p4⟩ := hp
  unfold Is16 at hx hy
  have x1 : -32768 * w ≤ m.x v * w := mul_le_mul_of_nonneg_right hx.1 hw.le
  have x2 : m.x v * w ≤ 32767 * w := mul_le_mul_of_nonneg_right (by omega) hw.le
  have y1 : -32768 * w ≤ m.y v * w := mul_le_mul_of_nonneg_right hy.1 hw.le
  have y2 : m.y v * w ≤ 32767 * w := mul_le_mul_of_nonneg_right (by omega) hw.le
  have f : Fits p (m.pt w v) := by
    unfold Fits Mesh.pt Is32; simp only; norm_num; omega
  refine ⟨f, ?_⟩
  unfold Mesh.at32
  rw [i32_iff.2 ⟨rfl, (by unfold Is32; norm_num; omega : Is32 (m.x v * w))⟩, i32_iff.2 ⟨rfl, (by unfold Is32; norm_num; omega : Is32 (m.y v * w))⟩]
  simp only [Option.bind_eq_bind, Option.bind_some]
  unfold Fits Mesh.pt at f
  rw [i32_iff.2 ⟨rfl, f.1⟩, i32_iff.2 ⟨rfl, f.2⟩]
  rfl

/-- a coordinate of a point inside a triangle is between those of the vertices -/
theorem between {s1 s2 s3 a b c x lo hi : ℚ} (h1 : s1 < 0) (h2 : s2 < 0) (h3 : s3 < 0) (ha : lo ≤ a ∧ a ≤ hi) (hb : lo ≤ b ∧ b ≤ hi)
    (hc : lo ≤ c ∧ c ≤ hi) (e : s1 * c + s2 * a + s3 * b = (s1 + s2 + s3) * x) : lo ≤ x ∧ x ≤ hi := by
  have hs : s1 + s2 + s3 < 0 := by linarith
  constructor
  · by_contra hx
    push Not at hx
    nlinarith [mul_nonneg_of_nonpos_of_nonpos h1.le (by linarith [hc.1] : lo - c ≤ 0), mul_nonneg_of_nonpos_of_nonpos h2.le (by linarith [ha.1] : lo - a ≤ 0),
      mul_nonneg_of_nonpos_of_nonpos h3.le (by linarith [hb.1] : lo - b ≤ 0), mul_pos_of_neg_of_neg hs (by linarith : x - lo < 0)]
  · by_contra hx
    push Not at hx
    nlinarith [mul_nonneg_of_nonpos_of_nonpos h1.le (by linarith [hc.2] : c - hi ≤ 0), mul_nonneg_of_nonpos_of_nonpos h2.le (by linarith [ha.2] : a - hi ≤ 0),
      mul_nonneg_of_nonpos_of_nonpos h3.le (by linarith [hb.2] : b - hi ≤ 0), mul_pos_of_neg_of_neg hs (by linarith : hi - x < 0)]

/-- C75.  A face claims no point outside of the square. -/
theorem C75_in_square (h : Reach limit m) {w : Int} (hw : 0 < w) {p : V2} {f} (u : Used m f)
    (c : inTriangle p (m.pt w (m.corner f 0)) (m.pt w (m.corner f 1)) (m.pt w (m.corner f 2)) = some true) : InSquare w p := by
  have V := (C71_linked h).vertex
  have X := (C72_clockwise h).2
  have bx : ∀ v, v < m.size → ((-32768 * w : ℤ) : ℚ) ≤ ((m.pt w v).x : ℚ) ∧ ((m.pt w v).x : ℚ) ≤ ((32767 * w : ℤ) : ℚ) := fun v hv => by
    have := X v hv
    unfold Mesh.pt
    exact ⟨by exact_mod_cast mul_le_mul_of_nonneg_right this.1.1 hw.le, by exact_mod_cast mul_le_mul_of_nonneg_right this.1.2 hw.le⟩
  have b_y : ∀ v, v < m.size → ((-32768 * w : ℤ) : ℚ) ≤ ((m.pt w v).y : ℚ) ∧ ((m.pt w v).y : ℚ) ≤ ((32767 * w : ℤ) : ℚ) := fun v hv => by
    have := X v hv
    unfold Mesh.pt
    exact ⟨by exact_mod_cast mul_le_mul_of_nonneg_right this.2.1 hw.le, by exact_mod_cast mul_le_mul_of_nonneg_right this.2.2 hw.le⟩
  have x0 := bx _ (V f 0 u)
  have x1 := bx _ (V f 1 u)
  have x2 := bx _ (V f 2 u)
  have y0 := b_y _ (V f 0 u)
  have y1 := b_y _ (V f 1 u)
  have y2 := b_y _ (V f 2 u)
  obtain ⟨ε, δ, hE, he, he1, hd, hd1⟩ := ((C44_displaced_interior p ⟨m.pt w (m.corner f 0), m.pt w (m.corner f 1), m.pt w (m.corner f 2)⟩ _ c).and
    (Eventually.small 1 one_pos)).exists
  have hi := hE.1 rfl
  unfold Tri.Interior Tri.edges at hi
  simp only [List.mem_cons, List.not_mem_nil, or_false, forall_eq_or_imp, forall_eq] at hi
  obtain ⟨s1, s2, s3⟩ := hi
  have ex := between s1 s2 s3 x0 x1 x2 (x := p.x - ε) (by unfold side crossQ; ring)
  have ey := between s1 s2 s3 y0 y1 y2 (x := p.y - δ) (by unfold side crossQ; ring)
  have lo : ∀ {n v : ℤ} {ε : ℚ}, 0 < ε → (n : ℚ) ≤ v - ε → n < v := fun h0 h => by
    have : ((_ : ℤ) : ℚ) < ((_ : ℤ) : ℚ) := lt_of_le_of_lt h (sub_lt_self _ h0)
    exact_mod_cast this
  have up : ∀ {n v : ℤ} {ε : ℚ}, ε < 1 → (v : ℚ) - ε ≤ n → v ≤ n := fun {n v ε} h0 h => by
    have : (v : ℚ) < n + 1 := by linarith
    have : v < n + 1 := by exact_mod_cast this
    omega
  exact ⟨⟨lo he ex.1, up he1 ex.2⟩, lo hd ey.1, up hd1 ey.2⟩

/-- C75.  The face is the only one. -/
theorem C75_unique (h : Reach limit m) {w : Int} (hw : 0 < w) (hw' : w ≤ 32768) {p : V2} {f g} (u : Used m f) (u' : Used m g)
    (c : inTriangle p (m.pt w (m.corner f 0)) (m.pt w (m.corner f 1)) (m.pt w (m.corner f 2)) = some true)
    (c' : inTriangle p (m.pt w (m.corner g 0)) (m.pt w (m.corner g 1)) (m.pt w (m.corner g 2)) = some true) : f = g := by
  have hs := C75_in_square h hw u c
  exact ((C75_one_face h hw fun v hv => (C75_fits h hw hw' hs v hv).1).1 hs).unique ⟨u, c⟩ ⟨u', c'⟩

example : locate 30 sample 256 1000 (-2000) 0 = some 43 ∧ InSquare 256 ⟨1000, -2000⟩ := by decide +kernel
example : locate 30 sample 256 9000000 0 0 = some 0 := by decide +kernel
example : ∃! f, Used sample f ∧ inTriangle ⟨1000, -2000⟩ (sample.pt 256 (sample.corner f 0)) (sample.pt 256 (sample.corner f 1)) (sample.pt 256 (sample.corner f 2)) = some true :=
  (C75_one_face sample_reach (by decide) fun v hv => (C75_fits sample_reach (by decide) (by decide) (by decide) v hv).1).1 (by decide)

/-! ### C76 -/

/-- C76.  `fill` ends within its 256 stack entries, and paints exactly the region. -/
theorem C76_fill (h : Reach limit m) {f info} (u : Used m f) (hn : m.fi f ≠ info) :
    ∃ K, ∀ k, K ≤ k → ∃ m', fill k m (4 * f) info = some m' ∧ (∀ g, Region m info f g → m'.fi g = info) ∧
      (∀ g, ¬ Region m info f g → m'.fi g = m.fi g) ∧ m' = { m with fi := m'.fi } := by
  obtain ⟨I, -⟩ := reach_inv h
  have P0 := paint_set (info := info) m f
  have I1 := P0.inv I
  have f1 : (m.setFi f info).fi f = info := upd_eq rfl
  have f2 : ∀ g, g ≠ f → (m.setFi f info).fi g = m.fi g := fun g hg => upd_ne hg
  obtain ⟨m', run, P⟩ := (fill_total info (2 * ((m.setFi f info).left info + 0) + 2)).1 (m.setFi f info) f [] I1 u (fun g hg => by simp at hg) (by simp) (by simp)
  refine ⟨2 * ((m.setFi f info).left info + 0) + 2, fun k hk => ⟨m', ?_, ?_, ?_, ?_⟩⟩
  · unfold fill
    have h6 : f ≠ 0 := by unfold Used at u; omega
    simp only [show 4 * f / 4 = f by omega, if_neg h6, if_neg hn]
    exact fillEx_mono hk run
  · have key : ∀ g, Region m info f g → m'.fi g = info ∧ Done info m' g := by
      intro g hg
      induction hg with
      | here => exact ⟨P.paint.mono f1, P.here⟩
      | @next g j _ hj free clear ih =>
        have e1 : m'.fi (m.e (4 * g + j) / 4) = info := by
          have := ih.2 (4 * g + j) (by omega) (by omega) (by rw [P.paint.c]; exact free)
          rw [P.paint.e] at this
          exact this
        refine ⟨e1, ?_⟩
        by_cases hf : m.e (4 * g + j) / 4 = f
        · rw [hf]; exact P.here
        · exact P.new _ (by rw [e1, f2 _ hf]; exact Ne.symm clear)
    exact fun g hg => (key g hg).1
  · intro g hg
    have hX : Closed info (m.setFi f info) (Region m info f) := by
      intro j h1 h2 h3 h4
      have e : 4 * (j / 4) + j % 4 = j := by omega
      have hne : m.e j / 4 ≠ f := fun e' => h4 (by show (m.setFi f info).fi (m.e j / 4) = info; rw [e']; exact f1)
      have := Region.next (j := j % 4) h1 (by omega) (by rw [e]; exact h3) (by
        rw [e, ← f2 _ hne]; exact h4)
      rw [e] at this
      exact this
    have W := (fill_within info (Region m info f) _).1 _ _ _ _ hX .here (fun g hg => by simp at hg) run
    have hne : g ≠ f := fun e => hg (by rw [e]; exact .here)
    by_contra hc
    exact hg (W.new g (by rw [f2 g hne]; exact hc))
  · exact (P0.trans P.paint).same

/-- C76.  Filling a face that already has the info changes nothing. -/
theorem C76_again {f info} (k : Nat) (hi : m.fi f = info) : fill k m (4 * f) info = some m := by
  unfold fill
  simp only [show 4 * f / 4 = f by omega, hi, if_true]
  split <;> rfl

example : Used sample 6 ∧ sample.fi 6 ≠ 5 ∧ ((fill 40 sample 24 5).map fun m => (List.range 12).map m.fi) =
    some [0, 0, 0, 0, 0, 0, 5, 5, 5, 5, 5, 5] := by
  unfold Used; decide +kernel

end CE.Cdt
