import Verif.Proof.CdtTile
/-! What `locate` finds, and the empty mesh. -/
namespace CE.Cdt

open CE.Vec

variable {m m' : Mesh}

theorem at32_eq {w px py : Int} {v : Nat} {u : V2} (h : m.at32 w px py v = some u) :
    u = ⟨(m.pt w v).x - px, (m.pt w v).y - py⟩ ∧ Fits ⟨px, py⟩ (m.pt w v) := by
  unfold Mesh.at32 at h
  simp only [Option.bind_eq_bind, Option.bind_eq_some_iff, i32_iff] at h
  obtain ⟨_, ⟨rfl, -⟩, _, ⟨rfl, h1⟩, _, ⟨rfl, -⟩, _, ⟨rfl, h2⟩, h⟩ := h
  injection h with h
  subst h
  exact ⟨rfl, h1, h2⟩

theorem inside_flipping (h : Inv m) {w : Int} (hw : 0 < w) (px py : Int) : Flipping m (m.at32 w px py) inside := by
  intro i hi u v hu hv
  obtain ⟨rfl, f1⟩ := at32_eq hu
  obtain ⟨rfl, f2⟩ := at32_eq hv
  have hne : (⟨(m.pt w (m.p (nx i))).x - px, (m.pt w (m.p (nx i))).y - py⟩ : V2) ≠
      ⟨(m.pt w (m.p (pv i))).x - px, (m.pt w (m.p (pv i))).y - py⟩ := by
    intro e
    injection e with e1 e2
    unfold Mesh.pt at e1 e2
    simp only at e1 e2
    have hx : m.x (m.p (nx i)) = m.x (m.p (pv i)) := mul_right_cancel₀ (ne_of_gt hw) (by linarith)
    have hy : m.y (m.p (nx i)) = m.y (m.p (pv i)) := mul_right_cancel₀ (ne_of_gt hw) (by linarith)
    have := h.cw i hi
    unfold Mesh.cr at this
    rw [hx, hy] at this
    linarith
  obtain ⟨r, hr⟩ := C43_defined ⟨(m.pt w (m.p (nx i))).x - px, (m.pt w (m.p (nx i))).y - py⟩
    ⟨(m.pt w (m.p (pv i))).x - px, (m.pt w (m.p (pv i))).y - py⟩ f1.1 f1.2 f2.1 f2.2
  obtain ⟨s, hs⟩ := C43_defined ⟨(m.pt w (m.p (pv i))).x - px, (m.pt w (m.p (pv i))).y - py⟩
    ⟨(m.pt w (m.p (nx i))).x - px, (m.pt w (m.p (nx i))).y - py⟩ f2.1 f2.2 f1.1 f1.2
  have a := C43_antisymmetric _ _ hne _ _ hr hs
  rw [hr, hs, a]
  cases r <;> simp

/-- the three rotations of a triangle -/
theorem inTriangle_of {p a b c : V2} (ha : Fits p a) (hb : Fits p b) (hc : Fits p c)
    (h1 : inside ⟨a.x - p.x, a.y - p.y⟩ ⟨b.x - p.x, b.y - p.y⟩ = some true)
    (h2 : inside ⟨b.x - p.x, b.y - p.y⟩ ⟨c.x - p.x, c.y - p.y⟩ = some true)
    (h3 : inside ⟨c.x - p.x, c.y - p.y⟩ ⟨a.x - p.x, a.y - p.y⟩ = some true) : inTriangle p a b c = some true := by
  unfold inTriangle
  rw [i32_iff.2 ⟨rfl, ha.1⟩, i32_iff.2 ⟨rfl, ha.2⟩, i32_iff.2 ⟨rfl, hb.1⟩, i32_iff.2 ⟨rfl, hb.2⟩, i32_iff.2 ⟨rfl, hc.1⟩,
    i32_iff.2 ⟨rfl, hc.2⟩]
  simp only [Option.bind_eq_bind, Option.bind_some, h1, h2, h3]
  rfl

theorem Found.claims {w px py : Int} {r : Nat} {p0 p1 p2 : V2} (F : Found m (m.at32 w px py) inside r p0 p1 p2) :
    CE.Cdt.claims ⟨px, py⟩ (m.tri w (r / 4)) = true := by
  obtain ⟨rfl, f0⟩ := at32_eq F.a0
  obtain ⟨rfl, f1⟩ := at32_eq F.a1
  obtain ⟨rfl, f2⟩ := at32_eq F.a2
  have i0 := F.i0
  have i1 := F.i1
  have i2 := F.i2
  have hr := F.ie.2.2
  unfold CE.Cdt.claims Mesh.tri
  simp only
  have hc : r % 4 = 0 ∨ r % 4 = 1 ∨ r % 4 = 2 := by omega
  have key : ∀ a b c : Nat, inTriangle ⟨px, py⟩ (m.pt w (m.p a)) (m.pt w (m.p b)) (m.pt w (m.p c)) = some true →
      4 * (r / 4) = a → 4 * (r / 4) + 1 = b → 4 * (r / 4) + 2 = c →
      (inTriangle ⟨px, py⟩ (m.pt w (m.p (4 * (r / 4)))) (m.pt w (m.p (4 * (r / 4) + 1))) (m.pt w (m.p (4 * (r / 4) + 2))) == some true) = true := by
    rintro a b c h rfl rfl rfl; rw [h]; rfl
  rcases hc with hc | hc | hc
  · have e1 : nx r = r + 1 := by unfold nx; simp [hc]
    have e2 : pv r = r + 2 := by unfold pv; simp [hc]
    exact key _ _ _ (inTriangle_of f0 f1 f2 i2 i0 i1) (by omega) (by omega) (by omega)
  · have e1 : nx r = r + 1 := by unfold nx; simp [hc]
    have e2 : pv r = r - 1 := by unfold pv; simp [hc]
    exact key _ _ _ (inTriangle_of f2 f0 f1 i1 i2 i0) (by omega) (by omega) (by omega)
  · have e1 : nx r = r - 2 := by unfold nx; simp [hc]
    have e2 : pv r = r - 1 := by unfold pv; simp [hc]
    exact key _ _ _ (inTriangle_of f1 f2 f0 i0 i1 i2) (by omega) (by omega) (by omega)

/-- a point seen outside of a side is not in the square -/
theorem out_square (R : Rim m) {w : Int} (hw : 0 < w) {px py : Int} (ho : Out m (m.at32 w px py) inside) :
    ¬ InSquare w ⟨px, py⟩ := by
  obtain ⟨i, u, v, b, hu, hv, hi⟩ := ho
  obtain ⟨rfl, -⟩ := at32_eq hu
  obtain ⟨rfl, -⟩ := at32_eq hv
  obtain ⟨ε, δ, hE, he, he1, hd, hd1⟩ := ((inside_side ⟨px, py⟩ (m.pt w (m.p (nx i))) (m.pt w (m.p (pv i))) false hi).and
    (Eventually.small 1 one_pos)).exists
  simp only [Bool.false_eq_true, false_iff] at hE
  obtain ⟨s1, s2, s3, s4, -⟩ := square_sides hw ((px : ℚ) - ε) ((py : ℚ) - δ)
  have hm := R.mem i b
  unfold sides Mesh.ends at hm
  simp only [List.mem_cons, List.not_mem_nil, or_false, Prod.mk.injEq] at hm
  rintro ⟨⟨q1, q2⟩, q3, q4⟩
  simp only at q1 q2 q3 q4
  have q1' : ((-32768 * w : ℤ) : ℚ) + 1 ≤ px := by exact_mod_cast q1
  have q3' : ((-32768 * w : ℤ) : ℚ) + 1 ≤ py := by exact_mod_cast q3
  have q2' : (px : ℚ) ≤ ((32767 * w : ℤ) : ℚ) := by exact_mod_cast q2
  have q4' : (py : ℚ) ≤ ((32767 * w : ℤ) : ℚ) := by exact_mod_cast q4
  unfold Mesh.pt at hE
  rcases hm with ⟨e1, e2⟩ | ⟨e1, e2⟩ | ⟨e1, e2⟩ | ⟨e1, e2⟩
  · rw [e1, e2, R.xy0.1, R.xy0.2, R.xy1.1, R.xy1.2] at hE
    exact hE (s2.2 (by linarith))
  · rw [e1, e2, R.xy0.1, R.xy0.2, R.xy2.1, R.xy2.2] at hE
    exact hE (s1.2 (by linarith))
  · rw [e1, e2, R.xy2.1, R.xy2.2, R.xy3.1, R.xy3.2] at hE
    exact hE (s4.2 (by linarith))
  · rw [e1, e2, R.xy3.1, R.xy3.2, R.xy1.1, R.xy1.2] at hE
    exact hE (s3.2 (by linarith))

theorem locate_spec (h : Inv m) (R : Rim m) {w : Int} (hw : 0 < w) {k : Nat} {px py : Int} {hint r : Nat}
    (hr : locate k m w px py hint = some r) :
    (r = 0 ∧ ¬ InSquare w ⟨px, py⟩) ∨ (IsF m.size (r / 4) ∧ r % 4 = 3 ∧ claims ⟨px, py⟩ (m.tri w (r / 4)) = true) := by
  unfold locate at hr
  simp only [Option.bind_eq_bind, Option.bind_eq_some_iff] at hr
  obtain ⟨q, hq, hr⟩ := hr
  have hs := h.sz
  have he : IsE m.size (if hint / 4 * 4 < 24 ∨ hint / 4 * 4 > m.size * 8 - 4 then m.size * 8 - 4 else hint / 4 * 4) := by
    unfold IsE; split <;> omega
  have he4 : (if hint / 4 * 4 < 24 ∨ hint / 4 * 4 > m.size * 8 - 4 then m.size * 8 - 4 else hint / 4 * 4) % 4 = 0 := by
    split <;> omega
  have hr' : (if q = 0 then 0 else q ||| 3) = r := by injection hr
  rcases walkFrom_spec h (inside_flipping h hw px py) false he he4 hq with ⟨e, ho⟩ | ⟨p0, p1, p2, F⟩
  · rw [if_pos e] at hr'
    exact Or.inl ⟨hr'.symm, out_square R hw ho⟩
  · have ie := F.ie
    have : q ≠ 0 := by unfold IsE at ie; omega
    rw [if_neg this] at hr'
    have o : q ||| 3 = 4 * (q / 4) + 3 := by
      have : q ||| 3 = (q / 4 * 4) ||| 3 := by
        apply Nat.eq_of_testBit_eq
        intro j
        rw [show q / 4 * 4 = (q >>> 2) <<< 2 by rw [Nat.shiftRight_eq_div_pow, Nat.shiftLeft_eq]]
        rw [Nat.testBit_or, Nat.testBit_or, Nat.testBit_shiftLeft, Nat.testBit_shiftRight]
        rcases j with _ | _ | j
        · simp
        · simp; exact fun _ => by decide
        · simp [show 2 + j = j + 1 + 1 by omega]
      rw [this, show q / 4 * 4 = (q / 4) <<< 2 by rw [Nat.shiftLeft_eq], ← Nat.shiftLeft_add_eq_or_of_lt (by omega), Nat.shiftLeft_eq]
      omega
    rw [o] at hr'
    have hd : r / 4 = q / 4 := by omega
    refine Or.inr ⟨?_, by omega, ?_⟩
    · unfold IsE at ie; unfold IsF; omega
    · rw [hd]; exact F.claims

theorem reset_isE {i : Nat} (h : IsE 4 i) : i = 24 ∨ i = 25 ∨ i = 26 ∨ i = 28 ∨ i = 29 ∨ i = 30 := by
  unfold IsE at h; omega

theorem reset_inv (m : Mesh) : Inv (reset m) := by
  have cases : ∀ {P : Nat → Prop}, P 24 → P 25 → P 26 → P 28 → P 29 → P 30 → ∀ i, IsE (reset m).size i → P i := by
    intro P a b c d e f i hi
    rcases reset_isE hi with rfl | rfl | rfl | rfl | rfl | rfl <;> assumption
  refine ⟨le_refl 4, ?_, ?_, ?_, ?_, ?_, ?_, ?_⟩
  · intro v hv
    have : v = 0 ∨ v = 1 ∨ v = 2 ∨ v = 3 := by have : v < 4 := hv; omega
    rcases this with rfl | rfl | rfl | rfl <;> simp [reset, Is16]
  · intro i hi h3
    simp [reset, hi, h3]
  · apply cases <;> simp [reset]
  · apply cases <;> simp [reset]
  · apply cases <;> simp [reset]
  · apply cases <;> simp [reset, IsE, nx, pv]
  · apply cases <;> simp [reset, nx, pv, Mesh.cr]

theorem reset_rim (m : Mesh) : Rim (reset m) := by
  have b : ∀ i, Bnd (reset m) i ↔ i = 25 ∨ i = 26 ∨ i = 29 ∨ i = 30 := by
    intro i
    unfold Bnd
    constructor
    · rintro ⟨h, h0⟩
      rcases reset_isE h with rfl | rfl | rfl | rfl | rfl | rfl <;> simp [reset] at h0 ⊢
    · rintro (rfl | rfl | rfl | rfl) <;> simp [reset, IsE]
  have e25 : (reset m).ends 25 = (1, 0) := by simp [Mesh.ends, reset, nx, pv]
  have e26 : (reset m).ends 26 = (0, 2) := by simp [Mesh.ends, reset, nx, pv]
  have e29 : (reset m).ends 29 = (2, 3) := by simp [Mesh.ends, reset, nx, pv]
  have e30 : (reset m).ends 30 = (3, 1) := by simp [Mesh.ends, reset, nx, pv]
  refine ⟨?_, ?_, ?_, ?_, ?_, ?_⟩
  · intro i hi
    rcases (b i).1 hi with rfl | rfl | rfl | rfl
    · rw [e25]; decide
    · rw [e26]; decide
    · rw [e29]; decide
    · rw [e30]; decide
  · intro s hs
    unfold sides at hs
    simp only [List.mem_cons, List.not_mem_nil, or_false] at hs
    rcases hs with rfl | rfl | rfl | rfl
    · refine ⟨25, (b _).2 (by simp), e25, fun j hj h => ?_⟩
      rcases (b j).1 hj with rfl | rfl | rfl | rfl
      · rfl
      · rw [e26] at h; simp at h
      · rw [e29] at h; simp at h
      · rw [e30] at h; simp at h
    · refine ⟨26, (b _).2 (by simp), e26, fun j hj h => ?_⟩
      rcases (b j).1 hj with rfl | rfl | rfl | rfl
      · rw [e25] at h; simp at h
      · rfl
      · rw [e29] at h; simp at h
      · rw [e30] at h; simp at h
    · refine ⟨29, (b _).2 (by simp), e29, fun j hj h => ?_⟩
      rcases (b j).1 hj with rfl | rfl | rfl | rfl
      · rw [e25] at h; simp at h
      · rw [e26] at h; simp at h
      · rfl
      · rw [e30] at h; simp at h
    · refine ⟨30, (b _).2 (by simp), e30, fun j hj h => ?_⟩
      rcases (b j).1 hj with rfl | rfl | rfl | rfl
      · rw [e25] at h; simp at h
      · rw [e26] at h; simp at h
      · rw [e29] at h; simp at h
      · rfl
  all_goals simp [reset]

end CE.Cdt
