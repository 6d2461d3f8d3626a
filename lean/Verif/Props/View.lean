import Verif.Spec.CdtView
import Verif.Proof.CdtView
import Verif.Props.Fence
/-! C84, C85, C86: enumeration, packed storage, user coordinates. -/
namespace CE.Cdt

open CE.Vec

variable {m m' : Mesh} {limit : Nat}

/-! ### C84 -/

theorem edgeNode_iff {n} : EdgeNode m n ↔ IsE m.size n := by
  unfold EdgeNode Used IsE
  constructor
  · rintro ⟨f, j, u, hj, rfl⟩; omega
  · intro h; exact ⟨n / 4, n % 4, by omega, by omega, by omega⟩

theorem edgeList_eq (h : Inv m) {k} (hk : 8 * m.size ≤ k) :
    m.edgeList k = some ((List.range' 24 (8 * m.size - 24)).filter fun n => n % 4 ≠ 3) := by
  have := h.sz
  have e : m.viewEnd = 4 * (2 * m.size) := by unfold Mesh.viewEnd; rw [if_neg (by omega)]; ring
  unfold Mesh.edgeList viewBegin
  rw [e]
  exact visit_edges (2 * m.size) (8 * m.size - 24) 24 (by omega) (by decide) (by omega) k (by omega)

/-- C84.  `edges()` visits every edge of every face in use once, in the order of the nodes, and nothing else. -/
theorem C84_edges (h : Reach limit m) {k} (hk : 8 * m.size ≤ k) :
    ∃ l, m.edgeList k = some l ∧ l.Nodup ∧ l.Pairwise (· < ·) ∧ (∀ n, n ∈ l ↔ EdgeNode m n) ∧ l.length = 3 * (2 * m.size - 6) := by
  obtain ⟨I, -⟩ := reach_inv h
  refine ⟨_, edgeList_eq I hk, (List.nodup_range' (h := by decide)).filter _, (List.pairwise_lt_range' (pos := by decide)).filter _, ?_, ?_⟩
  · intro n
    rw [edgeNode_iff]
    unfold IsE
    simp only [List.mem_filter, List.mem_range'_1, ne_eq, decide_not, Bool.not_eq_eq_eq_not, Bool.not_true, decide_eq_false_iff_not]
    omega
  · have := es_filter_card (m := m) (fun _ => true)
    simp only [List.filter_true, Finset.filter_true] at this
    rw [this]; exact es_card'

/-- C84.  `faces()` visits every face in use once and nothing else. -/
theorem C84_faces (h : Reach limit m) {k} (hk : 2 * m.size ≤ k) :
    ∃ l, m.faceList k = some l ∧ l.Nodup ∧ l.Pairwise (· < ·) ∧ (∀ n, n ∈ l ↔ ∃ f, Used m f ∧ n = 4 * f) ∧ l.length = 2 * m.size - 6 := by
  have := (reach_inv h).1.sz
  have e : m.viewEnd = 4 * (2 * m.size) := by unfold Mesh.viewEnd; rw [if_neg (by omega)]; ring
  have e' := visit_faces (2 * m.size) (2 * m.size - 6) 6 (by omega) k (by omega)
  unfold Mesh.faceList viewBegin
  rw [e]
  refine ⟨_, e', ?_, ?_, ?_, by simp⟩
  · exact (List.nodup_range' (h := by decide)).map fun a b (h : 4 * a = 4 * b) => by omega
  · refine List.pairwise_map.2 ((List.pairwise_lt_range' (pos := by decide)).imp ?_)
    intro a b h; show 4 * a < 4 * b; omega
  · intro n
    unfold Used
    simp only [List.mem_map, List.mem_range'_1]
    constructor
    · rintro ⟨f, hf, rfl⟩; exact ⟨f, by omega, rfl⟩
    · rintro ⟨f, hf, rfl⟩; exact ⟨f, by omega, rfl⟩

/-- C84.  Before the first `reset` (with `size` 0) there is nothing to visit. -/
theorem C84_empty (hs : m.size < 4) (k : Nat) : m.edgeList (k + 1) = some [] ∧ m.faceList (k + 1) = some [] := by
  unfold Mesh.edgeList Mesh.faceList Mesh.viewEnd viewBegin
  rw [if_pos hs]
  exact ⟨rfl, rfl⟩

theorem pow_le_int {Q : Nat} (hQ : Q ≤ 16) : (1 : Int) ≤ 2 ^ Q ∧ (2 : Int) ^ Q ≤ 65536 := by
  constructor
  · exact_mod_cast Nat.one_le_two_pow
  · calc (2 : Int) ^ Q ≤ 2 ^ 16 := by exact_mod_cast Nat.pow_le_pow_right (by decide) hQ
      _ = 65536 := by norm_num

theorem world_eq (h : Inv m) {Q v} (hQ : Q ≤ 16) (hv : v < m.size) : m.world (2 ^ Q) v = some (m.scaled (2 ^ Q) v) := by
  obtain ⟨⟨x1, x2⟩, y1, y2⟩ := h.rng v hv
  obtain ⟨w1, w2⟩ := pow_le_int hQ
  unfold Mesh.world Mesh.scaled i32
  rw [if_pos (by constructor <;> nlinarith), if_pos (by constructor <;> nlinarith)]
  rfl

/-- C84.  The value of an edge: its ends in user coordinates, in the order of the face, and whether it is constrained. -/
theorem C84_edge_value (h : Reach limit m) {Q f j} (hQ : Q ≤ 16) (uf : Used m f) (hj : j < 3) :
    ∃ v, m.edgeAt (2 ^ Q) (4 * f + j) = some v ∧ v.u = m.scaled (2 ^ Q) (m.corner f (j + 1)) ∧ v.v = m.scaled (2 ^ Q) (m.corner f (j + 2)) ∧
      (v.constrained = true ↔ m.c (4 * f + j) ≠ 0) ∧
      m.vertA (2 ^ Q) (4 * f + j) = some v.u ∧ m.vertB (2 ^ Q) (4 * f + j) = some v.v ∧
      m.vertO (2 ^ Q) (4 * f + j) = some (m.scaled (2 ^ Q) (m.corner f j)) := by
  obtain ⟨I, -⟩ := reach_inv h
  have L := (C71_linked h).vertex
  have a := world_eq I hQ (L f (j + 1) uf)
  have b := world_eq I hQ (L f (j + 2) uf)
  have c := world_eq I hQ (L f j uf)
  rw [corner_nx m f hj] at a
  rw [corner_pv m f hj] at b
  rw [corner_at m f hj] at c
  refine ⟨⟨_, _, decide (m.e (4 * f + j) < 4 * f + j), decide (m.c (4 * f + j) ≠ 0)⟩, by unfold Mesh.edgeAt; rw [a, b]; rfl,
    by rw [corner_nx m f hj]; rfl, by rw [corner_pv m f hj]; rfl, by simp, a, b, ?_⟩
  rw [corner_at m f hj]; exact c

/-- C84.  The value of a face: its corners in user coordinates, clockwise by C71, the twins of its edges, which of them are
constrained, and its information. -/
theorem C84_face_value (h : Reach limit m) {Q f} (hQ : Q ≤ 16) (uf : Used m f) :
    ∃ v, m.faceAt (2 ^ Q) (4 * f) = some v ∧
      v.ps = (m.scaled (2 ^ Q) (m.corner f 0), m.scaled (2 ^ Q) (m.corner f 1), m.scaled (2 ^ Q) (m.corner f 2)) ∧
      v.es = (m.e (4 * f), m.e (4 * f + 1), m.e (4 * f + 2)) ∧
      (v.cs.1 = true ↔ m.c (4 * f) ≠ 0) ∧ (v.cs.2.1 = true ↔ m.c (4 * f + 1) ≠ 0) ∧ (v.cs.2.2 = true ↔ m.c (4 * f + 2) ≠ 0) ∧
      v.data = m.fi f := by
  obtain ⟨I, -⟩ := reach_inv h
  have L := (C71_linked h).vertex
  have a := world_eq I hQ (L f 0 uf)
  have b := world_eq I hQ (L f 1 uf)
  have c := world_eq I hQ (L f 2 uf)
  have e : 4 * f / 4 = f := by omega
  have a' : m.corner f 0 = m.p (4 * f) := rfl
  have b' : m.corner f 1 = m.p (4 * f + 1) := rfl
  have c' : m.corner f 2 = m.p (4 * f + 2) := rfl
  rw [a'] at a
  rw [b'] at b
  rw [c'] at c
  refine ⟨_, by unfold Mesh.faceAt; rw [e]; dsimp only; rw [a, b, c]; rfl, rfl, rfl, by simp, by simp, by simp, rfl⟩

/-- C84.  With a scale of 2^17 or more the first vertex does not fit. -/
theorem C84_scale_false (h : Reach limit m) {Q} (hQ : 17 ≤ Q) : m.world (2 ^ Q) 0 = none := by
  obtain ⟨-, R⟩ := reach_inv h
  have : (131072 : Int) ≤ 2 ^ Q := by
    calc (131072 : Int) = 2 ^ 17 := by norm_num
      _ ≤ 2 ^ Q := by exact_mod_cast Nat.pow_le_pow_right (by decide) hQ
  unfold Mesh.world i32
  rw [R.xy0.1, if_neg (by intro h; have := h.1; norm_num at this; linarith)]
  rfl

/-- C84.  Every edge of the triangulation is reported as primary once: among the visited edges with given ends there is exactly one
that is primary. -/
theorem C84_primary (h : Reach limit m) {Q f j} (hQ : Q ≤ 16) (uf : Used m f) (hj : j < 3) :
    ∃ n, (m.Between n (m.corner f (j + 1)) (m.corner f (j + 2)) ∧ ∃ v, m.edgeAt (2 ^ Q) n = some v ∧ v.primary = true) ∧
      ∀ n', m.Between n' (m.corner f (j + 1)) (m.corner f (j + 2)) → (∃ v, m.edgeAt (2 ^ Q) n' = some v ∧ v.primary = true) → n' = n := by
  obtain ⟨I, R⟩ := reach_inv h
  have val : ∀ {n}, IsE m.size n → ((∃ v, m.edgeAt (2 ^ Q) n = some v ∧ v.primary = true) ↔ m.e n < n) := by
    intro n hn
    obtain ⟨f, j, uf, hj, rfl⟩ := edgeNode_iff.2 hn
    obtain ⟨I, -⟩ := reach_inv h
    have a := world_eq I hQ (I.pl _ hn.nx)
    have b := world_eq I hQ (I.pl _ hn.pv)
    unfold Mesh.edgeAt
    rw [a, b]
    simp
  have btw : ∀ {n a b}, m.Between n a b ↔ IsE m.size n ∧ (m.ends n = (a, b) ∨ m.ends n = (b, a)) := by
    intro n a b
    unfold Mesh.Between Mesh.ends
    constructor
    · rintro ⟨f, j, u, hj, rfl, hv⟩
      rw [corner_nx m f hj, corner_pv m f hj] at hv
      refine ⟨u.isE hj, ?_⟩
      rw [Prod.mk.injEq, Prod.mk.injEq]; exact hv
    · rintro ⟨hn, hv⟩
      obtain ⟨f, j, u, hj, rfl⟩ := edgeNode_iff.2 hn
      refine ⟨f, j, u, hj, rfl, ?_⟩
      rw [Prod.mk.injEq, Prod.mk.injEq] at hv
      rw [corner_nx m f hj, corner_pv m f hj]; exact hv
  obtain ⟨i, hi⟩ : ∃ i, i = 4 * f + j := ⟨_, rfl⟩
  have hE : IsE m.size i := by rw [hi]; exact uf.isE hj
  have e1 : m.corner f (j + 1) = (m.ends i).1 := by rw [hi]; exact corner_nx m f hj
  have e2 : m.corner f (j + 2) = (m.ends i).2 := by rw [hi]; exact corner_pv m f hj
  rw [e1, e2]
  -- any edge between these ends is this one or its twin
  have only : ∀ n, m.Between n (m.ends i).1 (m.ends i).2 → n = i ∨ (m.e i ≠ 0 ∧ n = m.e i) := by
    intro n hn
    obtain ⟨hn, e | e⟩ := btw.1 hn
    · exact Or.inl (ends_inj I R hn hE e)
    · right
      have := ends_twin I R hE hn (by rw [e])
      exact ⟨by rw [this]; exact hn.pos, this.symm⟩
  by_cases hp : m.e i < i
  · refine ⟨i, ⟨btw.2 ⟨hE, Or.inl rfl⟩, (val hE).2 hp⟩, ?_⟩
    intro n hn hv
    rcases only n hn with e | ⟨h0, e⟩
    · exact e
    · exfalso
      have hnE := (btw.1 hn).1
      have := (val hnE).1 hv
      obtain ⟨-, t2, -⟩ := I.tw i hE h0
      rw [e, t2] at this
      omega
  · have h0 : m.e i ≠ 0 := by have := hE.pos; omega
    obtain ⟨t1, t2, t3, t4, t5⟩ := I.tw i hE h0
    have hne : m.e i ≠ i := fun e => by have := I.other hE h0; rw [e] at this; exact this rfl
    refine ⟨m.e i, ⟨btw.2 ⟨t1, Or.inr ?_⟩, (val t1).2 (by rw [t2]; omega)⟩, ?_⟩
    · unfold Mesh.ends
      rw [t4, t5]
    · intro n hn hv
      rcases only n hn with e | ⟨-, e⟩
      · exfalso
        have := (val (btw.1 hn).1).1 hv
        rw [e] at this; omega
      · exact e

/-- C84.  The number of edges visited that are primary. -/
theorem C84_count (h : Reach limit m) {k} (hk : 8 * m.size ≤ k) :
    ∃ l, m.edgeList k = some l ∧ (l.filter fun n => decide (m.e n < n)).length = 3 * m.size - 7 := by
  obtain ⟨I, R⟩ := reach_inv h
  refine ⟨_, edgeList_eq I hk, ?_⟩
  rw [es_filter_card]
  simp only [decide_eq_true_eq]
  exact prim_card I R

example : Reach (cLimit 100) sample ∧ Used sample 7 ∧ sample.edgeList 48 = some [24, 25, 26, 28, 29, 30, 32, 33, 34, 36, 37, 38, 40, 41, 42, 44, 45, 46] ∧
    sample.faceList 12 = some [24, 28, 32, 36, 40, 44] ∧ (sample.faceAt 1024 28).isSome = true ∧ (sample.edgeAt 1024 29).isSome = true := by
  exact ⟨sample_reach, (by unfold Used; decide +kernel : Used sample 7), by decide +kernel, by decide +kernel, by decide +kernel, by decide +kernel⟩

/-! ### C85 -/

theorem reach_size (h : Reach limit m) : m.size ≤ max 4 limit := by
  induction h with
  | reset m => exact le_max_left _ _
  | @point m m' k px py hint r h run ih =>
    obtain ⟨n, -, ins⟩ := insertPoint_at run
    rcases insertAt_size (reach_inv h).1 ins with e | ⟨e, e'⟩
    · rw [e]; exact ih
    · have := le_max_right 4 limit; omega
  | edge h run ih => exact (edges_size limit _).1 _ _ _ _ _ _ _ _ (reach_inv h).1 ih run
  | constrain h u hj run ih => rw [constrainEdge_size (reach_inv h).1 run]; exact ih
  | flip h u hj run ih => rw [(flip_flips (reach_inv h).1 (Or.inl (u.isE hj)) run).coords.1]; exact ih
  | tryFlip h u hj run ih => rw [tryFlip_size (reach_inv h).1 (u.isE hj) run]; exact ih
  | fill h u run ih => rw [(fill_paint run).size]; exact ih

/-- C85.  A mesh never has more vertices than the array has room for, and `reset` needs four. -/
theorem C85_size (h : Reach limit m) : 4 ≤ m.size ∧ m.size ≤ max 4 limit := ⟨(reach_inv h).1.sz, reach_size h⟩

/-- C85.  Every write of a field in the packed storage changes that field and no other one, although edges, faces and vertices
share their storage. -/
theorem C85_write {s : Store} (H : s.Holds m) :
    (∀ n v, n % 4 ≠ 3 → v < 8 → (s.setC n v).Holds (m.setC n v)) ∧
    (∀ n v, n % 4 ≠ 3 → v < 8192 → (s.setP n v).Holds (m.setP n v)) ∧
    (∀ n v, n % 4 ≠ 3 → v < 65536 → (s.setE n v).Holds (m.setE n v)) ∧
    (∀ f v, v < 65536 → (s.setFi f v).Holds (m.setFi f v)) ∧
    (∀ n v, -32768 ≤ v → v ≤ 32767 → (s.setX n v).Holds (m.setX n v)) ∧
    (∀ n v, -32768 ≤ v → v ≤ 32767 → (s.setY n v).Holds (m.setY n v)) := by
  obtain ⟨hc, hp, he, hfi, hx, hy⟩ := H
  unfold Store.c at hc
  unfold Store.p at hp
  unfold Store.e at he
  unfold Store.fi at hfi
  unfold Store.x i16 at hx
  unfold Store.y i16 at hy
  refine ⟨?_, ?_, ?_, ?_, ?_, ?_⟩
  · intro n v hn hv
    unfold Store.setC Mesh.setC
    constructor
    · intro n' hn'
      unfold Store.c upd
      dsimp only
      by_cases e : n' = n
      · rw [if_pos (by omega), if_pos e]; omega
      · rw [if_neg (by omega), if_neg e]; exact hc n' hn'
    · intro n' hn'
      unfold Store.p upd
      dsimp only
      by_cases e : n' = n
      · rw [if_pos (by omega), ← hp n' hn', e]; omega
      · rw [if_neg (by omega)]; exact hp n' hn'
    · intro n' hn'
      unfold Store.e upd
      dsimp only
      rw [if_neg (by omega)]; exact he n' hn'
    · intro f
      unfold Store.fi upd
      dsimp only
      rw [if_neg (by omega)]; exact hfi f
    · intro w
      unfold Store.x i16 upd
      dsimp only
      rw [if_neg (by omega)]; exact hx w
    · intro w
      unfold Store.y i16 upd
      dsimp only
      rw [if_neg (by omega)]; exact hy w
  · intro n v hn hv
    unfold Store.setP Mesh.setP
    constructor
    · intro n' hn'
      unfold Store.c upd
      dsimp only
      by_cases e : n' = n
      · rw [if_pos (by omega), ← hc n' hn', e]; omega
      · rw [if_neg (by omega)]; exact hc n' hn'
    · intro n' hn'
      unfold Store.p upd
      dsimp only
      by_cases e : n' = n
      · rw [if_pos (by omega), if_pos e]; omega
      · rw [if_neg (by omega), if_neg e]; exact hp n' hn'
    · intro n' hn'
      unfold Store.e upd
      dsimp only
      rw [if_neg (by omega)]; exact he n' hn'
    · intro f
      unfold Store.fi upd
      dsimp only
      rw [if_neg (by omega)]; exact hfi f
    · intro w
      unfold Store.x i16 upd
      dsimp only
      rw [if_neg (by omega)]; exact hx w
    · intro w
      unfold Store.y i16 upd
      dsimp only
      rw [if_neg (by omega)]; exact hy w
  · intro n v hn hv
    unfold Store.setE Mesh.setE
    constructor
    · intro n' hn'
      unfold Store.c upd
      dsimp only
      rw [if_neg (by omega)]; exact hc n' hn'
    · intro n' hn'
      unfold Store.p upd
      dsimp only
      rw [if_neg (by omega)]; exact hp n' hn'
    · intro n' hn'
      unfold Store.e upd
      dsimp only
      by_cases e : n' = n
      · rw [if_pos (by omega), if_pos e]; omega
      · rw [if_neg (by omega), if_neg e]; exact he n' hn'
    · intro f
      unfold Store.fi upd
      dsimp only
      rw [if_neg (by omega)]; exact hfi f
    · intro w
      unfold Store.x i16 upd
      dsimp only
      rw [if_neg (by omega)]; exact hx w
    · intro w
      unfold Store.y i16 upd
      dsimp only
      rw [if_neg (by omega)]; exact hy w
  · intro n v hv
    unfold Store.setFi Mesh.setFi
    constructor
    · intro n' hn'
      unfold Store.c upd
      dsimp only
      rw [if_neg (by omega)]; exact hc n' hn'
    · intro n' hn'
      unfold Store.p upd
      dsimp only
      rw [if_neg (by omega)]; exact hp n' hn'
    · intro n' hn'
      unfold Store.e upd
      dsimp only
      rw [if_neg (by omega)]; exact he n' hn'
    · intro f
      unfold Store.fi upd
      dsimp only
      by_cases e : f = n
      · rw [if_pos (by omega), if_pos e]; omega
      · rw [if_neg (by omega), if_neg e]; exact hfi f
    · intro w
      unfold Store.x i16 upd
      dsimp only
      rw [if_neg (by omega)]; exact hx w
    · intro w
      unfold Store.y i16 upd
      dsimp only
      rw [if_neg (by omega)]; exact hy w
  · intro n v h1 h2
    unfold Store.setX Mesh.setX
    constructor
    · intro n' hn'
      unfold Store.c upd
      dsimp only
      rw [if_neg (by omega)]; exact hc n' hn'
    · intro n' hn'
      unfold Store.p upd
      dsimp only
      rw [if_neg (by omega)]; exact hp n' hn'
    · intro n' hn'
      unfold Store.e upd
      dsimp only
      rw [if_neg (by omega)]; exact he n' hn'
    · intro f
      unfold Store.fi upd
      dsimp only
      rw [if_neg (by omega)]; exact hfi f
    · intro w
      unfold Store.x i16 upd
      dsimp only
      by_cases e : w = n
      · rw [if_pos (by omega), if_pos e]; omega
      · rw [if_neg (by omega), if_neg e]; exact hx w
    · intro w
      unfold Store.y i16 upd
      dsimp only
      rw [if_neg (by omega)]; exact hy w
  · intro n v h1 h2
    unfold Store.setY Mesh.setY
    constructor
    · intro n' hn'
      unfold Store.c upd
      dsimp only
      rw [if_neg (by omega)]; exact hc n' hn'
    · intro n' hn'
      unfold Store.p upd
      dsimp only
      rw [if_neg (by omega)]; exact hp n' hn'
    · intro n' hn'
      unfold Store.e upd
      dsimp only
      rw [if_neg (by omega)]; exact he n' hn'
    · intro f
      unfold Store.fi upd
      dsimp only
      rw [if_neg (by omega)]; exact hfi f
    · intro w
      unfold Store.x i16 upd
      dsimp only
      rw [if_neg (by omega)]; exact hx w
    · intro w
      unfold Store.y i16 upd
      dsimp only
      by_cases e : w = n
      · rw [if_pos (by omega), if_pos e]; omega
      · rw [if_neg (by omega), if_neg e]; exact hy w

/-- the words for a mesh -/
def pack (m : Mesh) : Store := fun i =>
  if i / 2 % 4 = 3 then
    if i % 2 = 0 then m.fi (i / 8) % 65536
    else if i % 16 = 7 then (m.x (i / 16) % 65536).toNat else (m.y (i / 16) % 65536).toNat
  else if i % 2 = 0 then m.c (i / 2) % 8 + m.p (i / 2) % 8192 * 8 else m.e (i / 2) % 65536

theorem fits_of_le (h : Reach limit m) (hl : limit ≤ 8192) (hfi : ∀ f, Used m f → m.fi f < 65536) :
    (pack m).Carries m ∧ (4 ≤ limit →
      (∀ f j, Used m f → j < 3 → 2 * (4 * f + j) + 1 < 16 * limit ∧ 8 * f + 7 < 16 * limit) ∧
      (∀ v, v < m.size → 16 * v + 15 < 16 * limit)) := by
  obtain ⟨I, -⟩ := reach_inv h
  have hs := reach_size h
  have hs' : m.size ≤ 8192 := hs.trans (by omega)
  refine ⟨⟨?_, ?_, ?_, ?_, ?_, ?_, ?_⟩, ?_⟩
  · intro i
    unfold pack
    split
    · split
      · omega
      split <;> omega
    · split <;> omega
  · intro f j u hj
    have := I.cl _ (u.isE hj)
    unfold Store.c pack
    rw [if_neg (by omega), if_pos (by omega), show 2 * (4 * f + j) / 2 = 4 * f + j by omega]
    omega
  · intro f j u hj
    have := I.pl _ (u.isE hj)
    unfold Store.p pack
    rw [if_neg (by omega), if_pos (by omega), show 2 * (4 * f + j) / 2 = 4 * f + j by omega]
    omega
  · intro f j u hj
    have : m.e (4 * f + j) < 65536 := by
      by_cases h0 : m.e (4 * f + j) = 0
      · omega
      · have := (I.tw _ (u.isE hj) h0).1; unfold IsE at this; omega
    unfold Store.e pack
    rw [if_neg (by omega), if_neg (by omega), show (2 * (4 * f + j) + 1) / 2 = 4 * f + j by omega]
    omega
  · intro f u
    have := hfi f u
    unfold Store.fi pack
    rw [if_pos (by omega), if_pos (by omega), show (8 * f + 6) / 8 = f by omega]
    omega
  · intro v hv
    have := (I.rng v hv).1
    unfold Is16 at this
    unfold Store.x pack i16
    rw [if_pos (by omega), if_neg (by omega), if_pos (by omega), show (16 * v + 7) / 16 = v by omega]
    omega
  · intro v hv
    have := (I.rng v hv).2
    unfold Is16 at this
    unfold Store.y pack i16
    rw [if_pos (by omega), if_neg (by omega), if_neg (by omega), show (16 * v + 15) / 16 = v by omega]
    omega
  · intro h4
    rw [max_eq_right h4] at hs
    unfold Used
    refine ⟨fun f j u hj => by omega, fun v hv => by omega⟩

/-- C85.  Whatever number of vertices `N` is asked for, every mesh that can be built fits into the storage of `c_limit`
vertices: 13 bits are enough for the number of a vertex and 16 for that of an edge.  No more than 8192 vertices are ever had, and
as many as asked for up to there. -/
theorem C85_fits {N : Nat} (h : Reach (cLimit N) m) (hfi : ∀ f, Used m f → m.fi f < 65536) :
    (pack m).Carries m ∧ (4 ≤ N →
      (∀ f j, Used m f → j < 3 → 2 * (4 * f + j) + 1 < 16 * cLimit N ∧ 8 * f + 7 < 16 * cLimit N) ∧
      (∀ v, v < m.size → 16 * v + 15 < 16 * cLimit N)) ∧ cLimit N = min N 8192 := by
  have hl : cLimit N ≤ 8192 := by unfold cLimit; split <;> omega
  have he : cLimit N = min N 8192 := by unfold cLimit; split <;> omega
  obtain ⟨a, b⟩ := fits_of_le h hl hfi
  exact ⟨a, fun hN => b (by omega), he⟩

/-- C85.  An array of fewer than four vertices is too small already for `reset`. -/
theorem C85_small_false (h : Reach limit m) (hl : limit < 4) : limit < m.size := lt_of_lt_of_le hl (reach_inv h).1.sz

example : Reach (cLimit 100) sample ∧ (∀ f, Used sample f → sample.fi f < 65536) ∧ (pack sample).Carries sample := by
  have hf : ∀ f, Used sample f → sample.fi f < 65536 := fun f u =>
    (by decide +kernel : ∀ f, f < 2 * sample.size → sample.fi f < 65536) f u.2
  exact ⟨sample_reach, hf, (C85_fits (N := 100) sample_reach hf).1⟩

example : ∃ (s : Store) (m : Mesh), s.Holds m ∧ m.c 25 = 1 ∧ m.x 1 = -5 := by
  have z : Store.Holds (fun _ => 0) ⟨0, fun _ => 0, fun _ => 0, fun _ => 0, fun _ => 0, fun _ => 0, fun _ => 0⟩ :=
    ⟨fun _ _ => by simp [Store.c], fun _ _ => by simp [Store.p], fun _ _ => by simp [Store.e], fun _ => by simp [Store.fi],
      fun _ => by simp [Store.x, i16], fun _ => by simp [Store.y, i16]⟩
  have a := (C85_write z).1 25 1 (by decide) (by decide)
  exact ⟨_, _, (C85_write a).2.2.2.2.1 1 (-5) (by decide) (by decide), rfl, rfl⟩

/-! ### C86 -/

theorem userCoord_cell (Q : Nat) (p : Int) : Cell Q p (userCoord Q p) := by
  unfold Cell userCoord
  have hw : (0 : Int) < 2 ^ Q := by positivity
  have a := Int.ediv_mul_le p hw.ne'
  have b := Int.lt_ediv_add_one_mul_self p hw
  refine ⟨by omega, ?_, ?_⟩
  · have : p / 2 ^ Q / 2 * 2 ≤ p / 2 ^ Q := by omega
    nlinarith
  · have : p / 2 ^ Q + 1 ≤ p / 2 ^ Q / 2 * 2 + 2 := by omega
    nlinarith

theorem cell_unique {Q : Nat} {p g g' : Int} (h : Cell Q p g) (h' : Cell Q p g') : g = g' := by
  have hw : (0 : Int) < 2 ^ Q := by positivity
  have a : g < g' + 2 := by
    by_contra c
    have : (g' + 2) * 2 ^ Q ≤ g * 2 ^ Q := mul_le_mul_of_nonneg_right (by omega) hw.le
    have := h.2.1; have := h'.2.2; omega
  have b : g' < g + 2 := by
    by_contra c
    have : (g + 2) * 2 ^ Q ≤ g' * 2 ^ Q := mul_le_mul_of_nonneg_right (by omega) hw.le
    have := h'.2.1; have := h.2.2; omega
  have := h.1; have := h'.1
  omega

/-- C86.  `insert_point` with user coordinates puts the point on the even grid position below it: it returns true exactly when there is
a vertex there already, or there is room and both coordinates are from `-32766 · 2^Q` up to, not including, `32768 · 2^Q`.  Then there
is a vertex in that cell; no vertex moves; and nothing changes when it returns false. -/
theorem C86_point (h : Reach limit m) {k Q p hint d} (run : insertPointUser limit k Q m p hint = some (m', d)) :
    (d = true ↔ (∃ v, v < m.size ∧ Cell Q p.x (m.x v) ∧ Cell Q p.y (m.y v)) ∨
      (m.size < limit ∧ (-32766 * 2 ^ Q ≤ p.x ∧ p.x < 32768 * 2 ^ Q) ∧ (-32766 * 2 ^ Q ≤ p.y ∧ p.y < 32768 * 2 ^ Q))) ∧
    (d = true → ∃ v, v < m'.size ∧ Cell Q p.x (m'.x v) ∧ Cell Q p.y (m'.y v)) ∧
    (∀ v, v < m.size → v < m'.size ∧ m'.x v = m.x v ∧ m'.y v = m.y v) ∧
    (d = false → m' = m) := by
  unfold insertPointUser at run
  simp only [Option.bind_eq_bind, Option.bind_eq_some_iff] at run
  obtain ⟨⟨m1, r⟩, run, e⟩ := run
  simp only [pure, Option.some.injEq, Prod.mk.injEq] at e
  obtain ⟨rfl, rfl⟩ := e
  obtain ⟨c1, c2, c3⟩ := C78_insert h run
  have cx := userCoord_cell Q p.x
  have cy := userCoord_cell Q p.y
  have hw : (0 : Int) < 2 ^ Q := by positivity
  have rng : ∀ {p g : Int}, Cell Q p g → ((-32768 < g ∧ g < 32767) ↔ (-32766 * 2 ^ Q ≤ p ∧ p < 32768 * 2 ^ Q)) := by
    intro p g ⟨e, l, u⟩
    constructor
    · rintro ⟨a, b⟩
      constructor
      · have : -32766 * 2 ^ Q ≤ g * 2 ^ Q := mul_le_mul_of_nonneg_right (by omega) hw.le
        omega
      · have : (g + 2) * 2 ^ Q ≤ 32768 * 2 ^ Q := mul_le_mul_of_nonneg_right (by omega) hw.le
        omega
    · rintro ⟨a, b⟩
      constructor
      · by_contra c
        have : (g + 2) * 2 ^ Q ≤ -32766 * 2 ^ Q := mul_le_mul_of_nonneg_right (by omega) hw.le
        omega
      · by_contra c
        have : 32768 * 2 ^ Q ≤ g * 2 ^ Q := mul_le_mul_of_nonneg_right (by omega) hw.le
        omega
  have vert : m.Vertex (userCoord Q p.x) (userCoord Q p.y) ↔ ∃ v, v < m.size ∧ Cell Q p.x (m.x v) ∧ Cell Q p.y (m.y v) := by
    constructor
    · rintro ⟨v, hv, ex, ey⟩
      exact ⟨v, hv, by rw [ex]; exact cx, by rw [ey]; exact cy⟩
    · rintro ⟨v, hv, ex, ey⟩
      exact ⟨v, hv, cell_unique ex cx, cell_unique ey cy⟩
  rw [decide_eq_true_eq, decide_eq_false_iff_not, not_not, c1, ← vert, ← rng cx, ← rng cy]
  unfold InSquare16
  refine ⟨by tauto, ?_, ?_, fun e => c2 (Or.inl e)⟩
  · intro hd
    by_cases hv : m.Vertex (userCoord Q p.x) (userCoord Q p.y)
    · rw [c2 (Or.inr hv)]; exact vert.1 hv
    · obtain ⟨z, -, ex, ey⟩ := c3 (c1.2 hd) hv
      exact ⟨m.size, by omega, by rw [ex]; exact cx, by rw [ey]; exact cy⟩
  · intro v hv
    by_cases hc : r = 0 ∨ m.Vertex (userCoord Q p.x) (userCoord Q p.y)
    · rw [c2 hc]; exact ⟨hv, rfl, rfl⟩
    · push Not at hc
      obtain ⟨z, xy, -⟩ := c3 hc.1 hc.2
      exact ⟨by omega, xy v hv⟩

/-- C86.  The products by which the walk decides on which side of an edge the point is fit into 64 bits, for every vertex and every
32-bit user coordinate. -/
theorem C86_products (h : Reach limit m) {Q u v} {p : V2} (hu : u < m.size) (hv : v < m.size) (hx : -2 ^ 31 ≤ p.x ∧ p.x < 2 ^ 31)
    (hy : -2 ^ 31 ≤ p.y ∧ p.y < 2 ^ 31) :
    |(m.x u - userCoord Q p.x) * (m.y v - userCoord Q p.y)| < 2 ^ 63 ∧
    |(m.y u - userCoord Q p.y) * (m.x v - userCoord Q p.x)| < 2 ^ 63 := by
  obtain ⟨I, -⟩ := reach_inv h
  have key : ∀ {p : Int}, -2 ^ 31 ≤ p ∧ p < 2 ^ 31 → -2 ^ 31 ≤ userCoord Q p ∧ userCoord Q p < 2 ^ 31 := by
    intro p hp
    have hw : (1 : Int) ≤ 2 ^ Q := by exact_mod_cast Nat.one_le_two_pow
    have a : -2 ^ 31 ≤ p / 2 ^ Q := by
      rw [Int.le_ediv_iff_mul_le (by omega)]; nlinarith
    have b : p / 2 ^ Q < 2 ^ 31 := by
      rw [Int.ediv_lt_iff_lt_mul (by omega)]; nlinarith
    unfold userCoord
    norm_num at a b ⊢
    omega
  have kx := key hx
  have ky := key hy
  have mul : ∀ {a b : Int}, |a| ≤ 2147516416 → |b| ≤ 2147516416 → |a * b| < 2 ^ 63 := by
    intro a b ha hb
    rw [abs_mul]
    calc |a| * |b| ≤ 2147516416 * 2147516416 := mul_le_mul ha hb (abs_nonneg _) (by norm_num)
      _ < 2 ^ 63 := by norm_num
  have dif : ∀ {a b : Int}, Is16 a → -2 ^ 31 ≤ b ∧ b < 2 ^ 31 → |a - b| ≤ 2147516416 := by
    intro a b ha hb
    unfold Is16 at ha
    norm_num at hb
    rw [abs_le]; omega
  exact ⟨mul (dif (I.rng u hu).1 kx) (dif (I.rng v hv).2 ky), mul (dif (I.rng u hu).2 ky) (dif (I.rng v hv).1 kx)⟩

/-- C86.  When `insert_edge` with user coordinates returns true there are vertices in the cells of both ends with a way between them
along constrained edges as in C83, which stays whatever is done later. -/
theorem C86_edge (h : Reach limit m) {m'' k Q p q hint} (run : insertEdgeUser limit k Q m p q hint = some (m', true))
    (later : Later limit m' m'') : ∃ u v n, (u < m''.size ∧ Cell Q p.x (m''.x u) ∧ Cell Q p.y (m''.y u)) ∧
      (v < m''.size ∧ Cell Q q.x (m''.x v) ∧ Cell Q q.y (m''.y v)) ∧ m''.Route n u v := by
  obtain ⟨u, v, n, ⟨u1, u2, u3⟩, ⟨v1, v2, v3⟩, R⟩ := C83_route_partial h run later
  refine ⟨u, v, n, ⟨u1, ?_, ?_⟩, ⟨v1, ?_, ?_⟩, R⟩
  · rw [u2]; exact userCoord_cell _ _
  · rw [u3]; exact userCoord_cell _ _
  · rw [v2]; exact userCoord_cell _ _
  · rw [v3]; exact userCoord_cell _ _

-- points of two cells, one at each end of the range, and one that is refused although it is in the square
example : (insertPointUser 100 60 10 sample0 ⟨-32766 * 1024, 32768 * 1024 - 1⟩ 0).map (·.2) = some true ∧
    (insertPointUser 100 60 10 sample0 ⟨-32766 * 1024 - 1, 0⟩ 0).map (·.2) = some false ∧
    (insertEdgeUser 100 60 10 sample0 ⟨1000, 2000⟩ ⟨-5000, 70000⟩ 0).map (·.2) = some true :=
  ⟨by decide +kernel, by decide +kernel, by decide +kernel⟩

end CE.Cdt
