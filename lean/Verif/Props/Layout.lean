import Verif.Model.Layout
/-!
# Structures that are looked at in two ways (C150)
-/
namespace CE.Layout
open CE.Cdt (Store)

/-- a type there can be: something, and an array of it is aligned throughout -/
def Ty.Ok (t : Ty) : Prop := 0 < t.size ∧ 0 < t.align ∧ t.align ∣ t.size

theorem up_of_dvd {n a : Nat} (ha : 0 < a) (h : a ∣ n) : up n a = n := by
  obtain ⟨k, rfl⟩ := h
  unfold up
  have : (a * k + a - 1) / a = k := by
    rw [Nat.add_sub_assoc (by omega), Nat.add_comm, Nat.add_mul_div_left _ _ ha, Nat.div_eq_of_lt (by omega), Nat.zero_add]
  rw [this, Nat.mul_comm]

theorem up_spec (n : Nat) {a : Nat} (ha : 0 < a) : n ≤ up n a ∧ up n a < n + a ∧ a ∣ up n a := by
  unfold up
  have h1 := Nat.div_add_mod (n + a - 1) a
  have h2 := Nat.mod_lt (n + a - 1) ha
  rw [Nat.mul_comm] at h1
  exact ⟨by omega, by omega, Nat.dvd_mul_left _ _⟩

/-! ## The rules are sound -/

theorem aligns_pos (fs : List Field) : 0 < aligns fs := by
  induction fs with
  | nil => exact Nat.one_pos
  | cons f fs ih => unfold aligns; omega

/-- members behind `pos` and before `last` in order -/
def InOrder : Nat → List (String × Nat × Nat) → Nat → Prop
  | pos, [], last => pos ≤ last
  | pos, m :: ms, last => pos ≤ m.2.1 ∧ InOrder (m.2.1 + m.2.2) ms last

theorem place_inOrder (fs : List Field) (h : ∀ f ∈ fs, f.ty.Ok ) (pos : Nat) :
    InOrder pos (place pos fs) (ending pos fs) := by
  induction fs generalizing pos with
  | nil => exact Nat.le_refl _
  | cons f fs ih =>
    refine ⟨?_, ih (fun g hg => h g (List.mem_cons_of_mem _ hg)) _⟩
    have hf := h f (List.mem_cons_self ..)
    show pos ≤ start pos f
    unfold start
    have h1 := (up_spec pos (a := 8 * f.ty.align) (by have := hf.2.1; omega)).1
    have h2 := (up_spec pos (a := 8 * f.ty.size) (by have := hf.1; omega)).1
    split
    · exact h1
    · split
      · exact Nat.le_refl _
      · exact h2

/-- **Soundness of the rules.** Members come one after the other, none overlaps the one before, all are inside the
structure; a member that is no bit-field is aligned, and wastes less than its alignment. -/
theorem C150_rules (fs : List Field) (h : ∀ f ∈ fs, f.ty.Ok) :
    InOrder 0 (place 0 fs) (8 * (struct fs).size) ∧ (struct fs).align ∣ (struct fs).size ∧
    ∀ t : Ty, t.Ok → ∀ pos s, 8 * t.align ∣ start pos (plain t s) ∧ start pos (plain t s) < pos + 8 * t.align := by
  have h1 := place_inOrder fs h 0
  obtain ⟨a, b, c⟩ := up_spec (ending 0 fs) (a := 8 * aligns fs) (by have := aligns_pos fs; omega)
  obtain ⟨k, hk⟩ := c
  have e : (struct fs).size = aligns fs * k := by
    show up (ending 0 fs) (8 * aligns fs) / 8 = _
    rw [hk, Nat.mul_assoc, Nat.mul_div_cancel_left _ (by omega)]
  refine ⟨?_, by rw [e]; exact Nat.dvd_mul_right _ _, fun t ht pos s => ?_⟩
  case refine_2 =>
    obtain ⟨-, u1, u2⟩ := up_spec pos (a := 8 * t.align) (by have := ht.2.1; omega)
    exact ⟨u2, u1⟩
  have mono : ∀ (l : List (String × Nat × Nat)) (p q r : Nat), InOrder p l q → q ≤ r → InOrder p l r := by
    intro l
    induction l with
    | nil => intro p q r hp hq; exact Nat.le_trans hp hq
    | cons m l ih => intro p q r hp hq; exact ⟨hp.1, ih _ _ _ hp.2 hq⟩
  refine mono _ _ _ _ h1 ?_
  rw [e, ← Nat.mul_assoc, ← hk]
  exact a

/-! ## Structures as arrays -/

theorem start_plain {t : Ty} (h : t.Ok) (i : Nat) (s : String) : start (i * (8 * t.size)) (plain t s) = i * (8 * t.size) := by
  have ha := h.2.1
  exact up_of_dvd (by show 0 < 8 * t.align; omega) (Nat.dvd_trans (Nat.mul_dvd_mul_left 8 h.2.2) (Nat.dvd_mul_left _ i))

theorem place_plain {t : Ty} (h : t.Ok) (names : List String) (i : Nat) :
    place (i * (8 * t.size)) (names.map (plain t)) =
      (List.range' i names.length).zipWith (fun k s => (s, k * (8 * t.size), 8 * t.size)) names ∧
    ending (i * (8 * t.size)) (names.map (plain t)) = (i + names.length) * (8 * t.size) := by
  induction names generalizing i with
  | nil => simp [place, ending]
  | cons s names ih =>
    have e : start (i * (8 * t.size)) (plain t s) + (plain t s).bits = (i + 1) * (8 * t.size) := by
      rw [start_plain h, Nat.add_mul, Nat.one_mul]; rfl
    obtain ⟨h1, h2⟩ := ih (i + 1)
    constructor
    · rw [List.map_cons, place, e, h1, start_plain h]
      rfl
    · rw [List.map_cons, ending, e, h2, List.length_cons]
      congr 1; omega

theorem aligns_plain {t : Ty} (h : t.Ok) {names : List String} (hn : names ≠ []) : aligns (names.map (plain t)) = t.align := by
  have ha := h.2.1
  induction names with
  | nil => exact absurd rfl hn
  | cons s names ih =>
    rw [List.map_cons, aligns]
    by_cases hc : names = []
    · subst hc
      show max t.align 1 = _
      omega
    · rw [ih hc]
      show max t.align t.align = _
      omega

/-- **A structure whose members have all the same type is laid out as an array**, whatever the type: it has the size
and the alignment of the array, and member `i` is where element `i` is. -/
theorem C150_as_array {t : Ty} (h : t.Ok) {names : List String} (hn : names ≠ []) :
    struct (names.map (plain t)) = array t names.length ∧
    ∀ i (hi : i < names.length), ∃ m, (place 0 (names.map (plain t)))[i]? = some (names[i], m) ∧
      ∀ a, a + m.1 / 8 = element t a i ∧ m.2 = 8 * t.size := by
  obtain ⟨h1, h2⟩ := place_plain h names 0
  rw [Nat.zero_mul] at h1 h2
  have ha := h.2.1
  constructor
  · unfold struct array
    rw [h2, aligns_plain h hn, up_of_dvd (by omega) (Nat.dvd_trans (Nat.mul_dvd_mul_left 8 h.2.2) (Nat.dvd_mul_left _ _))]
    congr 1
    rw [Nat.zero_add, Nat.mul_left_comm, Nat.mul_div_cancel_left _ (by omega)]
  · intro i hi
    refine ⟨(i * (8 * t.size), 8 * t.size), ?_, fun a => ⟨?_, rfl⟩⟩
    · rw [h1, List.getElem?_zipWith]
      simp [hi]
    · show a + i * (8 * t.size) / 8 = _
      rw [Nat.mul_left_comm, Nat.mul_div_cancel_left _ (by omega)]
      rfl

/-- **`rgba` as an array** has red, green, blue and alpha in this order, and `sizeof(rgba<T>)` is four times that of `T`. -/
theorem C150_rgba {t : Ty} (h : t.Ok) (a : Nat) :
    struct (rgba t) = array t 4 ∧
    member (rgba t) a "r" = some (element t a 0) ∧ member (rgba t) a "g" = some (element t a 1) ∧
    member (rgba t) a "b" = some (element t a 2) ∧ member (rgba t) a "a" = some (element t a 3) := by
  have e : rgba t = ["r", "g", "b", "a"].map (plain t) := rfl
  have d : ∀ k, k * (8 * t.size) / 8 = k * t.size := by
    intro k; rw [Nat.mul_left_comm, Nat.mul_div_cancel_left _ (by omega)]
  obtain ⟨h1, -⟩ := place_plain h ["r", "g", "b", "a"] 0
  rw [Nat.zero_mul] at h1
  refine ⟨by rw [e]; exact (C150_as_array h (by simp)).1, ?_, ?_, ?_, ?_⟩ <;>
  · unfold member element
    rw [e, h1]
    simp [List.range', List.find?, d]

/-- **`vec<N, T>` as an array of `N`**, for the `N` there are; so is a matrix, a `vec` of `vec`s. -/
theorem C150_vec {t : Ty} (h : t.Ok) {n : Nat} (h1 : 1 ≤ n) (h4 : n ≤ 4) :
    struct (vec t n) = array t n ∧ (struct (vec t n)).Ok ∧
    ∀ i < n, ∃ m, (place 0 (vec t n))[i]? = some (["x", "y", "z", "w"].getD i "", m) ∧ ∀ a, a + m.1 / 8 = element t a i := by
  have hl : (["x", "y", "z", "w"].take n).length = n := by simp; omega
  have hn : (["x", "y", "z", "w"].take n) ≠ [] := by
    intro e; rw [e] at hl; simp at hl; omega
  obtain ⟨g1, g2⟩ := C150_as_array h hn
  rw [hl] at g1
  have g1' : struct (vec t n) = array t n := g1
  refine ⟨g1', ?_, fun i hi => ?_⟩
  · rw [g1']
    exact ⟨Nat.mul_pos (by omega) h.1, h.2.1, Nat.dvd_trans h.2.2 (Nat.dvd_mul_left _ n)⟩
  · obtain ⟨m, e1, e2⟩ := g2 i (by omega)
    refine ⟨m, ?_, fun a => (e2 a).1⟩
    show (place 0 (vec t n))[i]? = _
    unfold vec
    rw [e1]
    simp [List.getD, show i < 4 by omega]

/-! ## The union of lib/h/ce/cdt.h -/

/-- the assertions lib/h/ce/cdt.h:116-118, and that the members of the union have the same size -/
theorem C150_sizes :
    (struct edgeData).size = 4 ∧ (struct faceData).size = (struct edgeData).size * 4 ∧
    (struct vertData).size = (struct edgeData).size * 8 ∧
    ∀ limit, (array (struct vertData) (1 * limit)).size = (array (struct faceData) (2 * limit)).size ∧
      (array (struct vertData) (1 * limit)).size = (array (struct edgeData) (8 * limit)).size := by
  have e1 : (struct edgeData).size = 4 := by decide +kernel
  have e2 : (struct faceData).size = 16 := by decide +kernel
  have e3 : (struct vertData).size = 32 := by decide +kernel
  refine ⟨e1, by rw [e1, e2], by rw [e1, e3], fun limit => ?_⟩
  unfold array
  simp only [e1, e2, e3]
  omega

/-- the members of a face are the three edges of the same number times four, and `fi`, `xy` fill the fourth -/
def faceEdge : List (String × Nat × String) :=
  [("c0", 0, "c"), ("p0", 0, "p"), ("e0", 0, "e"), ("c1", 1, "c"), ("p1", 1, "p"), ("e1", 1, "e"),
    ("c2", 2, "c"), ("p2", 2, "p"), ("e2", 2, "e"), ("xy", 3, "e")]

/-- the members of a vertex are its two faces -/
def vertFace : List (String × Nat × String) :=
  [("a_c0", 0, "c0"), ("a_p0", 0, "p0"), ("a_e0", 0, "e0"), ("a_c1", 0, "c1"), ("a_p1", 0, "p1"), ("a_e1", 0, "e1"),
    ("a_c2", 0, "c2"), ("a_p2", 0, "p2"), ("a_e2", 0, "e2"), ("a_fi", 0, "fi"), ("x", 0, "xy"),
    ("b_c0", 1, "c0"), ("b_p0", 1, "p0"), ("b_e0", 1, "e0"), ("b_c1", 1, "c1"), ("b_p1", 1, "p1"), ("b_e1", 1, "e1"),
    ("b_c2", 1, "c2"), ("b_p2", 1, "p2"), ("b_e2", 1, "e2"), ("b_fi", 1, "fi"), ("y", 1, "xy")]

theorem bitsAt_shift (fs : List Field) (i : Nat) (name : String) :
    bitsAt fs i name = (bitsAt fs 0 name).map (fun b => (i * (8 * (struct fs).size) + b.1, b.2)) := by
  unfold bitsAt
  rw [Option.map_map]
  congr 1
  funext m
  simp

/-- **Every vertex, face and edge of the union is the same bits**: for all numbers `f` of faces, `fs[f].ck`, `pk`, `ek`
are `es[4f + k].c`, `p`, `e`; for all vertices `v`, the members with `a_` are those of `fs[2v]`, with `b_` those of
`fs[2v + 1]`, `x` and `y` are their `xy`; the user's `fi` of a face is what would be `c` and `p` of a fourth edge. -/
theorem C150_union :
    (∀ f, ∀ m ∈ faceEdge, bitsAt faceData f m.1 = bitsAt edgeData (4 * f + m.2.1) m.2.2 ∧ (bitsAt faceData f m.1).isSome) ∧
    (∀ v, ∀ m ∈ vertFace, bitsAt vertData v m.1 = bitsAt faceData (2 * v + m.2.1) m.2.2 ∧ (bitsAt vertData v m.1).isSome) ∧
    ∀ f, ∃ b, bitsAt faceData f "fi" = some (b, 16) ∧ bitsAt edgeData (4 * f + 3) "c" = some (b, 3) ∧
      bitsAt edgeData (4 * f + 3) "p" = some (b + 3, 13) := by
  have s1 : 8 * (struct edgeData).size = 32 := by decide +kernel
  have s2 : 8 * (struct faceData).size = 128 := by decide +kernel
  have s3 : 8 * (struct vertData).size = 256 := by decide +kernel
  have fe : ∀ m ∈ faceEdge, ∃ p q w, bitsAt faceData 0 m.1 = some (p, w) ∧ bitsAt edgeData 0 m.2.2 = some (q, w) ∧
      p = 32 * m.2.1 + q := by
    have : ∀ m ∈ faceEdge, (do
      let a ← bitsAt faceData 0 m.1
      let b ← bitsAt edgeData 0 m.2.2
      return decide (a.1 = 32 * m.2.1 + b.1 ∧ a.2 = b.2)) = some true := by decide +kernel
    intro m hm
    have := this m hm
    cases ha : bitsAt faceData 0 m.1 with
    | none => rw [ha] at this; simp at this
    | some a =>
      cases hb : bitsAt edgeData 0 m.2.2 with
      | none => rw [ha, hb] at this; simp at this
      | some b =>
        rw [ha, hb] at this
        simp at this
        exact ⟨a.1, b.1, a.2, rfl, by rw [this.2], this.1⟩
  have vf : ∀ m ∈ vertFace, ∃ p q w, bitsAt vertData 0 m.1 = some (p, w) ∧ bitsAt faceData 0 m.2.2 = some (q, w) ∧
      p = 128 * m.2.1 + q := by
    have : ∀ m ∈ vertFace, (do
      let a ← bitsAt vertData 0 m.1
      let b ← bitsAt faceData 0 m.2.2
      return decide (a.1 = 128 * m.2.1 + b.1 ∧ a.2 = b.2)) = some true := by decide +kernel
    intro m hm
    have := this m hm
    cases ha : bitsAt vertData 0 m.1 with
    | none => rw [ha] at this; simp at this
    | some a =>
      cases hb : bitsAt faceData 0 m.2.2 with
      | none => rw [ha, hb] at this; simp at this
      | some b =>
        rw [ha, hb] at this
        simp at this
        exact ⟨a.1, b.1, a.2, rfl, by rw [this.2], this.1⟩
  refine ⟨fun f m hm => ?_, fun v m hm => ?_, fun f => ?_⟩
  · obtain ⟨p, q, w, h1, h2, h3⟩ := fe m hm
    rw [bitsAt_shift faceData f, bitsAt_shift edgeData (4 * f + m.2.1), h1, h2, s1, s2]
    refine ⟨?_, rfl⟩
    simp only [Option.map_some, Option.some.injEq, Prod.mk.injEq, and_true]
    omega
  · obtain ⟨p, q, w, h1, h2, h3⟩ := vf m hm
    rw [bitsAt_shift vertData v, bitsAt_shift faceData (2 * v + m.2.1), h1, h2, s2, s3]
    refine ⟨?_, rfl⟩
    simp only [Option.map_some, Option.some.injEq, Prod.mk.injEq, and_true]
    omega
  · have e1 : bitsAt faceData 0 "fi" = some (96, 16) := by decide +kernel
    have e2 : bitsAt edgeData 0 "c" = some (0, 3) := by decide +kernel
    have e3 : bitsAt edgeData 0 "p" = some (3, 13) := by decide +kernel
    refine ⟨128 * f + 96, ?_, ?_, ?_⟩
    · rw [bitsAt_shift, e1, s2, Option.map_some]; simp only [Option.some.injEq, Prod.mk.injEq, and_true]; omega
    · rw [bitsAt_shift, e2, s1, Option.map_some]; simp only [Option.some.injEq, Prod.mk.injEq, and_true]; omega
    · rw [bitsAt_shift, e3, s1, Option.map_some]; simp only [Option.some.injEq, Prod.mk.injEq, and_true]; omega

/-- `w` bits from bit `b` of a memory of 16-bit words, for bits of one word -/
def readBits (s : Store) (b w : Nat) : Nat := s (b / 16) / 2 ^ (b % 16) % 2 ^ w

/-- **The words of the model of the storage (C85) are where the declarations put the members**: reading the bits of a
member gives what the model reads, for every memory and every index. -/
theorem C150_store (s : Store) (n : Nat) :
    (bitsAt edgeData n "c").map (fun b => readBits s b.1 b.2) = some (s.c n) ∧
    (bitsAt edgeData n "p").map (fun b => readBits s b.1 b.2) = some (s.p n) ∧
    (bitsAt edgeData n "e").map (fun b => readBits s b.1 b.2) = some (s.e n) ∧
    (bitsAt faceData n "fi").map (fun b => readBits s b.1 b.2) = some (s.fi n) ∧
    (bitsAt vertData n "x").map (fun b => CE.Cdt.i16 (readBits s b.1 b.2)) = some (s.x n) ∧
    (bitsAt vertData n "y").map (fun b => CE.Cdt.i16 (readBits s b.1 b.2)) = some (s.y n) := by
  have s1 : 8 * (struct edgeData).size = 32 := by decide +kernel
  have s2 : 8 * (struct faceData).size = 128 := by decide +kernel
  have s3 : 8 * (struct vertData).size = 256 := by decide +kernel
  have e1 : bitsAt edgeData 0 "c" = some (0, 3) := by decide +kernel
  have e2 : bitsAt edgeData 0 "p" = some (3, 13) := by decide +kernel
  have e3 : bitsAt edgeData 0 "e" = some (16, 16) := by decide +kernel
  have e4 : bitsAt faceData 0 "fi" = some (96, 16) := by decide +kernel
  have e5 : bitsAt vertData 0 "x" = some (112, 16) := by decide +kernel
  have e6 : bitsAt vertData 0 "y" = some (240, 16) := by decide +kernel
  have i16_mod : ∀ a : Nat, CE.Cdt.i16 (((a % 65536 : Nat) : Int)) = CE.Cdt.i16 (a : Int) := by
    intro a; unfold CE.Cdt.i16; omega
  refine ⟨?_, ?_, ?_, ?_, ?_, ?_⟩ <;> rw [bitsAt_shift]
  · rw [e1, s1]; simp only [Option.map_some, readBits, Store.c, Option.some.injEq]
    rw [show (n * 32 + 0) / 16 = 2 * n by omega, show (n * 32 + 0) % 16 = 0 by omega]; simp
  · rw [e2, s1]; simp only [Option.map_some, readBits, Store.p, Option.some.injEq]
    rw [show (n * 32 + 3) / 16 = 2 * n by omega, show (n * 32 + 3) % 16 = 3 by omega]
  · rw [e3, s1]; simp only [Option.map_some, readBits, Store.e, Option.some.injEq]
    rw [show (n * 32 + 16) / 16 = 2 * n + 1 by omega, show (n * 32 + 16) % 16 = 0 by omega]; simp
  · rw [e4, s2]; simp only [Option.map_some, readBits, Store.fi, Option.some.injEq]
    rw [show (n * 128 + 96) / 16 = 8 * n + 6 by omega, show (n * 128 + 96) % 16 = 0 by omega]; simp
  · rw [e5, s3]; simp only [Option.map_some, readBits, Store.x, Option.some.injEq]
    rw [show (n * 256 + 112) / 16 = 16 * n + 7 by omega, show (n * 256 + 112) % 16 = 0 by omega]
    rw [Nat.pow_zero, Nat.div_one]
    exact i16_mod _
  · rw [e6, s3]; simp only [Option.map_some, readBits, Store.y, Option.some.injEq]
    rw [show (n * 256 + 240) / 16 = 16 * n + 15 by omega, show (n * 256 + 240) % 16 = 0 by omega]
    rw [Nat.pow_zero, Nat.div_one]
    exact i16_mod _

/-! ## Mutexes in arrays of pointers -/

/-- **A mutex fits its array of pointers** exactly, when the assertion of lib/h/ce/mutex.h:58 holds: the sizes are equal,
so neither is anything behind the array written nor do neighbours in an array of `thread_mutex` overlap; and where a
mutex needs no more alignment than a pointer every place of the array is a place for it. -/
theorem C150_mutex {ptr m t : Ty} (hp : ptr.Ok) (hm : m.Ok) (h : opaqueTy ptr m = some t) :
    t.size = m.size ∧ t.align = ptr.align ∧
    (∀ a i j, i < j → element t a i + m.size ≤ element t a j) ∧
    (m.align ∣ ptr.align → ∀ a, t.align ∣ a → m.align ∣ a) := by
  unfold opaqueTy at h
  split at h
  case isFalse => cases h
  case isTrue hd =>
    have hk : array ptr (m.size / ptr.size) = ⟨m.size, ptr.align⟩ := by
      unfold array; rw [Nat.div_mul_cancel (Nat.dvd_of_mod_eq_zero hd)]
    have hd' : ptr.size ∣ m.size := Nat.dvd_of_mod_eq_zero hd
    have ho : (array ptr (m.size / ptr.size)).Ok := by
      rw [hk]; exact ⟨hm.1, hp.2.1, Nat.dvd_trans hp.2.2 hd'⟩
    have e := (C150_as_array ho (names := ["opaque_data"]) (by simp)).1
    injection h with h
    have e' : t = ⟨m.size, ptr.align⟩ := by
      rw [← h]
      refine e.trans ?_
      rw [hk]
      simp [array]
    rw [e']
    refine ⟨rfl, rfl, fun a i j hij => ?_, fun hd a ha => Nat.dvd_trans hd ha⟩
    show a + i * m.size + m.size ≤ a + j * m.size
    have := Nat.mul_le_mul_right m.size (show i + 1 ≤ j from hij)
    rw [Nat.succ_mul] at this
    omega

/-- **Nothing asserts the alignment.** A mutex type of 48 bytes aligned to 16 passes the assertion on a machine with
pointers of 8 bytes, and the array may be at an address at which there can be no such mutex. -/
theorem C150_mutex_alignment_false : ∃ ptr m t : Ty, ptr.Ok ∧ m.Ok ∧ opaqueTy ptr m = some t ∧
    ∃ a, t.align ∣ a ∧ ¬ m.align ∣ a :=
  ⟨⟨8, 8⟩, ⟨48, 16⟩, ⟨48, 8⟩, by unfold Ty.Ok; decide, by unfold Ty.Ok; decide, by decide +kernel, 8, by decide, by decide⟩

/-! ## The hypotheses are met -/

/-- `float`, and a structure of a `char` and an `int` -/
example : (Ty.mk 4 4).Ok ∧ struct [plain ⟨1, 1⟩ "c", plain ⟨4, 4⟩ "i"] = ⟨8, 4⟩ ∧
    member [plain ⟨1, 1⟩ "c", plain ⟨4, 4⟩ "i"] 100 "i" = some 104 := by
  refine ⟨by unfold Ty.Ok; decide, by decide +kernel, by decide +kernel⟩

/-- `rgba<float>` and `vec<3, vec<2, double>>` -/
example : struct (rgba ⟨4, 4⟩) = ⟨16, 4⟩ ∧ struct (vec (struct (vec ⟨8, 8⟩ 2)) 3) = ⟨48, 8⟩ := by
  constructor <;> decide +kernel

/-- `std::mutex` and `std::shared_mutex` of glibc on 64 bits -/
example : opaqueTy ⟨8, 8⟩ ⟨40, 8⟩ = some ⟨40, 8⟩ ∧ opaqueTy ⟨8, 8⟩ ⟨56, 8⟩ = some ⟨56, 8⟩ ∧ opaqueTy ⟨8, 8⟩ ⟨44, 4⟩ = none := by
  refine ⟨?_, ?_, ?_⟩ <;> decide +kernel

/-- where the declarations put the coordinates of the third vertex -/
example : bitsAt vertData 2 "y" = some (2 * 256 + 240, 16) ∧ bitsAt edgeData (4 * (2 * 2 + 1) + 3) "e" = some (752, 16) := by
  constructor <;> decide +kernel

end CE.Layout
