import Mathlib.Data.Set.Finite.Lemmas
import Mathlib.Data.Finite.Prod
import Mathlib.Data.Finite.Sum
import Verif.Proof.FloatText
/-! The text of a number that `std::to_chars` gives exists and is short; texts are read in one way. -/
namespace CE.FloatText

/-! ## a text of a number -/

/-- digits of an exponent: two, or three if it takes three -/
def expDigits (k : Nat) : List (Fin 10) := if k < 100 then toDig 2 k else toDig 3 k

/-- the scientific notation of `n * 10^(K-D)`, `n` of `D+1` digits -/
def sci (neg : Bool) (n : Nat) (K : Int) (D : Nat) : Dec :=
  ⟨neg, (toDig (D + 1) n).take 1, (toDig (D + 1) n).drop 1, some (decide (K < 0), expDigits K.natAbs)⟩

theorem expDigits_val (k : Nat) (h : k < 1000) : digitsVal (expDigits k) = k := by
  unfold expDigits
  split
  · exact digitsVal_toDig 2 k (by omega)
  · exact digitsVal_toDig 3 k (by omega)

theorem sci_mag (neg : Bool) (n : Nat) (K : Int) (D : Nat) (hn : n < 10 ^ (D + 1)) (hK : K.natAbs < 1000) :
    (sci neg n K D).mag = (n : ℚ) * 10 ^ (K - D) := by
  unfold Dec.mag Dec.exp sci
  simp only [List.take_append_drop, digitsVal_toDig _ _ hn, List.length_drop, toDig_length, expDigits_val _ hK,
    decide_eq_true_eq]
  congr 2
  split <;> omega

theorem sci_style (neg : Bool) (n : Nat) (K : Int) (D : Nat) (hn : n < 10 ^ (D + 1)) (hD : 10 ^ D ≤ n)
    (hK : K.natAbs < 1000) : (sci neg n K D).Style := by
  right
  refine ⟨?_, ?_, decide (K < 0), expDigits K.natAbs, rfl, ?_, ?_⟩
  · simp [sci, toDig_length]
  · intro h
    exfalso
    apply toDig_head D n hn hD
    have : ((toDig (D + 1) n).take 1).head? = some 0 := by rw [show (toDig (D + 1) n).take 1 = [0] from h]; rfl
    rw [List.head?_take, if_neg (by decide)] at this
    exact this
  · unfold expDigits; split <;> simp [toDig_length]
  · unfold expDigits
    split
    · simp [toDig_length]
    · intro _
      exact toDig_head 2 _ (by omega) (by omega)

theorem sci_length (neg : Bool) (n : Nat) (K : Int) (D W : Nat) (hW : 2 ≤ W) (hK3 : K.natAbs < 100 ∨ 3 ≤ W) :
    (sci neg n K D).render.length ≤ D + 5 + W := by
  have he : (expDigits K.natAbs).length ≤ W := by
    unfold expDigits; split <;> simp only [toDig_length] <;> omega
  have h1 : ((toDig (D + 1) n).take 1).length = 1 := by simp [toDig_length]
  have h2 : ((toDig (D + 1) n).drop 1).length = D := by simp [toDig_length]
  unfold Dec.render sci
  simp only [List.length_append, List.length_map, List.length_cons, h1]
  have h3 : (if neg = true then ['-'] else []).length ≤ 1 := by split <;> simp
  have h4 : (if (toDig (D + 1) n).drop 1 = [] then [] else '.' :: ((toDig (D + 1) n).drop 1).map digitChar).length ≤ D + 1 := by
    split <;> simp [toDig_length]
  omega

/-- what the formats have in common: `D` decimal digits are more precise and exponents of up to `A` suffice -/
structure Fits (F : Fmt) (D A W : Nat) : Prop where
  p_pos : 0 < F.p
  prec : 2 ^ F.p < 10 ^ D
  low : (10 : ℚ) ^ (-(A : Int)) ≤ 2 ^ F.emin
  high : (2 : ℚ) ^ (F.p + F.emax) ≤ 10 ^ A
  small : A < 1000
  wide : A < 100 ∨ 3 ≤ W
  two : 2 ≤ W
  three : 3 ≤ D

theorem fits64 : Fits binary64 16 324 3 where
  p_pos := by decide
  prec := by decide
  low := by
    show (10 : ℚ) ^ (-(324 : Int)) ≤ 2 ^ (-1074 : Int)
    rw [zpow_neg, zpow_neg]
    apply inv_anti₀ (by positivity)
    have : (2 : Nat) ^ 1074 ≤ 10 ^ 324 := by decide +kernel
    exact_mod_cast this
  high := by
    show (2 : ℚ) ^ ((53 : Int) + 971) ≤ 10 ^ 324
    have : (2 : Nat) ^ 1024 ≤ 10 ^ 324 := by decide +kernel
    exact_mod_cast this
  small := by decide
  wide := by decide
  two := by decide
  three := by decide

theorem fits32 : Fits binary32 8 45 2 where
  p_pos := by decide
  prec := by decide
  low := by
    show (10 : ℚ) ^ (-(45 : Int)) ≤ 2 ^ (-149 : Int)
    rw [zpow_neg, zpow_neg]
    apply inv_anti₀ (by positivity)
    have : (2 : Nat) ^ 149 ≤ 10 ^ 45 := by decide +kernel
    exact_mod_cast this
  high := by
    show (2 : ℚ) ^ ((24 : Int) + 104) ≤ 10 ^ 45
    have : (2 : Nat) ^ 128 ≤ 10 ^ 45 := by decide +kernel
    exact_mod_cast this
  small := by decide
  wide := by decide
  two := by decide
  three := by decide

theorem log_range {F : Fmt} {D A W : Nat} (f : Fits F D A W) (m : Nat) (e : Int) (h0 : 0 < m) (hm : m < 2 ^ F.p)
    (he : F.emin ≤ e) (he' : e ≤ F.emax) : -(A : Int) ≤ Int.log 10 (mag m e) ∧ Int.log 10 (mag m e) < A := by
  have hpos := mag_pos e h0
  constructor
  · rw [← Int.zpow_le_iff_le_log (by norm_num) hpos]
    have h1 : (1 : ℚ) ≤ m := by exact_mod_cast h0
    calc ((10 : Nat) : ℚ) ^ (-(A : Int)) ≤ 2 ^ F.emin := by exact_mod_cast f.low
      _ ≤ 2 ^ e := zpow_le_zpow_right₀ (by norm_num) he
      _ = 1 * 2 ^ e := (one_mul _).symm
      _ ≤ mag m e := mul_le_mul_of_nonneg_right h1 (by positivity)
  · rw [← Int.lt_zpow_iff_log_lt (by norm_num) hpos]
    have h1 : (m : ℚ) < 2 ^ F.p := by exact_mod_cast hm
    calc mag m e < 2 ^ F.p * 2 ^ e := mul_lt_mul_of_pos_right h1 (by positivity)
      _ ≤ 2 ^ F.p * 2 ^ F.emax := mul_le_mul_of_nonneg_left (zpow_le_zpow_right₀ (by norm_num) he') (by positivity)
      _ = 2 ^ (F.p + F.emax) := by rw [zpow_add₀ (by norm_num), zpow_natCast]
      _ ≤ 10 ^ A := f.high
      _ = ((10 : Nat) : ℚ) ^ (A : Int) := by rw [zpow_natCast]; norm_num

/-- a short text is read as the number -/
theorem exists_short {F : Fmt} {D A W : Nat} (f : Fits F D A W) (neg : Bool) (m : Nat) (e : Int)
    (hv : (Fl.fin neg m e).Valid F) :
    ∃ t : Dec, t.Style ∧ t.Reads F neg m e ∧ t.render.length ≤ D + 5 + W := by
  obtain ⟨hm, he, he', hc⟩ := hv
  rcases Nat.eq_zero_or_pos m with rfl | h0
  · refine ⟨⟨neg, [0], [], none⟩, Or.inl ⟨by simp, by simp, rfl⟩, ⟨rfl, ?_⟩, ?_⟩
    · have : (⟨neg, [0], [], none⟩ : Dec).mag = 0 := by simp [Dec.mag, digitsVal]
      rw [this]; exact roundsTo_zero F e
    · cases neg <;> simp [Dec.render] <;> omega
  · obtain ⟨n, K, h1, h2, h3, h4, h5⟩ := near (mag m e) (mag_pos e h0) D
    obtain ⟨l1, l2⟩ := log_range f m e h0 hm he he'
    have hA := f.small
    have hK : K.natAbs ≤ A := by omega
    refine ⟨sci neg n K D, sci_style _ _ _ _ h2 h1 (by omega), ⟨rfl, ?_⟩, sci_length _ _ _ _ _ f.two ?_⟩
    · rw [sci_mag _ _ _ _ h2 (by omega)]
      apply roundsTo_of_close F _ m e hm f.p_pos hc
      rcases eq_or_lt_of_le (abs_nonneg ((n : ℚ) * 10 ^ (K - D) - mag m e)) with h | h
      · rw [← h, zero_mul]; exact mag_pos e h0
      · refine lt_of_lt_of_le ?_ h3
        apply mul_lt_mul_of_pos_left _ h
        rw [pow_succ]
        have : (2 : ℚ) ^ F.p < 10 ^ D := by exact_mod_cast f.prec
        linarith
    · rcases f.wide with h | h
      · left; omega
      · right; exact h

/-! ## the shortest and nearest of them -/

/-- the parts of a text are no longer than the text -/
theorem parts_le (t : Dec) : t.ip.length ≤ t.render.length ∧ t.fp.length ≤ t.render.length ∧
    ∀ s ds, t.ex = some (s, ds) → ds.length ≤ t.render.length := by
  obtain ⟨neg, ip, fp, ex⟩ := t
  refine ⟨?_, ?_, ?_⟩
  · simp only [Dec.render, List.length_append, List.length_map]; omega
  · simp only [Dec.render, List.length_append, List.length_map]
    by_cases h : fp = []
    · simp [h]
    · rw [if_neg h]; simp only [List.length_cons, List.length_map]; omega
  · rintro s ds h
    simp only at h
    subst h
    simp only [Dec.render, List.length_append, List.length_cons, List.length_map]
    omega

/-- there are finitely many texts of a length -/
theorem finite_length (L : Nat) : {t : Dec | t.render.length = L}.Finite := by
  have hl : {l : List (Fin 10) | l.length ≤ L}.Finite := List.finite_length_le (Fin 10) L
  let g : Bool × List (Fin 10) × List (Fin 10) × (Bool × Bool × List (Fin 10)) → Dec :=
    fun x => ⟨x.1, x.2.1, x.2.2.1, if x.2.2.2.1 then some (x.2.2.2.2.1, x.2.2.2.2.2) else none⟩
  have hfin : ((Set.univ : Set Bool) ×ˢ {l : List (Fin 10) | l.length ≤ L} ×ˢ {l : List (Fin 10) | l.length ≤ L} ×ˢ
      ((Set.univ : Set Bool) ×ˢ (Set.univ : Set Bool) ×ˢ {l : List (Fin 10) | l.length ≤ L})).Finite :=
    Set.finite_univ.prod (hl.prod (hl.prod (Set.finite_univ.prod (Set.finite_univ.prod hl))))
  apply (hfin.image g).subset
  rintro ⟨neg, ip, fp, ex⟩ ht
  have hp := parts_le ⟨neg, ip, fp, ex⟩
  rw [show Dec.render _ = _ from rfl] at hp
  have ht' : (⟨neg, ip, fp, ex⟩ : Dec).render.length = L := ht
  rw [ht'] at hp
  obtain ⟨h1, h2, h3⟩ := hp
  match ex, h3 with
  | none, _ => exact ⟨(neg, ip, fp, false, false, []), ⟨trivial, h1, h2, trivial, trivial, Nat.zero_le _⟩, rfl⟩
  | some (s, ds), h3 => exact ⟨(neg, ip, fp, true, s, ds), ⟨trivial, h1, h2, trivial, trivial, h3 s ds rfl⟩, rfl⟩

/-- what is read as a number and is shortest and nearest, exists -/
theorem exists_best {F : Fmt} {D A W : Nat} (f : Fits F D A W) (neg : Bool) (m : Nat) (e : Int)
    (hv : (Fl.fin neg m e).Valid F) : ∃ s, Contract F (.fin neg m e) s := by
  classical
  obtain ⟨t, ht, hr, _⟩ := exists_short f neg m e hv
  have hex : ∃ L, ∃ t : Dec, t.Style ∧ t.Reads F neg m e ∧ t.render.length = L := ⟨_, t, ht, hr, rfl⟩
  let L := Nat.find hex
  have hL := Nat.find_spec hex
  have hfin : {t : Dec | t.Style ∧ t.Reads F neg m e ∧ t.render.length = L}.Finite :=
    (finite_length L).subset fun t h => h.2.2
  obtain ⟨t, ⟨h1, h2, h3⟩, hmin⟩ := Set.exists_min_image _ (fun t : Dec => |t.mag - mag m e|) hfin hL
  refine ⟨t.render, t, h1, h2, rfl, ?_⟩
  intro t' h1' h2'
  have hle : L ≤ t'.render.length := Nat.find_min' hex ⟨t', h1', h2', rfl⟩
  rw [h3]
  rcases Nat.lt_or_eq_of_le hle with h | h
  · left; exact h
  · right; exact ⟨h, hmin t' ⟨h1', h2', h.symm⟩⟩

/-- the text is short -/
theorem contract_length {F : Fmt} {D A W : Nat} (f : Fits F D A W) (x : Fl) (hv : x.Valid F) (s : List Char)
    (h : Contract F x s) : s.length ≤ D + 5 + W := by
  match x, hv, h with
  | .fin neg m e, hv, ⟨t, _, _, _, hmin⟩ =>
    obtain ⟨t', h1, h2, h3⟩ := exists_short f neg m e hv
    rcases hmin t' h1 h2 with h | h <;> omega
  | .inf neg, _, h =>
    have := f.two
    have := f.three
    rw [show s = _ from h]
    cases neg <;> simp <;> omega
  | .nan neg, _, h =>
    have := f.two
    have := f.three
    rcases h with h | ⟨c, hc, h⟩
    · rw [h]; cases neg <;> simp <;> omega
    · rw [h]; cases neg <;> simp <;> omega

end CE.FloatText
