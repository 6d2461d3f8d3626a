import Verif.Model.Clock
import Verif.Spec.Clock
import Mathlib.Tactic.Ring
import Mathlib.Tactic.Linarith
/-!
# C40, C41: clock
-/
namespace CE.Clock

theorem w64_eq (n : Nat) (h : n < 2 ^ 64) : w64 n = n := Nat.mod_eq_of_lt h

theorem w64_diff (t t' : Nat) (h : t ≤ t') (h2 : t' - t < 2 ^ 64) :
    w64 (w64 t' + 2 ^ 64 - w64 t) = t' - t := by
  unfold w64; omega

/-- one poll: exact division with remainder, no intermediate value wraps -/
theorem elapsed_eq (Fn Fd f : Nat) (t t' tick res : Nat) (ht : t ≤ t') (h64 : t' - t < 2 ^ 64)
    (hpos : 0 < f * Fd) (hfd : f * Fd < 2 ^ 64) (hov : (f * Fd - 1) * (Fn + 1) < 2 ^ 64)
    (hres : res < f * Fd) (hsum : tick + ((t' - t) * Fn + res) / (f * Fd) < 2 ^ 64) :
    elapsed Fn Fd ⟨f, w64 t, res, tick⟩ (w64 t') =
      some (((t' - t) * Fn + res) / (f * Fd),
        ⟨f, w64 t', ((t' - t) * Fn + res) % (f * Fd), tick + ((t' - t) * Fn + res) / (f * Fd)⟩) := by
  unfold elapsed
  dsimp only
  rw [w64_diff t t' ht h64, w64_eq _ hfd, if_neg (by omega)]
  generalize hD : f * Fd = D at *
  generalize he : t' - t = e at *
  clear hD he ht
  have hmod : e % D < D := Nat.mod_lt _ hpos
  have hexp : e * Fn + res = e % D * Fn + res + e / D * Fn * D := by
    conv => lhs; rw [← Nat.mod_add_div e D]
    ring
  have hdiv : (e * Fn + res) / D = e / D * Fn + (e % D * Fn + res) / D := by
    rw [hexp, Nat.add_mul_div_right _ _ hpos, Nat.add_comm]
  have hmd : (e * Fn + res) % D = (e % D * Fn + res) % D := by
    rw [hexp, Nat.add_mul_mod_self_right]
  have hfr : e % D * Fn + res < 2 ^ 64 := by
    have : e % D * Fn ≤ (D - 1) * Fn := Nat.mul_le_mul_right _ (by omega)
    rw [Nat.mul_succ] at hov
    omega
  rw [hdiv] at hsum
  rw [hdiv, hmd, w64_eq (e % D * Fn) (Nat.lt_of_le_of_lt (Nat.le_add_right _ _) hfr), w64_eq _ hfr]
  generalize (e % D * Fn + res) / D = q at *
  generalize e / D * Fn = p at *
  rw [w64_eq p (by omega), w64_eq (p + q) (by omega), w64_eq (tick + (p + q)) (by omega)]

theorem polls_eq (Fn Fd f : Nat) (hpos : 0 < f * Fd) (hfd : f * Fd < 2 ^ 64)
    (hov : (f * Fd - 1) * (Fn + 1) < 2 ^ 64) (ts : List Nat) (t0 t : Nat) (h0 : t0 ≤ t)
    (hs : Schedule t ts) (htot : ticks Fn Fd f (lastTime t ts - t0) < 2 ^ 64) :
    ∃ dts, polls Fn Fd ⟨f, w64 t, (t - t0) * Fn % (f * Fd), ticks Fn Fd f (t - t0)⟩ (ts.map w64) =
        some (dts, ⟨f, w64 (lastTime t ts), (lastTime t ts - t0) * Fn % (f * Fd),
          ticks Fn Fd f (lastTime t ts - t0)⟩) ∧
      ticks Fn Fd f (t - t0) + dts.sum = ticks Fn Fd f (lastTime t ts - t0) ∧ t ≤ lastTime t ts := by
  induction ts generalizing t with
  | nil => exact ⟨[], rfl, by simp [lastTime], Nat.le_refl _⟩
  | cons t' ts ih =>
    obtain ⟨h1, h2, h3⟩ := hs
    have hl : lastTime t (t' :: ts) = lastTime t' ts := by
      unfold lastTime; rw [List.getLastD_cons]
    rw [hl] at htot ⊢
    obtain ⟨dts, e1, e2, e3⟩ := ih t' (by omega) h3 htot
    have hsplit : (t' - t0) * Fn = (t' - t) * Fn + (t - t0) * Fn := by
      rw [← Nat.add_mul]; congr 1; omega
    have hq : (t' - t0) * Fn / (f * Fd) =
        ticks Fn Fd f (t - t0) + ((t' - t) * Fn + (t - t0) * Fn % (f * Fd)) / (f * Fd) := by
      unfold ticks
      rw [hsplit]
      conv => lhs; rw [← Nat.mod_add_div ((t - t0) * Fn) (f * Fd), ← Nat.add_assoc,
        Nat.add_mul_div_left _ _ hpos]
      omega
    have hr : (t' - t0) * Fn % (f * Fd) = ((t' - t) * Fn + (t - t0) * Fn % (f * Fd)) % (f * Fd) := by
      rw [hsplit, Nat.add_mod_mod]
    have hmono : ticks Fn Fd f (t' - t0) ≤ ticks Fn Fd f (lastTime t' ts - t0) := by
      unfold ticks
      exact Nat.div_le_div_right (Nat.mul_le_mul_right _ (by omega))
    have hq' : ticks Fn Fd f (t' - t0) = ticks Fn Fd f (t - t0) +
        ((t' - t) * Fn + (t - t0) * Fn % (f * Fd)) / (f * Fd) := hq
    have hstep := elapsed_eq Fn Fd f t t' (ticks Fn Fd f (t - t0)) ((t - t0) * Fn % (f * Fd)) h1 h2
      hpos hfd hov (Nat.mod_lt _ hpos) (by omega)
    rw [← hr, ← hq'] at hstep
    refine ⟨((t' - t) * Fn + (t - t0) * Fn % (f * Fd)) / (f * Fd) :: dts, ?_, ?_, by omega⟩
    · rw [List.map_cons, polls, hstep]
      simp only [Option.bind_eq_bind, Option.bind_some]
      rw [e1]; rfl
    · rw [List.sum_cons]; omega

/-- C40.  For every polling schedule (the hardware counter may wrap between polls), frequency and
rate for which the intermediates fit: the tick count after the last poll is exactly
`floor(elapsed * Fn / (frequency * Fd))`, and the values returned by `elapsed()` add up to it. -/
theorem C40_no_drift (Fn Fd f t0 : Nat) (ts : List Nat) (hpos : 0 < f * Fd) (hfd : f * Fd < 2 ^ 64)
    (hov : (f * Fd - 1) * (Fn + 1) < 2 ^ 64) (hs : Schedule t0 ts)
    (htot : ticks Fn Fd f (lastTime t0 ts - t0) < 2 ^ 64) :
    ∃ dts c, polls Fn Fd (reset f (w64 t0)) (ts.map w64) = some (dts, c) ∧
      c.tick = ticks Fn Fd f (lastTime t0 ts - t0) ∧ dts.sum = c.tick := by
  have := polls_eq Fn Fd f hpos hfd hov ts t0 t0 (Nat.le_refl _) hs htot
  simp only [Nat.sub_self, Nat.zero_mul, Nat.zero_mod, ticks, Nat.zero_div, Nat.zero_add] at this
  obtain ⟨dts, e1, e2, _⟩ := this
  exact ⟨dts, _, e1, rfl, e2⟩

/-- C40.  `current()` after any polls gives the ticks up to its own reading. -/
theorem C40_current (Fn Fd f t0 : Nat) (ts : List Nat) (now : Nat) (hpos : 0 < f * Fd)
    (hfd : f * Fd < 2 ^ 64) (hov : (f * Fd - 1) * (Fn + 1) < 2 ^ 64) (hs : Schedule t0 (ts ++ [now]))
    (htot : ticks Fn Fd f (now - t0) < 2 ^ 64) :
    ∃ dts c c', polls Fn Fd (reset f (w64 t0)) (ts.map w64) = some (dts, c) ∧
      current Fn Fd c (w64 now) = some (ticks Fn Fd f (now - t0), c') := by
  have hlast : lastTime t0 (ts ++ [now]) = now := by simp [lastTime]
  obtain ⟨dts, c, e1, e2, _⟩ := C40_no_drift Fn Fd f t0 (ts ++ [now]) hpos hfd hov hs
    (by rw [hlast]; exact htot)
  rw [hlast] at e2
  have split : ∀ (a b : List Nat) (c : Clock), polls Fn Fd c (a ++ b) =
      (polls Fn Fd c a).bind fun r => (polls Fn Fd r.2 b).map fun s => (r.1 ++ s.1, s.2) := by
    intro a
    induction a with
    | nil => intro b c; simp [polls]
    | cons x a ih =>
      intro b c
      simp only [List.cons_append, polls, Option.bind_eq_bind, ih]
      cases elapsed Fn Fd c x with
      | none => rfl
      | some r =>
        simp only [Option.bind_some]
        cases polls Fn Fd r.2 a with
        | none => rfl
        | some s =>
          simp only [Option.bind_some]
          cases hb : polls Fn Fd s.2 b <;> simp [hb]
  rw [List.map_append, split] at e1
  cases hp : polls Fn Fd (reset f (w64 t0)) (ts.map w64) with
  | none => rw [hp] at e1; cases e1
  | some r =>
    obtain ⟨dts1, c1⟩ := r
    rw [hp, Option.bind_some] at e1
    simp only [List.map_cons, List.map_nil, polls, Option.bind_eq_bind] at e1
    cases he : elapsed Fn Fd c1 (w64 now) with
    | none => rw [he] at e1; cases e1
    | some s =>
      obtain ⟨dt, c2⟩ := s
      rw [he] at e1
      simp at e1
      refine ⟨dts1, c1, c2, rfl, ?_⟩
      unfold current
      rw [he]
      simp [e1.2, e2]

/-- a nanosecond counter polled at odd times, 60 ticks per second, across a wrap of the counter -/
example : Schedule (2 ^ 64 - 5000000000) [2 ^ 64 - 4983333334, 2 ^ 64 + 1, 2 ^ 64 + 7777777777] ∧
    0 < 1000000000 * 1 ∧ (1000000000 * 1 - 1) * (60 + 1) < 2 ^ 64 ∧
    ticks 60 1 1000000000 (lastTime (2 ^ 64 - 5000000000)
      [2 ^ 64 - 4983333334, 2 ^ 64 + 1, 2 ^ 64 + 7777777777] - (2 ^ 64 - 5000000000)) = 766 := by
  unfold Schedule Schedule Schedule Schedule
  decide +kernel

/-- C41.  Sufficient bounds for one poll: `frequency * Fd * (Fn + 1) ≤ 2^64`.  Then every product and
sum formed by `elapsed()` is the mathematical one: the result is the exact quotient and the residual
the exact remainder. -/
theorem C41_no_overflow (Fn Fd f t t' tick res : Nat) (ht : t ≤ t') (h64 : t' - t < 2 ^ 64)
    (hpos : 0 < f * Fd) (hov : f * Fd * (Fn + 1) ≤ 2 ^ 64) (hfd : f * Fd < 2 ^ 64)
    (hres : res < f * Fd) (hsum : tick + ((t' - t) * Fn + res) / (f * Fd) < 2 ^ 64) :
    elapsed Fn Fd ⟨f, w64 t, res, tick⟩ (w64 t') =
      some (((t' - t) * Fn + res) / (f * Fd),
        ⟨f, w64 t', ((t' - t) * Fn + res) % (f * Fd), tick + ((t' - t) * Fn + res) / (f * Fd)⟩) := by
  refine elapsed_eq Fn Fd f t t' tick res ht h64 hpos hfd ?_ hres hsum
  have : (f * Fd - 1) * (Fn + 1) < f * Fd * (Fn + 1) :=
    Nat.mul_lt_mul_of_pos_right (by omega) (by omega)
  omega

/-- C41.  A frequency of zero divides by zero at the first poll. -/
theorem C41_zero_frequency_undefined (Fn Fd t now : Nat) : elapsed Fn Fd (reset 0 t) now = none := by
  simp [elapsed, reset, w64]

/-- C41.  The bound matters: with a rate of 2^40 ticks per second on a nanosecond clock, a poll after
0.9 seconds gives the wrong count. -/
theorem C41_overflow_beyond_bound : ∃ dt c, elapsed (2 ^ 40) 1 (reset 1000000000 0) 900000000 = some (dt, c) ∧
    dt ≠ ticks (2 ^ 40) 1 1000000000 900000000 := by
  refine ⟨_, _, rfl, by decide +kernel⟩

end CE.Clock
