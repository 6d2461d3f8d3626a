import Verif.Spec.Os
/-! C87, C88: sleeping, timestamps, mapped files. -/
namespace CE.Os

/-! ### C87 -/

/-- C87.  On POSIX `sleep_ns(ns)` passes on exactly the time, in a well-formed `timespec`, for every 64-bit `ns`; so unless a signal
arrives it waits at least `ns`.  For an interrupted wait see `C87_signal_false`, for Windows `C87_windows_partial`. -/
theorem C87_posix_partial (ns : Nat) (h : ns < 2 ^ 64) {t : Nat} (ht : PosixTakes false (posixSleep ns) t) :
    ns ≤ t ∧ (0 ≤ (posixSleep ns).nsec ∧ (posixSleep ns).nsec < 1000000000) ∧
    (0 ≤ (posixSleep ns).sec ∧ (posixSleep ns).sec < 2 ^ 63) ∧ (posixSleep ns).sec * 1000000000 + (posixSleep ns).nsec = ns := by
  have key : (0 ≤ (posixSleep ns).nsec ∧ (posixSleep ns).nsec < 1000000000) ∧
    (0 ≤ (posixSleep ns).sec ∧ (posixSleep ns).sec < 2 ^ 63) ∧ (posixSleep ns).sec * 1000000000 + (posixSleep ns).nsec = ns := by
    unfold posixSleep
    split <;> dsimp only <;> omega
  refine ⟨?_, key⟩
  have := ht ⟨key.1.1, key.1.2, key.2.1.1⟩ rfl
  omega

/-- C87.  A signal ends the wait early: the rest is not waited for. -/
theorem C87_signal_false : ∃ ns t, ns < 2 ^ 64 ∧ PosixTakes true (posixSleep ns) t ∧ ¬ ns ≤ t :=
  ⟨5, 0, by decide, fun _ h => (by cases h), by decide⟩

/-- C87.  On Windows the time is rounded down to milliseconds, but not to none: it waits at least one millisecond and more than `ns`
less one millisecond, for times below 2^32 - 1 milliseconds (49.7 days); `sleep_ns(0)` gives up the rest of the time slice. -/
theorem C87_windows_partial (ns : Nat) (h : ns < 4294967295000000) :
    winSleep 0 = 0 ∧ ∃ ms, winSleep ns = ms ∧ ms < 2 ^ 32 - 1 ∧ ns < (ms + 1) * 1000000 ∧ (1000000 ≤ ns → ms * 1000000 ≤ ns) ∧
      (0 < ns → 1 ≤ ms) ∧ ∀ t, WinTakes ms t → ns < t + 1000000 := by
  refine ⟨rfl, _, rfl, ?_⟩
  have key : winSleep ns = if ns = 0 then 0 else if ns < 1000000 then 1 else ns / 1000000 := by
    unfold winSleep
    by_cases h0 : ns = 0
    · rw [if_neg (by simpa using h0), if_pos h0]
    · rw [if_pos h0, if_neg h0]
      dsimp only
      by_cases h1 : ns < 1000000
      · rw [if_pos h1, if_neg (by decide)]
      · rw [if_neg h1, Nat.mod_eq_of_lt (by omega), if_neg (by simp)]
  unfold WinTakes
  rw [key]
  split
  · exact ⟨by decide, by omega, by omega, by omega, by omega⟩
  split
  · exact ⟨by decide, by omega, by omega, by omega, by omega⟩
  · exact ⟨by omega, by omega, by omega, by omega, by omega⟩

/-- C87.  On Windows it can wait for less than it was told to. -/
theorem C87_short_false : ∃ ns t, ns < 2 ^ 64 ∧ WinTakes (winSleep ns) t ∧ ¬ ns ≤ t :=
  ⟨1999999, 1000000, by decide, by unfold WinTakes; decide, by decide⟩

/-- C87.  On Windows longer times than that are never over: the value to which they are limited means for ever. -/
theorem C87_forever_false (ns : Nat) (h : 4294967295000000 ≤ ns) : ¬ ∃ t, WinTakes (winSleep ns) t := by
  rintro ⟨t, h1, -⟩
  apply h1
  unfold winSleep
  rw [if_pos (by omega)]
  dsimp only
  rw [if_neg (by omega : ¬ ns < 1000000)]
  split <;> omega

/-- C87.  On POSIX timestamps count nanoseconds, as `monotonic_frequency` says: later readings of the clock give larger or equal
timestamps and the difference is the time between them, for 292 years. -/
theorem C87_timestamp {a b : Timespec} (ha : 0 ≤ a.sec ∧ 0 ≤ a.nsec ∧ a.nsec < 1000000000) (hb : 0 ≤ b.sec ∧ 0 ≤ b.nsec ∧ b.nsec < 1000000000)
    (la : a.sec < 9223372036) (lb : b.sec < 9223372036) :
    ∃ x y, posixTimestamp true a = some x ∧ posixTimestamp true b = some y ∧
      (y : Int) - x = (b.sec - a.sec) * posixFrequency + (b.nsec - a.nsec) ∧
      ((a.sec < b.sec ∨ (a.sec = b.sec ∧ a.nsec ≤ b.nsec)) ↔ x ≤ y) := by
  have key : ∀ {a : Timespec}, (0 ≤ a.sec ∧ 0 ≤ a.nsec ∧ a.nsec < 1000000000) → a.sec < 9223372036 →
      posixTimestamp true a = some (a.nsec + a.sec * 1000000000).toNat := by
    intro a ha la
    unfold posixTimestamp i64
    rw [if_pos rfl, if_pos (by omega)]
    simp only [Option.bind_eq_bind, Option.bind_some]
    rw [if_pos (by omega)]
    simp only [Option.bind_some, pure]
    congr 2
    omega
  refine ⟨_, _, key ha la, key hb lb, ?_, ?_⟩
  · unfold posixFrequency; omega
  · omega

/-- C87.  Beyond that the sum overflows: the timestamp is defined exactly while the time fits 63 bits. -/
theorem C87_timestamp_range {a : Timespec} (ha : 0 ≤ a.sec ∧ 0 ≤ a.nsec ∧ a.nsec < 1000000000) :
    posixTimestamp true a ≠ none ↔ a.sec * 1000000000 + a.nsec < 2 ^ 63 := by
  unfold posixTimestamp i64
  rw [if_pos rfl]
  simp only [Option.bind_eq_bind, pure]
  by_cases h : a.sec * 1000000000 < 2 ^ 63
  · rw [if_pos (by omega), Option.bind_some]
    by_cases h2 : a.nsec + a.sec * 1000000000 < 2 ^ 63
    · rw [if_pos (by omega), Option.bind_some]
      simp; omega
    · rw [if_neg (by omega), Option.bind_none]
      simp; omega
  · rw [if_neg (by omega), Option.bind_none]
    simp; omega

example : PosixTakes false (posixSleep 1500000000) 1500000001 ∧ posixTimestamp true ⟨3, 7⟩ = some 3000000007 := by
  refine ⟨fun _ _ => by decide, by decide⟩

example : (1999999 : Nat) < 4294967295000000 ∧ winSleep 1999999 = 1 ∧ WinTakes (winSleep 1999999) 1000000 :=
  ⟨by decide, by decide, by unfold WinTakes; decide⟩

/-! ### C88 -/

variable {P : Type} {w : World P} {bits : Nat} {path : P}

theorem put_same {X : Type} (f : Nat → Option X) (n : Nat) (v : Option X) : put f n v n = v := by unfold put; rw [if_pos rfl]
theorem put_ne {X : Type} (f : Nat → Option X) {n i : Nat} (v : Option X) (h : i ≠ n) : put f n v i = f i := by unfold put; rw [if_neg h]
theorem put_back {X : Type} (f : Nat → Option X) (n : Nat) (v : Option X) (h : f n = none) : put (put f n v) n none = f := by
  funext i
  unfold put
  by_cases e : i = n
  · rw [if_pos e, e, h]
  · rw [if_neg e, if_neg e]

/-- what `map_span(span, path)` can do -/
theorem mapPath_cases (F : w.Fresh) (bits : Nat) (path : P) :
    ((mapPath bits w path).2 = (⟨0, none⟩, false) ∧ (mapPath bits w path).1.file = w.file ∧ (mapPath bits w path).1.sect = w.sect ∧
      (mapPath bits w path).1.view = w.view ∧ w.next ≤ (mapPath bits w path).1.next) ∨
    (∃ c a, w.files path = some c ∧ c ≠ [] ∧ w.next ≤ a ∧ a < (mapPath bits w path).1.next ∧
      (mapPath bits w path).2 = (⟨c.length % 2 ^ bits, some a⟩, true) ∧ (mapPath bits w path).1.file = w.file ∧
      (mapPath bits w path).1.sect = w.sect ∧
      (mapPath bits w path).1.view = put w.view a (some (if c.length % 2 ^ bits = 0 then c else c.take (c.length % 2 ^ bits)))) := by
  unfold mapPath World.createFile closeFile World.closeFile
  by_cases f1 : w.fail w.time = true
  · left
    simp only [f1, if_true]
    unfold mapSpan World.fileSize
    by_cases f2 : w.fail (w.time + 1) = true <;> simp [f2, World.tick]
  cases hc : w.files path with
  | none =>
    left
    simp only [f1]
    unfold mapSpan World.fileSize
    by_cases f2 : w.fail (w.time + 1) = true <;> simp [f2, World.tick]
  | some c =>
    simp only [f1]
    have fr : w.file w.next = none := F.file _ (Nat.le_refl _)
    have e1 : put (put w.file w.next (some c)) w.next none = w.file := put_back _ _ _ fr
    unfold mapSpan World.fileSize
    by_cases f2 : w.fail (w.time + 1) = true
    · left
      simp [f2, World.tick, e1]
    unfold World.createMapping
    by_cases f3 : w.fail (w.time + 1 + 1) = true
    · left
      simp [f2, f3, World.tick, e1, put_same]
    by_cases he : c = []
    · left
      subst he
      simp [f2, f3, World.tick, e1, put_same]
    have fs : w.sect (w.next + 1) = none := F.sect _ (by omega)
    have e2 : ∀ v, put (put w.sect (w.next + 1) v) (w.next + 1) none = w.sect := fun v => put_back _ _ _ fs
    have hl : c.length ≠ 0 := by simpa using he
    unfold World.mapView World.closeSection
    by_cases f4 : w.fail (w.time + 1 + 1 + 1) = true
    · left
      simp [f2, f3, f4, World.tick, e1, e2, put_same, he, hl]
      exact Nat.le_add_right _ 2
    · right
      have hm : ¬ c.length < c.length % 2 ^ bits := by have := Nat.mod_le c.length (2 ^ bits); omega
      refine ⟨c, w.next + 1 + 1, rfl, he, by omega, ?_⟩
      simp [f2, f3, f4, World.tick, e1, e2, put_same, he, hl, hm]

/-- C88.  Whatever system calls fail, `map_span(span, path)` leaves no handle open; it returns true exactly when it leaves one view
mapped, which the span refers to; and the span is empty otherwise. -/
theorem C88_handles (F : w.Fresh) :
    let r := mapPath bits w path
    r.1.file = w.file ∧ r.1.sect = w.sect ∧
    (r.2.2 = false → r.2.1 = ⟨0, none⟩ ∧ r.1.view = w.view) ∧
    (r.2.2 = true → ∃ a, r.2.1.data = some a ∧ w.view a = none ∧ (r.1.view a).isSome = true ∧ ∀ b, b ≠ a → r.1.view b = w.view b) := by
  intro r
  rcases mapPath_cases F bits path with ⟨h1, h2, h3, h4, -⟩ | ⟨c, a, -, -, h3, -, h4, h5, h6, h7⟩
  · refine ⟨h2, h3, fun _ => ⟨congrArg Prod.fst h1, h4⟩, fun h => ?_⟩
    rw [show r.2.2 = false from congrArg Prod.snd h1] at h
    cases h
  · refine ⟨h5, h6, fun h => ?_, fun _ => ⟨a, by rw [show r.2.1 = _ from congrArg Prod.fst h4], F.view a h3, ?_, fun b hb => ?_⟩⟩
    · rw [show r.2.2 = true from congrArg Prod.snd h4] at h
      cases h
    · rw [show r.1.view = _ from h7, put_same]; rfl
    · rw [show r.1.view = _ from h7, put_ne _ _ hb]

/-- C88.  When it returns true the span shows the whole file, which is not empty, if its size fits `SIZE_T`, in particular on 64-bit
systems. -/
theorem C88_contents (F : w.Fresh) (hs : ∀ c, w.files path = some c → c.length < 2 ^ bits) (h : (mapPath bits w path).2.2 = true) :
    ∃ c, w.files path = some c ∧ c ≠ [] ∧ (mapPath bits w path).1.Shows (mapPath bits w path).2.1 c := by
  rcases mapPath_cases F bits path with ⟨h1, -⟩ | ⟨c, a, h1, h2, h3, -, h4, -, -, h7⟩
  · rw [h1] at h; cases h
  · have hl : c.length ≠ 0 := by simpa using h2
    have hm := Nat.mod_eq_of_lt (hs c h1)
    refine ⟨c, h1, h2, ?_⟩
    unfold World.Shows
    rw [h4, h7, hm, if_neg hl, List.take_length]
    exact ⟨rfl, a, rfl, put_same _ _ _⟩

/-- C88.  `unmap_span` removes exactly that view: everything is as before. -/
theorem C88_unmap (F : w.Fresh) (h : (mapPath bits w path).2.2 = true) :
    let r := mapPath bits w path
    let u := unmapSpan r.1 r.2.1
    u.2 = (⟨0, none⟩, true) ∧ u.1.view = w.view ∧ u.1.file = w.file ∧ u.1.sect = w.sect := by
  rcases mapPath_cases F bits path with ⟨h1, -⟩ | ⟨c, a, h1, h2, h3, -, h4, h5, h6, h7⟩
  · rw [h1] at h; cases h
  · dsimp only
    unfold unmapSpan World.unmapView
    rw [h4]
    dsimp only
    rw [h7, put_same]
    refine ⟨rfl, ?_, h5, h6⟩
    show put (mapPath bits w path).1.view a none = w.view
    rw [h7]; exact put_back _ _ _ (F.view a h3)

/-- C88.  Unmapping once more, or a span that could not be mapped, returns false and does no harm. -/
theorem C88_unmap_twice (v : World P) (s : Span) :
    let u := unmapSpan v s
    let t := unmapSpan u.1 u.2.1
    t.2 = (⟨0, none⟩, false) ∧ t.1.view = u.1.view ∧ t.1.file = u.1.file ∧ t.1.sect = u.1.sect ∧
      (s.data = none → u.2 = (⟨0, none⟩, false) ∧ u.1.view = v.view ∧ u.1.file = v.file ∧ u.1.sect = v.sect) := by
  refine ⟨rfl, rfl, rfl, rfl, fun h => ?_⟩
  unfold unmapSpan
  rw [h]
  exact ⟨rfl, rfl, rfl, rfl⟩

/-- C88.  The file can be mapped again and again: the numbers in use stay below the next one. -/
theorem C88_fresh (F : w.Fresh) : (mapPath bits w path).1.Fresh := by
  rcases mapPath_cases F bits path with ⟨-, h2, h3, h4, h5⟩ | ⟨c, a, -, -, h3, h3', -, h5, h6, h7⟩
  · exact ⟨fun n hn => by rw [h2]; exact F.file n (by omega), fun n hn => by rw [h3]; exact F.sect n (by omega),
      fun n hn => by rw [h4]; exact F.view n (by omega)⟩
  · exact ⟨fun n hn => by rw [h5]; exact F.file n (by omega), fun n hn => by rw [h6]; exact F.sect n (by omega),
      fun n hn => by rw [h7, put_ne _ _ (by omega)]; exact F.view n (by omega)⟩

/-- C88.  If no call fails every file that is not empty can be mapped. -/
theorem C88_success (F : w.Fresh) (ok : ∀ t, w.fail t = false) {c : List UInt8} (hc : w.files path = some c) (he : c ≠ []) :
    (mapPath bits w path).2.2 = true := by
  have hl : c.length ≠ 0 := by simpa using he
  have hm : ¬ c.length < c.length % 2 ^ bits := by have := Nat.mod_le c.length (2 ^ bits); omega
  unfold mapPath World.createFile
  simp only [ok, hc]
  unfold mapSpan World.fileSize World.createMapping World.mapView
  simp [ok, World.tick, put_same, he, hl, hm]

/-- C88.  `open_file` returns true exactly when it opened the file; then `close_file` returns true and everything is as before; to close
the same `file_t` once more, or one that could not be opened, does no harm. -/
theorem C88_file (F : w.Fresh) :
    let r := openFile w path
    let c := closeFile r.1 r.2.1
    let d := closeFile c.1 c.2.1
    (r.2.2 = true ↔ ∃ h b, r.2.1 = some h ∧ w.files path = some b ∧ r.1.file h = some b ∧ w.file h = none) ∧
    (r.2.2 = false ↔ r.2.1 = none) ∧ (r.2.2 = true → c.2.2 = true) ∧ c.2.1 = none ∧ c.1.file = w.file ∧ c.1.sect = w.sect ∧ c.1.view = w.view ∧
    d.1.file = w.file ∧ d.1.sect = w.sect ∧ d.1.view = w.view := by
  have fr : w.file w.next = none := F.file _ (Nat.le_refl _)
  unfold openFile closeFile World.createFile World.closeFile
  by_cases f : w.fail w.time = true
  · simp [f, World.tick]
  cases hb : w.files path with
  | none => simp [f, World.tick]
  | some b => simp [f, World.tick, put_same, put_back _ _ _ fr, fr]

/-- C88.  `map_span<T>(path)` gives as many whole elements as the file holds, all within the file; and nothing if it cannot be mapped. -/
theorem C88_elements (F : w.Fresh) {unit : Nat} (hu : 1 ≤ unit) (hs : ∀ c, w.files path = some c → c.length < 2 ^ bits) :
    let r := mapAs bits unit w path
    (r.2 = (0, none) ∧ r.1.view = w.view) ∨
    ∃ c a, w.files path = some c ∧ r.2.2 = some a ∧ r.1.view a = some c ∧ r.2.1 * unit ≤ c.length ∧ c.length < (r.2.1 + 1) * unit := by
  rcases mapPath_cases F bits path with ⟨h1, h2, h3, h4, -⟩ | ⟨c, a, h1, h2, h3, -, h4, h5, h6, h7⟩
  · left
    unfold mapAs
    dsimp only
    rw [h1]
    exact ⟨by simp, h4⟩
  · right
    have hl : c.length ≠ 0 := by simpa using h2
    have hm := Nat.mod_eq_of_lt (hs c h1)
    unfold mapAs
    dsimp only
    refine ⟨c, a, h1, by rw [h4], ?_, ?_, ?_⟩
    · rw [h7, hm, if_neg hl, List.take_length, put_same]
    · rw [h4, hm]; exact Nat.div_mul_le_self _ _
    · rw [h4, hm, Nat.add_mul, Nat.one_mul, Nat.mul_comm]
      dsimp only
      have := Nat.div_add_mod c.length unit
      have := Nat.mod_lt c.length (show 0 < unit by omega)
      omega

/-- C88.  On POSIX no file can be opened or mapped; all functions say so, and spans come out empty whatever they held. -/
theorem C88_posix_false (s : Span) (path : P) (f : Option Nat) (unit : Nat) :
    (posixOpen f path).2 = false ∧ (posixMapSpan s f).2 = false ∧ posixMapPath s path = (⟨0, none⟩, false) ∧
      posixMapAs unit s path = (0, none) ∧ posixUnmapSpan s = (⟨0, none⟩, false) ∧ posixClose f = (f, false) :=
  ⟨rfl, rfl, rfl, by simp [posixMapAs, posixMapPath, posixMapSpan], rfl, rfl⟩

/-- C88.  An empty file cannot be told from one that is missing. -/
theorem C88_empty_false (F : w.Fresh) (hc : w.files path = some []) : (mapPath bits w path).2 = (⟨0, none⟩, false) := by
  rcases mapPath_cases F bits path with ⟨h1, -⟩ | ⟨c, a, h1, h2, -⟩
  · exact h1
  · rw [hc] at h1; cases h1; exact absurd rfl h2

/-- C88.  On a 32-bit system the size of a file of 4 GB and more is taken modulo 2^32: the span shows its beginning only. -/
theorem C88_large_false {c : List UInt8} (F : w.Fresh) (ok : ∀ t, w.fail t = false) (hc : w.files path = some c) (hl : c.length = 2 ^ 32 + 5) :
    (mapPath 32 w path).2.2 = true ∧ (mapPath 32 w path).1.Shows (mapPath 32 w path).2.1 (c.take 5) := by
  have h0 : c ≠ [] := fun e => by rw [e] at hl; simp at hl
  have ht := C88_success (bits := 32) F ok hc h0
  refine ⟨ht, ?_⟩
  rcases mapPath_cases F 32 path with ⟨h1, -⟩ | ⟨c', a, h1, h2, h3, -, h4, -, -, h7⟩
  · rw [h1] at ht; cases ht
  · rw [hc] at h1
    cases h1
    have hm : c.length % 2 ^ 32 = 5 := by rw [hl]
    unfold World.Shows
    rw [h4, h7, hm, if_neg (by decide)]
    refine ⟨?_, a, rfl, put_same _ _ _⟩
    rw [List.length_take, hl]
    rfl

/-- a system with one file, in which the third call fails, when it does -/
def disk (bad : Bool) : World Unit := ⟨fun _ => some [1, 2, 3], fun _ => none, fun _ => none, fun _ => none, 10, fun t => bad && t == 2, 0, true⟩

theorem disk_fresh (bad : Bool) : (disk bad).Fresh := ⟨fun _ _ => rfl, fun _ _ => rfl, fun _ _ => rfl⟩

example : (disk false).Fresh ∧ (mapPath 64 (disk false) ()).2 = (⟨3, some 12⟩, true) ∧ (mapPath 64 (disk true) ()).2 = (⟨0, none⟩, false) :=
  ⟨disk_fresh _, by decide, by decide⟩

example : ∃ (w : World Unit) (c : List UInt8), w.Fresh ∧ (∀ t, w.fail t = false) ∧ w.files () = some c ∧ c.length = 2 ^ 32 + 5 :=
  ⟨⟨fun _ => some (List.replicate (2 ^ 32 + 5) 0), fun _ => none, fun _ => none, fun _ => none, 0, fun _ => false, 0, true⟩,
    List.replicate (2 ^ 32 + 5) 0, ⟨fun _ _ => rfl, fun _ _ => rfl, fun _ _ => rfl⟩, fun _ => rfl, rfl, List.length_replicate⟩

end CE.Os
