/-!
# Model of `ce::clock<Fn, Fd>` (lib/h/ce/clock.h:30-70)

`uint64_t` arithmetic wraps; division by zero is `none`.  The results of
`ce::os::monotonic_timestamp()` and `ce::os::monotonic_frequency()` are arguments.
-/
namespace CE.Clock

/-- wrap to 64 bits -/
def w64 (n : Nat) : Nat := n % 2 ^ 64

/-- lib/h/ce/clock.h:33-36 -/
structure Clock where
  frequency : Nat
  timestamp : Nat
  residual : Nat
  tick : Nat

/-- `reset()` lib/h/ce/clock.h:38-44 -/
def reset (frequency timestamp : Nat) : Clock := ⟨frequency, timestamp, 0, 0⟩

/-- `elapsed()` lib/h/ce/clock.h:46-63 -/
def elapsed (Fn Fd : Nat) (c : Clock) (now : Nat) : Option (Nat × Clock) :=
  let elapsedTs := w64 (now + 2 ^ 64 - c.timestamp)
  let fd := w64 (c.frequency * Fd)
  if fd = 0 then none
  else
    let whole := w64 (elapsedTs / fd * Fn)
    let fract := w64 (w64 (elapsedTs % fd * Fn) + c.residual)
    let dt := w64 (whole + fract / fd)
    some (dt, ⟨c.frequency, now, fract % fd, w64 (c.tick + dt)⟩)

/-- `current()` lib/h/ce/clock.h:65-69 -/
def current (Fn Fd : Nat) (c : Clock) (now : Nat) : Option (Nat × Clock) := do
  let (_, c) ← elapsed Fn Fd c now
  return (c.tick, c)

/-- polls at the given timestamps: the values returned by `elapsed()` and the final clock -/
def polls (Fn Fd : Nat) (c : Clock) : List Nat → Option (List Nat × Clock)
  | [] => some ([], c)
  | now :: rest => do
    let (dt, c) ← elapsed Fn Fd c now
    let (dts, c) ← polls Fn Fd c rest
    return (dt :: dts, c)

end CE.Clock
