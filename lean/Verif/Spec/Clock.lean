/-! Time as unbounded integers. -/
namespace CE.Clock

/-- poll times in order, none more than a full wrap of the 64-bit counter after the one before -/
def Schedule : Nat → List Nat → Prop
  | _, [] => True
  | t, t' :: ts => t ≤ t' ∧ t' - t < 2 ^ 64 ∧ Schedule t' ts

/-- whole ticks of a rate of `Fn / Fd` per second in `e` units of `1 / frequency` second -/
def ticks (Fn Fd frequency e : Nat) : Nat := e * Fn / (frequency * Fd)

/-- time of the last poll -/
def lastTime (t : Nat) (ts : List Nat) : Nat := ts.getLastD t

end CE.Clock
