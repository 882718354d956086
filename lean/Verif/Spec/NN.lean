import Mathlib.Data.Finset.Card
import Mathlib.Order.Interval.Finset.Nat
/-!
# Specification of window layers

How many positions a sliding window has: the start offsets `0, stride, 2*stride, ...` for which the
whole kernel lies inside the padded input.
-/

namespace DW.Spec

/-- Start offsets at which a window of length `kernel` fits into an axis of length `size` padded by
`padding` on both sides, moving by `stride`. -/
def windowStarts (size kernel padding stride : ℕ) : Finset ℕ :=
  (Finset.range (size + 2 * padding + 1)).filter
    (fun start => stride ∣ start ∧ start + kernel ≤ size + 2 * padding)

/-- Number of window positions along one axis. -/
def windowCount (size kernel padding stride : ℕ) : ℕ := (windowStarts size kernel padding stride).card

end DW.Spec
