import Mathlib.Algebra.BigOperators.Group.List.Basic
/-! # Sizes that fit into `int` -/

set_option autoImplicit false

namespace DW.Spec

/-- A tensor of this shape exists: its dimensions are positive and `int` can count its elements. -/
def Counted (shape : List Nat) : Prop := (∀ d ∈ shape, 0 < d) ∧ shape.prod ≤ 2147483647

/-- In one direction of an image of size `n` a window of size `k` with padding `p` and stride `s` has `out` positions. The numbers
are far from the limits of `int`. -/
structure Win (n k p s out : Nat) : Prop where
  kernel : 0 < k
  stride : 0 < s
  fits : k ≤ n + 2 * p
  out : out = (n + 2 * p - k) / s + 1
  small : n + 2 * p + s ≤ 2147483647

end DW.Spec
