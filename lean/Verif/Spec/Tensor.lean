import Mathlib.Algebra.BigOperators.Group.List.Basic
import Mathlib.Data.Set.Function
/-!
# Specification vocabulary for dense tensors

Independent of the model: products of dimensions, multi-indices, row-major offsets.
-/

namespace DW.Spec

/-- Number of elements of a dense array with these dimensions. -/
def count (shape : List Int) : Int := shape.prod

/-- No dimension is negative. -/
def Static (shape : List Int) : Prop := ∀ d ∈ shape, 0 ≤ d

/-- Every partial product fits into a 32-bit `int` (so counting elements does not overflow). -/
def CountFits (shape : List Int) : Prop := ∀ k, (shape.take k).prod ≤ 2147483647

instance : DecidablePred Static := fun s => by unfold Static; infer_instance

/-- `idx` is a valid multi-index for `shape`. -/
def InRange (shape idx : List Int) : Prop := List.Forall₂ (fun i d => 0 ≤ i ∧ i < d) idx shape

/-- Offset of a multi-index under given strides. -/
def offset (strides idx : List Int) : Int := (List.zipWith (· * ·) idx strides).sum

end DW.Spec
