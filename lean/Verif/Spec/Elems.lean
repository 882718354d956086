import Mathlib.Logic.Equiv.Fin.Basic
import Verif.Spec.Network
import Verif.Spec.Conv
/-!
# The elements of tensors as matrices and image batches

`Elems s` are the elements of a tensor in the order they are stored. Here they are indexed by row and column, or by
sample, channel, row and column.
-/

set_option autoImplicit false

namespace DW.Spec

open DW

/-- The elements of a tensor, indexed by `ι`. -/
def arr {s : Shape} {ι : Type} (E : Fin (size s) ≃ ι) (u : Elems s) : ι → ℝ := fun i => u (E.symm i)

/-- And back. -/
def elems {s : Shape} {ι : Type} (E : Fin (size s) ≃ ι) (y : ι → ℝ) : Elems s := fun k => y (E k)

/-- Matrices, row by row: number `i*n + j` is at `(i, j)`. -/
def matE {N m n : Nat} (h : N = m * n) : Fin N ≃ Fin m × Fin n := (finCongr h).trans finProdFinEquiv.symm

/-- Image batches. -/
def imgE {N a b c d : Nat} (h : N = a * (b * (c * d))) : Fin N ≃ Fin a × Fin b × Fin c × Fin d :=
  (matE h).trans ((Equiv.refl _).prodCongr ((matE rfl).trans ((Equiv.refl _).prodCongr (matE rfl))))

/-- Two lists of numbers, one after the other. -/
def sumE {P m n : Nat} (h : P = m + n) : Fin P ≃ Fin m ⊕ Fin n := (finCongr h).trans finSumFinEquiv.symm

end DW.Spec
