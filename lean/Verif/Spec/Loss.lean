import Verif.Spec.Matrix
import Verif.Spec.Deriv
import Mathlib.Analysis.SpecialFunctions.Log.Basic
import Mathlib.Algebra.Order.Floor.Ring
/-! # Cross-entropy and accuracy, as mathematics -/

namespace DW.Spec

noncomputable section

/-- Mean negative log-likelihood of the labels `L` under the predictions `P`. -/
def crossEntropy {B n : Nat} (P : Fin B → Fin n → ℝ) (L : Fin B → Fin n) : ℝ :=
  -(∑ i, Real.log (P i (L i))) / B

/-- `g` is the gradient of `f` at `x`. -/
def HasGradient {ι : Type} [Fintype ι] (f : (ι → ℝ) → ℝ) (x g : ι → ℝ) : Prop :=
  ∃ J : (ι → ℝ) →L[ℝ] ℝ, HasFDerivAt f J x ∧ ∀ v, J v = ∑ i, g i * v i

/-- Rounding towards zero. -/
def trunc (x : ℝ) : Int := if 0 ≤ x then ⌊x⌋ else ⌈x⌉

/-- Column `k` holds the maximum of the row, and no earlier column does. -/
def FirstMax {n : Nat} (r : Fin n → ℝ) (k : Fin n) : Prop := (∀ j, r j ≤ r k) ∧ ∀ j < k, r j < r k

/-- The predicted class of a row (its first maximal column) is the label. -/
def Hit {n : Nat} (r : Fin n → ℝ) (label : ℝ) : Prop := ∃ k, FirstMax r k ∧ ((k : Nat) : ℝ) = label

open Classical in
/-- Fraction of the rows satisfying a predicate. -/
def fraction {B : Nat} (p : Fin B → Prop) : ℝ := (Finset.univ.filter p).card / B

end

end DW.Spec
