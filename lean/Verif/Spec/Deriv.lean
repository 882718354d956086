import Mathlib.Analysis.Calculus.FDeriv.Basic
import Mathlib.Analysis.Calculus.FDeriv.Comp
import Mathlib.Analysis.Calculus.FDeriv.Pi
import Mathlib.Analysis.Normed.Module.FiniteDimension
/-! # Gradients -/

namespace DW.Spec

/-- `bwd` back-propagates through `f` at `x`: `f` is differentiable at `x`, and for every output
gradient `g`, `bwd g` is the gradient of `sum_k g_k f_k` with respect to the input (the transposed
derivative applied to `g`). -/
def Backprop {ι κ : Type} [Fintype ι] [Fintype κ] (f : (ι → ℝ) → (κ → ℝ)) (x : ι → ℝ)
    (bwd : (κ → ℝ) → (ι → ℝ)) : Prop :=
  ∃ J : (ι → ℝ) →L[ℝ] (κ → ℝ), HasFDerivAt f J x ∧
    ∀ (g : κ → ℝ) (v : ι → ℝ), ∑ k, g k * J v k = ∑ i, bwd g i * v i

end DW.Spec
