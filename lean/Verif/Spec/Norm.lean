import Mathlib.Analysis.SpecialFunctions.Sqrt
import Mathlib.Algebra.BigOperators.Fin
/-! # Averages and batch normalisation -/

namespace DW.Spec

noncomputable section

variable {ι κ : Type} [Fintype ι]

/-- The arithmetic mean. -/
def mean (f : ι → ℝ) : ℝ := (∑ i, f i) / Fintype.card ι

/-- The (biased) variance. -/
def variance (f : ι → ℝ) : ℝ := mean fun i => (f i - mean f) ^ 2

/-- Normalise by a given mean and variance, then scale and shift. -/
def normalise (mu var eps gamma beta x : ℝ) : ℝ := gamma * ((x - mu) / Real.sqrt (var + eps)) + beta

/-- Batch normalisation of samples `ι` with features `κ`, by the statistics of the batch itself. -/
def batchNorm (eps : ℝ) (gamma beta : κ → ℝ) (X : ι → κ → ℝ) (i : ι) (j : κ) : ℝ :=
  normalise (mean fun i => X i j) (variance fun i => X i j) eps (gamma j) (beta j) (X i j)

/-- An image batch as samples (one per pixel of each image) with one feature per channel. -/
def pixels {N C H W : Nat} (X : Fin N → Fin C → Fin H → Fin W → ℝ) : Fin N × Fin H × Fin W → Fin C → ℝ :=
  fun p c => X p.1 c p.2.1 p.2.2

/-- The mean of each plane. -/
def planeMean {N C H W : Nat} (X : Fin N → Fin C → Fin H → Fin W → ℝ) (n : Fin N) (c : Fin C) : ℝ :=
  mean fun p : Fin H × Fin W => X n c p.1 p.2

end

end DW.Spec
