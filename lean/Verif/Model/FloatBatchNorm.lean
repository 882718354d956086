import Verif.Model.FloatNet
import Verif.Model.FloatCount
/-!
# Batch normalization in training mode, in `float`

`CPUBatchNorm1DForward` with `is_training` true (src/runtime/cpu/kernels/kernels.cpp:295-316). The columns do not influence each other, so this is about one
column with `B` rows. `BatchNorm2D` runs the same kernel on a matrix with one row per pixel (src/runtime/cpu/layers/cpubatchnorm2d.cpp).
-/

set_option autoImplicit false

namespace DW.Float

noncomputable section

variable (R : Rounding) (q : Sqrt) {B : ℕ}

/-- A result of `colwise().mean()`: the sum, in any order, divided by the number of rows (kernels.cpp:302). -/
def MeanOf (X : Fin B → Flt) (m : Flt) : Prop := ∃ s, SumOf R (List.ofFn X) s ∧ m = div R s (ofNat R B)

/-- A result of `cwiseAbs2().colwise().mean()` (kernels.cpp:305). -/
def SquareMeanOf (C : Fin B → Flt) (v : Flt) : Prop := ∃ s, DotOf R (List.ofFn fun i => (C i, C i)) s ∧ v = div R s (ofNat R B)

/-- One column of a pass: `C` is the column of `input_centered`, `S` the element of `std` and `Y` the column of `output` (kernels.cpp:302-306, 315).
`input_mean` is an expression that Eigen evaluates wherever it is used, possibly in different orders, so the elements of `C` may use different results. -/
structure BatchNormTrain (gamma beta eps : Flt) (X C : Fin B → Flt) (S : Flt) (Y : Fin B → Flt) : Prop where
  centered : ∀ i, ∃ m, MeanOf R X m ∧ C i = sub R (X i) m
  deviation : ∃ v, SquareMeanOf R C v ∧ S = q.fn (add R v eps)
  output : ∀ i, MulAdd R (C i) (div R gamma S) beta (Y i)

/-- The update of the running mean and variance (kernels.cpp:308-309). `input_mean` and `input_var` are evaluated again. -/
def RunningStep (alpha : Flt) (X C : Fin B → Flt) (mean var mean' var' : Flt) : Prop :=
  ∃ m v, MeanOf R X m ∧ SquareMeanOf R C v ∧ MulAddMul R mean alpha m (sub R 1 alpha) mean' ∧ MulAddMul R var alpha v (sub R 1 alpha) var'

end

end DW.Float
