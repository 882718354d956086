import Verif.Model.FloatAct
import Verif.Model.FloatOptim
/-!
# Chains of layers in `float`

The forward passes of `Linear` layers, `BatchNorm1D` in evaluation mode and activations one after another, as `Model::forward` runs them for a model without branches
(`CPUBackend::forward`, src/runtime/cpu/cpubackend.cpp:86-98). `Dropout` in evaluation mode copies its input and is left out.
-/

set_option autoImplicit false

namespace DW.Float

noncomputable section

variable (R : Rounding) (F : Libm R) (q : Sqrt) {B : ℕ}

/-- One element of `CPUBatchNorm1DForward` with `is_training` false (src/runtime/cpu/kernels/kernels.cpp:311-312, 315). -/
def BatchNormEval (mean var gamma beta eps x y : Flt) : Prop :=
  MulAdd R (sub R x mean) (div R gamma (q.fn (add R var eps))) beta y

/-- A layer from `n` to `k` numbers per row, with its parameters. -/
inductive Layer : ℕ → ℕ → Type
  | linear {n k : ℕ} (W : Fin k → Fin n → Flt) (b : Fin k → Flt) : Layer n k
  | batchNorm {n : ℕ} (mean var gamma beta : Fin n → Flt) (eps : Flt) : Layer n n
  | relu {n : ℕ} : Layer n n
  | leakyRelu {n : ℕ} (alpha : Flt) : Layer n n
  | elu {n : ℕ} (alpha : Flt) : Layer n n
  | sigmoid {n : ℕ} : Layer n n

/-- `forward` of the layer: `Y` is a possible result for `X` (src/runtime/cpu/layers/cpulinear.cpp, cpubatchnorm1d.cpp, cpurelu.cpp, cpuleakyrelu.cpp, cpuelu.cpp,
cpusigmoid.cpp). -/
def Layer.Forward : {n k : ℕ} → Layer n k → (Fin B → Fin n → Flt) → (Fin B → Fin k → Flt) → Prop
  | _, _, .linear W b, X, Y => LinearForward R X W b Y
  | _, _, .batchNorm mean var gamma beta eps, X, Y => ∀ i j, BatchNormEval R q (mean j) (var j) (gamma j) (beta j) eps (X i j) (Y i j)
  | _, _, .relu, X, Y => ∀ i j, Y i j = Float.relu (X i j)
  | _, _, .leakyRelu alpha, X, Y => ∀ i j, Y i j = Float.leakyRelu R alpha (X i j)
  | _, _, .elu alpha, X, Y => ∀ i j, Y i j = Float.elu R F alpha (X i j)
  | _, _, .sigmoid, X, Y => ∀ i j, Y i j = Float.sigmoid R F (X i j)

/-- Layers one after another. -/
inductive Chain : ℕ → ℕ → Type
  | nil {n : ℕ} : Chain n n
  | cons {n k m : ℕ} (l : Layer n k) (c : Chain k m) : Chain n m

/-- The loop over the layers (cpubackend.cpp:86-98). -/
def Chain.Forward : {n m : ℕ} → Chain n m → (Fin B → Fin n → Flt) → (Fin B → Fin m → Flt) → Prop
  | _, _, .nil, X, Y => Y = X
  | _, _, .cons l c, X, Y => ∃ Z, l.Forward R F q X Z ∧ c.Forward Z Y

end

end DW.Float
