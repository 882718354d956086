import Verif.Model.FloatBatchNorm
/-!
# Gradients of batch normalization, in `float`

`CPUBatchNorm1DInputGrad` and `CPUBatchNorm1DParamGrad` (src/runtime/cpu/kernels/kernels.cpp:318-344), for one column with `B` rows: `C` is the column of
`input_centered`, `S` the element of `std`, `G` the column of `grad_output`. `BatchNorm2D` runs the same kernels (src/runtime/cpu/layers/cpubatchnorm2d.cpp).

In the kernel only the last statement stores anything. Everything before it is declared `auto` and is an expression that Eigen evaluates wherever it is used, possibly
adding in different orders, so each of the relations here says what a value of the expression may be.
-/

set_option autoImplicit false

namespace DW.Float

open scoped ENNReal

noncomputable section

variable (R : Rounding) {B : ℕ} (gamma S : Flt) (C G : Fin B → Flt)

/-- An element of `grad_x_norm` (kernels.cpp:323). -/
def gradNorm (i : Fin B) : Flt := mul R (G i) gamma

/-- A value of `grad_std` (kernels.cpp:325-326). -/
def GradStd (s : Flt) : Prop :=
  ∃ t, SumOf R (List.ofFn fun i => div R (mul R (C i) (gradNorm R gamma G i)) (mul R S S)) t ∧ s = mul R t (.num true 1)

/-- A value of `grad_var` (kernels.cpp:328). -/
def GradVar (v : Flt) : Prop := ∃ s, GradStd R gamma S C G s ∧ v = div R s (mul R S (ofNat R 2))

/-- The factor `2.0 / batch_size` (kernels.cpp:331): a quotient of `double`s, which is within the relative error `2 ^ -53` of the exact one, rounded to `float`. -/
def IsTwoOver (B : ℕ) (f : Flt) : Prop :=
  ∃ d : ℝ≥0∞, d ≤ 2 / B + 2 / B * (2 ^ 53)⁻¹ ∧ 2 / B ≤ d + 2 / B * (2 ^ 53)⁻¹ ∧ f = .num false (R.rd d)

/-- A value of an element of `grad_x_centered` (kernels.cpp:330-331). -/
def GradCentered (i : Fin B) (z : Flt) : Prop :=
  ∃ v f, GradVar R gamma S C G v ∧ IsTwoOver R B f ∧ MulAdd R (mul R (C i) v) f (div R (gradNorm R gamma G i) S) z

/-- A value of `grad_mu / batch_size` (kernels.cpp:333, 336). -/
def GradMean (m : Flt) : Prop := ∃ Z : Fin B → Flt, (∀ i, GradCentered R gamma S C G i (Z i)) ∧ MeanOf R Z m

/-- `CPUBatchNorm1DInputGrad`: `G'` is what `grad_input` may hold afterwards if it held `G₀` (kernels.cpp:335-336). -/
def BatchNormInputGrad (G₀ G' : Fin B → Flt) : Prop :=
  ∀ i, ∃ z m, GradCentered R gamma S C G i z ∧ GradMean R gamma S C G m ∧ G' i = add R (G₀ i) (sub R z m)

/-- `CPUBatchNorm1DParamGrad` (kernels.cpp:339-344): possible elements of `gamma_grad` and `beta_grad`. -/
def BatchNormParamGrad (dgamma dbeta : Flt) : Prop :=
  SumOf R (List.ofFn G) dbeta ∧ DotOf R (List.ofFn fun i => (div R (C i) S, G i)) dgamma

end

end DW.Float
