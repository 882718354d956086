import Verif.Model.Floats
/-!
# Activations, dropout and accumulated gradients in `float`

One element of each of the element-wise kernels. The functions named `…Back` give what a backward pass adds to the gradient of the input;
it is computed in a temporary (`static_cast<V>`), so that the addition is a separate operation (`accumulate`).
-/

set_option autoImplicit false

namespace DW.Float

open scoped ENNReal

noncomputable section

variable (R : Rounding) (F : Libm R)

/-- `-1.0f`. -/
def minusOne : Flt := .num true 1

open Classical in
/-- `CPUReLUForward` (src/runtime/cpu/kernels/kernels.cpp:44-46). -/
def relu (x : Flt) : Flt := if Flt.lt 0 x then x else 0

open Classical in
/-- `CPUReLUInputGrad` (kernels.cpp:48-52). -/
def reluBack (x g : Flt) : Flt := if Flt.lt 0 x then g else 0

open Classical in
/-- `CPULeakyReLUForward` (kernels.cpp:54-56). -/
def leakyRelu (alpha x : Flt) : Flt := if x.lt 0 then mul R x alpha else x

open Classical in
/-- `CPULeakyReLUInputGrad` (kernels.cpp:58-62). -/
def leakyReluBack (alpha x g : Flt) : Flt := if x.lt 0 then mul R g alpha else g

open Classical in
/-- `CPUELUForward` (kernels.cpp:64-66). -/
def elu (alpha x : Flt) : Flt := if x.lt 0 then mul R (sub R (F.exp x) 1) alpha else x

open Classical in
/-- `CPUELUInputGrad` (kernels.cpp:68-71). -/
def eluBack (alpha x g : Flt) : Flt := mul R g (if x.lt 0 then mul R (F.exp x) alpha else 1)

/-- `CPUSigmoidForward` (kernels.cpp:73-75). -/
def sigmoid (x : Flt) : Flt := div R 1 (add R (F.exp (mul R x minusOne)) 1)

/-- `CPUSigmoidInputGrad` (kernels.cpp:76-79); `y` is the output. -/
def sigmoidBack (y g : Flt) : Flt := mul R g (mul R y (add R (mul R y minusOne) 1))

/-- `grad_input += …`. -/
def accumulate (old d : Flt) : Flt := add R old d

open Classical in
/-- `CPUDropoutForward` (kernels.cpp:346-353) for the element `m` of the mask. `m >= p` holds if neither is NaN and `m` is not less. -/
def dropout (p m x : Flt) : Flt := div R (if m ≠ .nan ∧ p ≠ .nan ∧ ¬m.lt p then x else 0) (sub R 1 p)

end

end DW.Float
