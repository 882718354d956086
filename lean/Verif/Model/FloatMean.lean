import Verif.Model.FloatCount
/-!
# The averages that the samples print

The loops for training and validation of the samples add the losses or accuracies of the batches in a `float` and divide by the number of
batches (samples/mnist/main.cpp:60-70, 83-101, 106-116; samples/iris, cifar10 and cifar100 have the same loops).
-/

set_option autoImplicit false

namespace DW.Float

noncomputable section

variable (R : Rounding) {B n : Nat}

/-- `float loss = 0.f;` and `loss += x t` for each batch (samples/mnist/main.cpp:83, 90). -/
def runningSum (x : ℕ → Flt) : ℕ → Flt
  | 0 => 0
  | t + 1 => add R (runningSum x t) (x t)

/-- `loss / train_iter` after `N` batches (samples/mnist/main.cpp:97, 101, 116). The divisor is an `int` that is converted to `float`. -/
def printedMean (x : ℕ → Flt) (N : ℕ) : Flt := div R (runningSum R x N) (ofNat R N)

/-- The validation loop over `N` batches (samples/mnist/main.cpp:106-117): `r` may be printed for the predictions `P t` of batch `t`. -/
def Validation (P : ℕ → Fin B → Fin n → Flt) (label : ℕ → Fin B → Flt) (N : ℕ) (r : Flt) : Prop :=
  ∃ acc : ℕ → Flt, (∀ t < N, Accuracy R (P t) (label t) (acc t)) ∧ r = printedMean R acc N

end

end DW.Float
