import Verif.Model.FloatMean
import Verif.Model.FloatImage
/-!
# Validation of a network

The loop of the samples that measures a network after or without training (samples/mnist/main.cpp:58-73, 103-117).
-/

set_option autoImplicit false

namespace DW.Float

noncomputable section

variable (R : Rounding) (F : Libm R) (q : Sqrt) {B m : Nat} {ι : Type}

/-- `model.forward(X, predict)` and `acc += accuracy(predict, y)` for `N` batches, then `acc /= val_iter` (samples/mnist/main.cpp:64-71,
109-116): `r` may be printed. The network is `f` with `Softmax` as its last layer, in evaluation mode. -/
def NetValidation (f : Net ι (Fin m)) (X : ℕ → Fin B → ι → Flt) (label : ℕ → Fin B → Flt) (N : ℕ) (r : Flt) : Prop :=
  ∃ P : ℕ → Fin B → Fin m → Flt, (∀ t < N, ∃ Y, (∀ i, f.Forward R F q (X t i) (Y i)) ∧ SoftmaxForward R F Y (P t)) ∧ Validation R P label N r

end

end DW.Float
