import Verif.Model.Floats
/-!
# Training a linear classifier in float

A classifier that consists of a `Linear` layer and `Softmax`, trained with `CrossEntropyLoss` and `SGD` by a loop like that of
samples/mnist/main.cpp:87-99. Parameters and gradients are functions of their indices instead of tensors in memory.
-/

set_option autoImplicit false

namespace DW.Float

variable {B n k : ℕ}

/-- One iteration (samples/mnist/main.cpp:88-93): forward pass (src/runtime/cpu/layers/cpulinear.cpp, cpusoftmax.cpp), loss and its gradient
(src/loss.cpp), backward pass into gradients that were zero, step (src/optimizer.cpp, `SGD::step`). -/
structure Iteration (R : Rounding) (F : Libm R) (lr : Flt) (X : Fin B → Fin n → Flt) (label : Fin B → Fin k)
    (W : Fin k → Fin n → Flt) (b : Fin k → Flt) (loss : Flt) (W' : Fin k → Fin n → Flt) (b' : Fin k → Flt) : Prop where
  run : ∃ Y P D dW db, LinearForward R X W b Y ∧ SoftmaxForward R F Y P ∧ LossForward R F P label loss ∧
    SoftmaxInputGrad R P (lossBackward R P label) (fun _ _ => 0) D ∧ LinearGrads R X D dW db ∧
    (∀ j r, SgdStep R lr (W j r) (dW j r) (W' j r)) ∧ ∀ j, SgdStep R lr (b j) (db j) (b' j)

/-- `N` iterations of the loop (samples/mnist/main.cpp:87-99), iteration `t` on batch `X t`: the parameters before each of them and the
losses. -/
structure Run (R : Rounding) (F : Libm R) (lr : Flt) (N : ℕ) (X : ℕ → Fin B → Fin n → Flt) (label : ℕ → Fin B → Fin k)
    (W₀ : Fin k → Fin n → Flt) (b₀ : Fin k → Flt) (W : ℕ → Fin k → Fin n → Flt) (b : ℕ → Fin k → Flt) (loss : ℕ → Flt) : Prop where
  startW : W 0 = W₀
  startb : b 0 = b₀
  step : ∀ t < N, Iteration R F lr (X t) (label t) (W t) (b t) (loss t) (W (t + 1)) (b (t + 1))

end DW.Float
