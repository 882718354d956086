import Verif.Model.FloatImage
/-!
# Backpropagation through chains of layers in `float`

One pass of training through `Linear` layers and activations one after another: `Model::forward`, `Model::backward` with the gradient of
the outputs, and `SGD::step`. `CPUBackend::backward` (src/runtime/cpu/cpubackend.cpp:102-147) sets the gradients of all data but the
outputs to zero and then runs the layers from the last to the first; every layer adds to the gradient of its input.
-/

set_option autoImplicit false

namespace DW.Float

noncomputable section

variable (R : Rounding) (F : Libm R) {B : ℕ}

/-- The layer of the activation. -/
def Act.layer {n : ℕ} : Act → Layer n n
  | .relu => .relu
  | .leakyRelu alpha => .leakyRelu alpha
  | .elu alpha => .elu alpha
  | .sigmoid => .sigmoid

/-- What the backward pass of the activation adds to the gradient of its input, for the input `x`, the output `y` and the gradient `g` of
the output (src/runtime/cpu/kernels/kernels.cpp:48-52, 58-62, 68-71, 76-79). -/
def Act.back : Act → Flt → Flt → Flt → Flt
  | .relu, x, _, g => reluBack x g
  | .leakyRelu alpha, x, _, g => leakyReluBack R alpha x g
  | .elu alpha, x, _, g => eluBack R F alpha x g
  | .sigmoid, _, y, g => sigmoidBack R y g

/-- `Linear` layers and activations one after another. -/
inductive Mlp : ℕ → ℕ → Type
  | nil {n : ℕ} : Mlp n n
  | linear {n k m : ℕ} (W : Fin k → Fin n → Flt) (b : Fin k → Flt) (c : Mlp k m) : Mlp n m
  | act {n m : ℕ} (a : Act) (c : Mlp n m) : Mlp n m

/-- The layers of the network. -/
def Mlp.chain : {n m : ℕ} → Mlp n m → Chain n m
  | _, _, .nil => .nil
  | _, _, .linear W b c => .cons (.linear W b) c.chain
  | _, _, .act a c => .cons a.layer c.chain

/-- A matrix and a vector for every `Linear` layer: the parameters, or their gradients. -/
def Tensors (K : Type) : {n m : ℕ} → Mlp n m → Type
  | _, _, .nil => Unit
  | n, _, .linear (k := k) _ _ c => ((Fin k → Fin n → K) × (Fin k → K)) × Tensors K c
  | _, _, .act _ c => Tensors K c

/-- `CPULinearInputGrad` (kernels.cpp:20-24) into a gradient that is zero: the products are added to it, or their sum is. -/
def LinearInputGrad {n k : ℕ} (W : Fin k → Fin n → Flt) (G : Fin B → Fin k → Flt) (D : Fin B → Fin n → Flt) : Prop :=
  ∀ i r, ∃ s, DotOf R (List.ofFn fun j => (G i j, W j r)) s ∧ (D i r = s ∨ D i r = accumulate R 0 s)

/-- A forward and a backward pass (cpubackend.cpp:72-99, 102-147): for the inputs `X` and the gradient `G` of the outputs, the outputs may be
`Y`, the gradient of the inputs `D` and the gradients of the parameters `g`. -/
def Mlp.Backward (q : Sqrt) : {n m : ℕ} → (c : Mlp n m) → (X : Fin B → Fin n → Flt) → (Y G : Fin B → Fin m → Flt) → (D : Fin B → Fin n → Flt) →
    Tensors Flt c → Prop
  | _, _, .nil, X, Y, G, D, _ => Y = X ∧ D = G
  | _, _, .linear W b c, X, Y, G, D, g => ∃ Z E, (Layer.linear W b).Forward R F q X Z ∧ c.Backward q Z Y G E g.2 ∧
    LinearGrads R X E g.1.1 g.1.2 ∧ LinearInputGrad R W E D
  | _, _, .act a c, X, Y, G, D, g => ∃ Z E, a.layer.Forward R F q X Z ∧ c.Backward q Z Y G E g ∧
    ∀ i j, D i j = accumulate R 0 (a.back R F (X i j) (Z i j) (E i j))

/-- `SGD::step` (src/optimizer.cpp:14-32): `c'` may be the network afterwards. -/
inductive Mlp.Sgd (lr : Flt) : {n m : ℕ} → (c : Mlp n m) → Tensors Flt c → Mlp n m → Prop
  | nil {n : ℕ} : Mlp.Sgd lr (.nil (n := n)) () .nil
  | linear {n k m : ℕ} {W W' : Fin k → Fin n → Flt} {b b' : Fin k → Flt} {c c' : Mlp k m} {g : Tensors Flt (.linear W b c)}
      (hW : ∀ j r, SgdStep R lr (W j r) (g.1.1 j r) (W' j r)) (hb : ∀ j, SgdStep R lr (b j) (g.1.2 j) (b' j)) (h : Mlp.Sgd lr c g.2 c') :
      Mlp.Sgd lr (.linear W b c) g (.linear W' b' c')
  | act {n m : ℕ} {a : Act} {c c' : Mlp n m} {g : Tensors Flt (.act a c)} (h : Mlp.Sgd lr c g c') : Mlp.Sgd lr (.act a c) g (.act a c')

/-- An iteration of training a classifier that consists of these layers and `Softmax`, with `CrossEntropyLoss` and `SGD` (for example samples/mnist/main.cpp): forward pass,
loss, backward pass, step. -/
def Mlp.Iteration (q : Sqrt) {n m : ℕ} (lr : Flt) (X : Fin B → Fin n → Flt) (label : Fin B → Fin m) (c : Mlp n m) (loss : Flt) (c' : Mlp n m) : Prop :=
  ∃ Y P G D g, SoftmaxForward R F Y P ∧ LossForward R F P label loss ∧ SoftmaxInputGrad R P (lossBackward R P label) (fun _ _ => 0) G ∧
    c.Backward R F q X Y G D g ∧ c.Sgd R lr g c'

end

end DW.Float
