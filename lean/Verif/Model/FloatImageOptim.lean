import Verif.Model.FloatImageStep
import Verif.Model.FloatOptim
/-!
# Training an image classifier in `float` with momentum or Adam
-/

set_option autoImplicit false

namespace DW.Float

open DW.Spec (Axis)

noncomputable section

variable (R : Rounding) (F : Libm R) {N : ℕ} {σ : Type}

/-- `step` of an optimizer that keeps a `σ` for each element of the parameters (`m_velocities`, or `m_moving_mean` and `m_moving_variance`) and updates the elements
one by one: `update g w z w' z'` says that for the gradient `g` the element `w` may become `w'` and its `z` may become `z'`. The tensors of the optimizer
belong to the parameters by name (src/optimizer.cpp:41-45, 81-84). -/
inductive ImgNet.Updated (update : Flt → Flt → σ → Flt → σ → Prop) : {s t : Sh} → (f : ImgNet s t) → Params Flt f → Params σ f →
    (f' : ImgNet s t) → Params σ f' → Prop
  | skip {s : Sh} : ImgNet.Updated update (.skip (s := s)) () () .skip ()
  | act {s : Sh} {a : Act} : ImgNet.Updated update (.act (s := s) a) () () (.act a) ()
  | linear {n k : ℕ} {W W' : Fin k → Fin n → Flt} {b b' : Fin k → Flt} {g : Params Flt (.linear W b)} {Z : Params σ (.linear W b)}
      {Z' : Params σ (.linear W' b')} (hW : ∀ j r, update (g.1 j r) (W j r) (Z.1 j r) (W' j r) (Z'.1 j r))
      (hb : ∀ j, update (g.2 j) (b j) (Z.2 j) (b' j) (Z'.2 j)) : ImgNet.Updated update (.linear W b) g Z (.linear W' b') Z'
  | conv {C O : ℕ} {a b : Axis} {W W' : Fin O → Fin (C * (a.kernel * b.kernel)) → Flt} {v v' : Fin O → Flt} {g : Params Flt (.conv a b W v)}
      {Z : Params σ (.conv a b W v)} {Z' : Params σ (.conv a b W' v')} (hW : ∀ o t, update (g.1 o t) (W o t) (Z.1 o t) (W' o t) (Z'.1 o t))
      (hb : ∀ o, update (g.2 o) (v o) (Z.2 o) (v' o) (Z'.2 o)) : ImgNet.Updated update (.conv a b W v) g Z (.conv a b W' v') Z'
  | maxPool {C : ℕ} {a b : Axis} : ImgNet.Updated update (.maxPool (C := C) a b) () () (.maxPool a b) ()
  | avgPool {C H W : ℕ} : ImgNet.Updated update (.avgPool (C := C) (H := H) (W := W)) () () .avgPool ()
  | flat {C H W : ℕ} : ImgNet.Updated update (.flat (C := C) (H := H) (W := W)) () () .flat ()
  | seq {s t w : Sh} {f f' : ImgNet s t} {h h' : ImgNet t w} {g : Params Flt (.seq f h)} {Z : Params σ (.seq f h)} {Z' : Params σ (.seq f' h')}
      (hf : ImgNet.Updated update f g.1 Z.1 f' Z'.1) (hh : ImgNet.Updated update h g.2 Z.2 h' Z'.2) : ImgNet.Updated update (.seq f h) g Z (.seq f' h') Z'
  | join {s t : Sh} {f f' h h' : ImgNet s t} {g : Params Flt (.join f h)} {Z : Params σ (.join f h)} {Z' : Params σ (.join f' h')}
      (hf : ImgNet.Updated update f g.1 Z.1 f' Z'.1) (hh : ImgNet.Updated update h g.2 Z.2 h' Z'.2) : ImgNet.Updated update (.join f h) g Z (.join f' h') Z'

/-- An iteration of training with such an optimizer: forward pass, loss, backward pass, step. -/
def ImgNet.IterationWith {s : Sh} {m : ℕ} (update : Flt → Flt → σ → Flt → σ → Prop) (X : Fin N → s.Ix → Flt) (label : Fin N → Fin m) (f : ImgNet s (.vec m))
    (Z : Params σ f) (loss : Flt) (f' : ImgNet s (.vec m)) (Z' : Params σ f') : Prop :=
  ∃ Y P G D g, SoftmaxForward R F Y P ∧ LossForward R F P label loss ∧ SoftmaxInputGrad R P (lossBackward R P label) (fun _ _ => 0) G ∧
    f.Gradients R F X Y G D g ∧ f.Updated update g Z f' Z'

/-- An iteration with `SGDMomentum` (samples/mnist/main.cpp, samples/cifar100/main.cpp); `V` are the velocities. -/
def ImgNet.MomentumIteration {s : Sh} {m : ℕ} (gamma lr : Flt) (X : Fin N → s.Ix → Flt) (label : Fin N → Fin m) (f : ImgNet s (.vec m))
    (V : Params Flt f) (loss : Flt) (f' : ImgNet s (.vec m)) (V' : Params Flt f') : Prop :=
  f.IterationWith R F (fun g w v w' v' => MomentumStep R gamma lr g v w v' w') X label V loss f' V'

/-- An iteration with `Adam` (samples/cifar10/main.cpp); `Z` are the moving means and variances. -/
def ImgNet.AdamIteration {s : Sh} {m : ℕ} (q : Sqrt) (a : AdamSettings) (c₁ c₂ : Flt) (X : Fin N → s.Ix → Flt) (label : Fin N → Fin m) (f : ImgNet s (.vec m))
    (Z : Params (Flt × Flt) f) (loss : Flt) (f' : ImgNet s (.vec m)) (Z' : Params (Flt × Flt) f') : Prop :=
  f.IterationWith R F (fun g w z w' z' => AdamStep R q a c₁ c₂ g z.1 z.2 w z'.1 z'.2 w') X label Z loss f' Z'

end

end DW.Float
