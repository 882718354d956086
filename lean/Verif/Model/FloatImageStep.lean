import Verif.Model.FloatImageBack
/-!
# Training an image classifier in `float`
-/

set_option autoImplicit false

namespace DW.Float

open DW.Spec (Axis)

noncomputable section

variable (R : Rounding) (F : Libm R) {N : ℕ}

/-- `SGD::step` (src/optimizer.cpp:14-32): `f'` may be the network afterwards. -/
inductive ImgNet.Sgd (lr : Flt) : {s t : Sh} → (f : ImgNet s t) → Params Flt f → ImgNet s t → Prop
  | skip {s : Sh} : ImgNet.Sgd lr (.skip (s := s)) () .skip
  | act {s : Sh} {a : Act} : ImgNet.Sgd lr (.act (s := s) a) () (.act a)
  | linear {n k : ℕ} {W W' : Fin k → Fin n → Flt} {b b' : Fin k → Flt} {g : Params Flt (.linear W b)} (hW : ∀ j r, SgdStep R lr (W j r) (g.1 j r) (W' j r))
      (hb : ∀ j, SgdStep R lr (b j) (g.2 j) (b' j)) : ImgNet.Sgd lr (.linear W b) g (.linear W' b')
  | conv {C O : ℕ} {a b : Axis} {W W' : Fin O → Fin (C * (a.kernel * b.kernel)) → Flt} {v v' : Fin O → Flt} {g : Params Flt (.conv a b W v)}
      (hW : ∀ o t, SgdStep R lr (W o t) (g.1 o t) (W' o t)) (hb : ∀ o, SgdStep R lr (v o) (g.2 o) (v' o)) : ImgNet.Sgd lr (.conv a b W v) g (.conv a b W' v')
  | maxPool {C : ℕ} {a b : Axis} : ImgNet.Sgd lr (.maxPool (C := C) a b) () (.maxPool a b)
  | avgPool {C H W : ℕ} : ImgNet.Sgd lr (.avgPool (C := C) (H := H) (W := W)) () .avgPool
  | flat {C H W : ℕ} : ImgNet.Sgd lr (.flat (C := C) (H := H) (W := W)) () .flat
  | seq {s t w : Sh} {f f' : ImgNet s t} {h h' : ImgNet t w} {g : Params Flt (.seq f h)} (hf : ImgNet.Sgd lr f g.1 f') (hh : ImgNet.Sgd lr h g.2 h') :
      ImgNet.Sgd lr (.seq f h) g (.seq f' h')
  | join {s t : Sh} {f f' h h' : ImgNet s t} {g : Params Flt (.join f h)} (hf : ImgNet.Sgd lr f g.1 f') (hh : ImgNet.Sgd lr h g.2 h') :
      ImgNet.Sgd lr (.join f h) g (.join f' h')

/-- An iteration of training a classifier that consists of such a network and `Softmax`, with `CrossEntropyLoss` and `SGD` (for example
samples/cifar10/main.cpp, which also has batch normalization): forward pass, loss, backward pass, step. -/
def ImgNet.Iteration {s : Sh} {m : ℕ} (lr : Flt) (X : Fin N → s.Ix → Flt) (label : Fin N → Fin m) (f : ImgNet s (.vec m)) (loss : Flt)
    (f' : ImgNet s (.vec m)) : Prop :=
  ∃ Y P G D g, SoftmaxForward R F Y P ∧ LossForward R F P label loss ∧ SoftmaxInputGrad R P (lossBackward R P label) (fun _ _ => 0) G ∧
    f.Gradients R F X Y G D g ∧ f.Sgd R lr g f'

end

end DW.Float
