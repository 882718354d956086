import Verif.Spec.LayerSpec
/-! # Where layers are differentiable -/

set_option autoImplicit false

namespace DW.Spec

/-- Row, column and plane of element `i` of a tensor of shape `{N, C, H, W}`: a plane is one channel of one image. -/
def pixelRow (s : Shape) (i : Nat) : Nat := i / (s.getD 3 0).toNat % (s.getD 2 0).toNat
def pixelCol (s : Shape) (i : Nat) : Nat := i % (s.getD 3 0).toNat
def pixelPlane (s : Shape) (i : Nat) : Nat := i / ((s.getD 2 0).toNat * (s.getD 3 0).toNat)

/-- The elements are in the same plane, and so near to each other that a window can cover both. -/
def Together (s : Shape) (kernel : Int × Int) (i i' : Nat) : Prop :=
  pixelPlane s i = pixelPlane s i' ∧ |(pixelRow s i : Int) - pixelRow s i'| < kernel.1 ∧ |(pixelCol s i : Int) - pixelCol s i'| < kernel.2

/-- The arguments avoid the kinks of the layer: for the activations with a kink at 0 no element is 0; for max pooling the
elements a window can cover differ from each other and, unless the windows are inside the image, from the value that stands for
positions outside of it. Other layers have no kinks. -/
def AvoidsKinks (op : Op) {n : Nat} {ishape : Fin n → Shape} (X : Args ishape) : Prop :=
  match op with
  | .relu | .leakyReLU _ | .elu _ => ∀ j i, X j i ≠ 0
  | .maxPooling k p _ => ∀ j, (∀ i i' : Fin (size (ishape j)), Together (ishape j) k i i' → X j i = X j i' → i = i') ∧
      (p = (0, 0) ∧ k.1 ≤ (ishape j).getD 2 0 ∧ k.2 ≤ (ishape j).getD 3 0 ∨ ∀ i, X j i ≠ floatMin)
  | _ => True

end DW.Spec
