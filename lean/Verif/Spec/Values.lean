import Verif.Spec.Elems
import Verif.Spec.Norm
import Verif.Spec.Layers
/-!
# The elements of a tensor as a matrix or as images, without regard to its shape
-/

set_option autoImplicit false

namespace DW.Spec

noncomputable section

/-- The elements of a tensor as `B` rows of `n` numbers. -/
def rowsOf (B n : Nat) {s : Shape} (u : Elems s) : Fin B → Fin n → ℝ := fun i j => entry u (i.val * n + j.val)

/-- The elements of a tensor as `N` images of `C` channels of `H` by `W` pixels. -/
def imagesOf (N C H W : Nat) {s : Shape} (u : Elems s) : Fin N → Fin C → Fin H → Fin W → ℝ :=
  fun i c y x => entry u (i.val * (C * (H * W)) + (c.val * (H * W) + (y.val * W + x.val)))

/-- Images as rows. -/
def flatten {N C H W : Nat} (X : Fin N → Fin C → Fin H → Fin W → ℝ) : Fin N → Fin (C * (H * W)) → ℝ :=
  fun i q => X i q.divNat q.modNat.divNat q.modNat.modNat

end

end DW.Spec
