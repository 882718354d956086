import Verif.Model.Floats
/-!
# Momentum and Adam in `float`

One element of a parameter in `SGDMomentum::step` and `Adam::step`.
-/

set_option autoImplicit false

namespace DW.Float

open scoped ENNReal

noncomputable section

variable (R : Rounding)

/-- `a * b + c * d`, where one of the products may be fused with the sum. -/
def MulAddMul (a b c d r : Flt) : Prop :=
  r = add R (mul R a b) (mul R c d) ∨ r = fma R a b (mul R c d) ∨ r = fma R c d (mul R a b)

/-- The update of one element in `SGDMomentum::step` (src/optimizer.cpp:61-63): `v` is the velocity, `w` the weight. -/
def MomentumStep (gamma lr g v w v' w' : Flt) : Prop := MulAddMul R gamma v lr g v' ∧ w' = sub R w v'

/-- `std::sqrt`, or what Eigen uses instead: what is used of it here. -/
structure Sqrt where
  fn : Flt → Flt
  zero : fn 0 = 0
  finite : ∀ x ≤ maxFloat, ∃ y ≤ 2 ^ 64, fn (.num false x) = .num false y
  top : fn (.num false ⊤) = .num false ⊤

/-- The numbers of an `Adam` object that do not belong to an element (src/optimizer.cpp:76-80). -/
structure AdamSettings where
  lr : Flt
  beta1 : Flt
  beta2 : Flt
  epsilon : Flt

/-- The update of one element in `Adam::step` (src/optimizer.cpp:103-112): `m` and `v` are the moving mean and variance. `c₁` and `c₂` are
`1 - std::pow(beta, iterations)`, which is computed in `double` and converted to `float`; they are parameters. -/
def AdamStep (q : Sqrt) (s : AdamSettings) (c₁ c₂ g m v w m' v' w' : Flt) : Prop :=
  MulAddMul R s.beta1 m (sub R 1 s.beta1) g m' ∧ MulAddMul R s.beta2 v (sub R 1 s.beta2) (mul R g g) v' ∧
    w' = sub R w (div R (mul R s.lr (div R m' c₁)) (add R (q.fn (div R v' c₂)) s.epsilon))

end

end DW.Float
