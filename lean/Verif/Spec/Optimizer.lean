import Mathlib.Analysis.SpecialFunctions.Sqrt
/-!
# The update rules of the optimizers, for one number

`w0` is the weight's first value; in round `k` the learning rate is `lr k`, the gradient `g k`, and
the parameter is trainable iff `tr k`.
-/

namespace DW.Spec

noncomputable section

/-- Gradient descent. -/
def sgd (lr g : Nat → ℝ) (tr : Nat → Bool) (w0 : ℝ) : Nat → ℝ
  | 0 => w0
  | n + 1 => if tr n then sgd lr g tr w0 n - lr n * g n else sgd lr g tr w0 n

/-- Weight and velocity of gradient descent with momentum. -/
def momentum (gamma : ℝ) (lr g : Nat → ℝ) (tr : Nat → Bool) (w0 : ℝ) : Nat → ℝ × ℝ
  | 0 => (w0, 0)
  | n + 1 =>
    let (w, v) := momentum gamma lr g tr w0 n
    let v' := gamma * v + lr n * g n
    if tr n then (w - v', v') else (w, v)

/-- Weight and the two moments of Adam; `t0` is the number of steps the counter starts from. -/
def adam (beta0 beta1 eps : ℝ) (t0 : Nat) (lr g : Nat → ℝ) (tr : Nat → Bool) (w0 : ℝ) : Nat → ℝ × ℝ × ℝ
  | 0 => (w0, 0, 0)
  | n + 1 =>
    let (w, m, v) := adam beta0 beta1 eps t0 lr g tr w0 n
    let t := t0 + n + 1
    let m' := beta0 * m + (1 - beta0) * g n
    let v' := beta1 * v + (1 - beta1) * g n ^ 2
    let mhat := m' / (1 - beta0 ^ t)
    let vhat := v' / (1 - beta1 ^ t)
    if tr n then (w - lr n * mhat / (Real.sqrt vhat + eps), m', v') else (w, m, v)

end

end DW.Spec
