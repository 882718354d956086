import Verif.Model.Validation
import Verif.Spec.History
/-!
# The main loop of the samples

Epochs of training and validation with the same model and the same tensors (samples/mnist/main.cpp:78-118,
samples/iris/main.cpp:78-118, samples/cifar10/main.cpp:100-140, samples/cifar100/main.cpp:114-154). What is printed on the way is
not modelled, except the two numbers at the end of each epoch, which are the results.
-/

set_option autoImplicit false

namespace DW

open Spec

noncomputable section

/-- What the program works on: the tensors and the model, the fields of the optimizer, and `m_pos` of both loaders. -/
structure Session (σ : Type) where
  world : World
  opt : σ
  trainPos : Int
  valPos : Int

variable {σ : Type}

/-- Run on the tensors and the optimizer. -/
def onOpt {α : Type} (x : M (World × σ) α) : M (Session σ) α := fun s =>
  let r := x (s.world, s.opt)
  (r.1, { s with world := r.2.1, opt := r.2.2 })

/-- Run on the tensors and the loader of the training set. -/
def onTrain {α : Type} (x : M (World × Int) α) : M (Session σ) α := fun s =>
  let r := x (s.world, s.trainPos)
  (r.1, { s with world := r.2.1, trainPos := r.2.2 })

/-- Run on the tensors and the loader of the validation set. -/
def onVal {α : Type} (x : M (World × Int) α) : M (Session σ) α := fun s =>
  let r := x (s.world, s.valPos)
  (r.1, { s with world := r.2.1, valPos := r.2.2 })

/-- `model.train(mode)` (src/model/model.cpp, `Model::train`). -/
def setMode (mode : Bool) : M (Session σ) Unit := M.modify fun s => { s with world := trained mode s.world }

/-- Everything that does not change: the optimizer, the loaders and the tensors, and what comes from outside. `rands i k`
is what `randomIndices` returned and `env i k`, `env' i k` are the random numbers and so on of `forward` and `backward`, in round
`k` of epoch `i`, and `venv i k` those of `forward` in the validation. -/
structure Setup (σ : Type) where
  step : Optim.ParamMap → M (Optim.Opt σ) Unit
  train : Loader ℝ
  val : Loader ℝ
  x : Nat
  p : Nat
  y : Nat
  g : Nat
  junk : Nat → ℝ
  rands : Nat → Nat → List Int
  vrands : Nat → Nat → List Int
  env : Nat → Nat → Nat → Env
  env' : Nat → Nat → Nat → Env
  venv : Nat → Nat → Nat → Env

/-- The training loop of epoch `i`, from round `iter` with the sum `loss` on (samples/mnist/main.cpp:87-99). It is run for a number
of rounds: `none` if it is still running then. The results are `loss` and `train_iter`. -/
def trainingLoop (e : Expr) (m : Model) (S : Setup σ) (i : Nat) (loss : ℝ) (iter : Nat) : Nat → M (Session σ) (Option (ℝ × Nat))
  | 0 => pure none
  | fuel + 1 => do
    let more ← onTrain (pullInto S.train S.junk (S.rands i iter) S.x S.y)
    if more then do
      let l ← onOpt (iteration S.step e m true (S.env i iter) (S.env' i iter) [S.x] S.p S.y S.g)
      trainingLoop e m S i (loss + l) (iter + 1) fuel
    else pure (some (loss, iter))

/-- The first part of epoch `i` (samples/mnist/main.cpp:81-102). The result is the mean loss. -/
def epochTraining (e : Expr) (m : Model) (S : Setup σ) (i fuel : Nat) : M (Session σ) (Option ℝ) := do
  setMode true
  let r ← trainingLoop e m S i 0 0 fuel
  pure (r.map fun r => r.1 / r.2)

/-- The second part of epoch `i` (samples/mnist/main.cpp:104-117). The result is the mean accuracy. -/
def epochValidation (m : Model) (S : Setup σ) (i fuel : Nat) : M (Session σ) (Option ℝ) := do
  setMode false
  let r ← onVal (validationLoop m S.val S.junk (S.vrands i) (S.venv i) S.x S.p S.y 0 0 fuel)
  pure (r.map fun r => r.1 / r.2)

/-- `n` epochs (samples/mnist/main.cpp:78-118): loss and accuracy of each. `none` if a loop of an epoch is still running after
`fuel` rounds. -/
def epochs (e : Expr) (m : Model) (S : Setup σ) (fuel : Nat) : Nat → M (Session σ) (Option (List (ℝ × ℝ)))
  | 0 => pure (some [])
  | n + 1 => do
    match ← epochs e m S fuel n with
    | none => pure none
    | some results => do
      match ← epochTraining e m S n fuel with
      | none => pure none
      | some loss => do
        match ← epochValidation m S n fuel with
        | none => pure none
        | some acc => pure (some (results ++ [(loss, acc)]))

end

end DW
