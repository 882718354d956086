import Verif.Model.Backend
import Verif.Model.Loss
/-!
# One iteration of a training loop

`model.forward`, the loss, `model.backward` and `optimizer.step()` one after the other on the same tensors, as in the
training loops of the samples (samples/mnist/main.cpp:86-93, samples/iris/main.cpp:86-93, samples/cifar10/main.cpp:108-115,
samples/cifar100/main.cpp:122-129).

The tensors of a parameter are shared between the layer object and the entry of `params()`. Here they are kept in the layer
object: a step of the optimizer is run on a copy of all parameters, and the result put back.
-/

namespace DW

noncomputable section

/-- The tensors a layer object shares with the parameters and buffers of its `LayerInfo` (cpulinear.cpp:6-12,
cpuconvolution.cpp:4-8, cpubatchnorm1d.cpp:6-15, cpubatchnorm2d.cpp:6-15, cpudropout.cpp:4-7), with `is_trainable()` as after
`train(mode)`. Nothing writes to the gradient of the mask of dropout, which is created with zeros (src/model/parameter.cpp:13-14). -/
def tensorsOf (mode : Bool) : Cpu → InfoTensors
  | .linear st => ⟨[("weight", ⟨st.weight, st.gradWeight, mode⟩), ("bias", ⟨st.bias, st.gradBias, mode⟩)], []⟩
  | .convolution st => ⟨[("weight", ⟨st.weight, st.gradWeight, mode⟩), ("bias", ⟨st.bias, st.gradBias, mode⟩)], []⟩
  | .batchNorm1D st => ⟨[("gamma", ⟨st.gamma, st.gradGamma, mode⟩), ("beta", ⟨st.beta, st.gradBeta, mode⟩)],
      [("running_mean", st.runMean), ("running_var", st.runVar)]⟩
  | .batchNorm2D st => ⟨[("gamma", ⟨st.gamma, st.gradGamma, mode⟩), ("beta", ⟨st.beta, st.gradBeta, mode⟩)],
      [("running_mean", st.runMean), ("running_var", st.runVar)]⟩
  | .dropout st => ⟨[("mask", ⟨st.mask, ⟨st.mask.shape, List.replicate st.mask.vals.length 0⟩, mode⟩)], []⟩
  | _ => ⟨[], []⟩

/-- All parameter objects of the layers: number of the layer and name of the parameter, and the object. -/
def objects (mode : Bool) (layers : List Cpu) : List ((Nat × String) × Parameter) :=
  layers.zipIdx.flatMap fun p => (tensorsOf mode p.1).params.map fun q => ((p.2, q.1), q.2)

/-- The number of the object of a parameter. -/
def objectNo (mode : Bool) (layers : List Cpu) (k : Nat) (name : String) : Nat :=
  (objects mode layers).findIdx fun o => o.1 == (k, name)

/-- `Model::params()` (src/model/model.cpp:162-164): an entry holds the parameter object of a layer. -/
def paramMap (e : Expr) (m : Model) (mode : Bool) (layers : List Cpu) : Optim.ParamMap :=
  m.params.map fun p =>
    (p.1, objectNo mode layers ((sortedOps m.sorted).findIdx fun c => e.callInfo c == p.2.1) p.2.2)

/-- The layer object with other `data()` tensors of its parameters. -/
def Cpu.putData (f : String → Buf → Buf) : Cpu → Cpu
  | .linear st => .linear { st with weight := f "weight" st.weight, bias := f "bias" st.bias }
  | .convolution st => .convolution { st with weight := f "weight" st.weight, bias := f "bias" st.bias }
  | .batchNorm1D st => .batchNorm1D { st with gamma := f "gamma" st.gamma, beta := f "beta" st.beta }
  | .batchNorm2D st => .batchNorm2D { st with gamma := f "gamma" st.gamma, beta := f "beta" st.beta }
  | .dropout st => .dropout { st with mask := f "mask" st.mask }
  | l => l

/-- `step()` of an optimizer made with `model.params()`, after `train(mode)`; `σ` are the fields of the optimizer. Only for a
compiled model, whose layer objects hold the parameters; before `compile` the result is without meaning. -/
def optimizerStep {σ : Type} (step : Optim.ParamMap → M (Optim.Opt σ) Unit) (e : Expr) (m : Model) (mode : Bool) :
    M (World × σ) Unit := fun s =>
  match s.1.backend with
  | none => (.ub .freed, s)
  | some b =>
    let r := step (paramMap e m mode b.layers) ⟨(objects mode b.layers).map Prod.snd, s.2⟩
    (r.1, { s.1 with backend := some { b with layers := b.layers.mapIdx fun k l => l.putData fun name old =>
      ((r.2.store[objectNo mode b.layers k name]?).map fun p => p.data).getD old } }, r.2.aux)

/-- Run on the tensors. -/
def onWorld {σ α : Type} (x : M World α) : M (World × σ) α := fun s =>
  let r := x s.1
  (r.1, r.2, s.2)

/-- `CrossEntropyLoss::forward` on the tensors `p` and `y`. -/
def lossForward (p y : Nat) : M World ℝ := fun w =>
  (do let pred ← Out.idx w.store p
      let target ← Out.idx w.store y
      let r ← Loss.forward pred target
      .ok r.1, w)

/-- `CrossEntropyLoss::backward` on the tensors `p`, `y` and `g`. A gradient tensor that is one of the others is treated as
undefined. -/
def lossBackward (p y g : Nat) : M World Unit := fun w =>
  match (do let pred ← Out.idx w.store p
            let target ← Out.idx w.store y
            let grad ← Out.idx w.store g
            if g = p ∨ g = y then .ub .overlap else Loss.backward pred target grad : Out Buf) with
  | .ub u => (.ub u, w)
  | .throw x => (.throw x, w)
  | .ok grad => (.ok (), { w with store := w.store.set g grad })

/-- One iteration of the training loop; the value is what `criterion.forward` returned. -/
def iteration {σ : Type} (step : Optim.ParamMap → M (Optim.Opt σ) Unit) (e : Expr) (m : Model) (mode : Bool)
    (env env' : Nat → Env) (it : List Nat) (p y g : Nat) : M (World × σ) ℝ := do
  onWorld (m.forward env it [p])
  let loss ← onWorld (lossForward p y)
  onWorld (lossBackward p y g)
  onWorld (m.backward env' it [p] [g])
  optimizerStep step e m mode
  pure loss

/-- The next batch is in the tensors `ts`. -/
def loadTensors (ts : List Nat) (bs : List Buf) : M World Unit :=
  M.modify fun w => { w with store := (ts.zip bs).foldl (fun st q => st.set q.1 q.2) w.store }

/-- `n` iterations of the training loop (samples/mnist/main.cpp:85-98, samples/iris/main.cpp:85-98): `train_loader.pull(X, y)` leaves
the inputs `X k` and the labels `Y k` of batch `k` in the tensors `it` and `y`, and the caller may set the learning rate before each
step. The values are those `criterion.forward` returned. -/
def trainLoop {σ : Type} (step : Optim.ParamMap → M (Optim.Opt σ) Unit) (e : Expr) (m : Model) (mode : Bool)
    (env env' : Nat → Nat → Env) (it : List Nat) (p y g : Nat) (X : Nat → List Buf) (Y : Nat → Buf) (setup : Nat → σ → σ) :
    Nat → M (World × σ) (List ℝ)
  | 0 => pure []
  | n + 1 => do
    let losses ← trainLoop step e m mode env env' it p y g X Y setup n
    onWorld (loadTensors it (X n))
    onWorld (loadTensors [y] [Y n])
    M.modify fun s => (s.1, setup n s.2)
    let loss ← iteration step e m mode (env n) (env' n) it p y g
    pure (losses ++ [loss])

end

end DW
