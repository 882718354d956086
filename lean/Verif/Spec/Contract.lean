import Verif.Model.Backend
import Verif.Props.Elementwise
import Verif.Spec.Network
/-!
# What the network theorems need from a layer

A layer object computes a function of its input tensors and its parameters, remembers what it needs for the gradient,
and adds to the gradients of its inputs. Every layer of the library is shown to do so in `Verif.Props.Contracts`.
-/

set_option autoImplicit false

namespace DW

noncomputable section

/-- The trained numbers of a layer, one tensor after the other. -/
def Cpu.params : Cpu → List ℝ
  | .linear st => st.weight.vals ++ st.bias.vals
  | .convolution st => st.weight.vals ++ st.bias.vals
  | .batchNorm1D st | .batchNorm2D st => st.gamma.vals ++ st.beta.vals
  | _ => []

/-- What the `grad()` tensors of these parameters hold. -/
def Cpu.grads : Cpu → List ℝ
  | .linear st => st.gradWeight.vals ++ st.gradBias.vals
  | .convolution st => st.gradWeight.vals ++ st.gradBias.vals
  | .batchNorm1D st | .batchNorm2D st => st.gradGamma.vals ++ st.gradBeta.vals
  | _ => []

/-- Let the `grad()` tensors hold other numbers. -/
def Cpu.setGrads (v : List ℝ) : Cpu → Cpu
  | .linear st => .linear { st with gradWeight := st.gradWeight.put (v.take st.gradWeight.vals.length),
                                    gradBias := st.gradBias.put (v.drop st.gradWeight.vals.length) }
  | .convolution st => .convolution { st with gradWeight := st.gradWeight.put (v.take st.gradWeight.vals.length),
                                              gradBias := st.gradBias.put (v.drop st.gradWeight.vals.length) }
  | .batchNorm1D st => .batchNorm1D { st with gradGamma := st.gradGamma.put (v.take st.gradGamma.vals.length),
                                              gradBeta := st.gradBeta.put (v.drop st.gradGamma.vals.length) }
  | .batchNorm2D st => .batchNorm2D { st with gradGamma := st.gradGamma.put (v.take st.gradGamma.vals.length),
                                              gradBeta := st.gradBeta.put (v.drop st.gradGamma.vals.length) }
  | l => l

/-- Give the parameters new values. -/
def Cpu.setParams (v : List ℝ) : Cpu → Cpu
  | .linear st => .linear { st with
      weight := st.weight.put (v.take st.weight.vals.length), bias := st.bias.put (v.drop st.weight.vals.length) }
  | .convolution st => .convolution { st with
      weight := st.weight.put (v.take st.weight.vals.length), bias := st.bias.put (v.drop st.weight.vals.length) }
  | .batchNorm1D st => .batchNorm1D { st with
      gamma := st.gamma.put (v.take st.gamma.vals.length), beta := st.beta.put (v.drop st.gamma.vals.length) }
  | .batchNorm2D st => .batchNorm2D { st with
      gamma := st.gamma.put (v.take st.gamma.vals.length), beta := st.beta.put (v.drop st.gamma.vals.length) }
  | l => l

/-- Let the tensors the layer shares with the model be `t`, as after their contents or `is_trainable()` were changed. -/
def Cpu.give (t : InfoTensors) : Cpu → Cpu
  | .linear st => match t.params.lookup "weight", t.params.lookup "bias" with
    | some w, some b => .linear ⟨w.data, b.data, w.grad, b.grad⟩
    | _, _ => .linear st
  | .convolution st => match t.params.lookup "weight", t.params.lookup "bias" with
    | some w, some b => .convolution { st with weight := w.data, bias := b.data, gradWeight := w.grad, gradBias := b.grad }
    | _, _ => .convolution st
  | .batchNorm1D st => .batchNorm1D (bn st)
  | .batchNorm2D st => .batchNorm2D (bn st)
  | .dropout st => match t.params.lookup "mask" with
    | some m => .dropout { st with mask := m.data, trainable := m.trainable }
    | none => .dropout st
  | l => l
where
  /-- the same for batch normalisation -/
  bn (st : BnSt) : BnSt :=
    match t.params.lookup "gamma", t.params.lookup "beta", t.buffers.lookup "running_mean", t.buffers.lookup "running_var" with
    | some g, some b, some m, some v => { st with
        gamma := g.data, beta := b.data, gradGamma := g.grad, gradBeta := b.grad, runMean := m, runVar := v,
        gammaTrainable := g.trainable, betaTrainable := b.trainable }
    | _, _, _, _ => st

/-- Set `is_trainable()` of the parameters, as `Model::train` (src/model/model.cpp:166-170) does; the layers that look at it are
batch normalisation and dropout. -/
def Cpu.train (mode : Bool) : Cpu → Cpu
  | .batchNorm1D st => .batchNorm1D { st with gammaTrainable := mode, betaTrainable := mode }
  | .batchNorm2D st => .batchNorm2D { st with gammaTrainable := mode, betaTrainable := mode }
  | .dropout st => .dropout { st with trainable := mode }
  | l => l

/-- `t` are the tensors the layer shares with the model, after `train(mode)`. -/
def Cpu.Shows (mode : Bool) (t : InfoTensors) : Cpu → Prop
  | .linear st => t.params.lookup "weight" = some ⟨st.weight, st.gradWeight, mode⟩ ∧
    t.params.lookup "bias" = some ⟨st.bias, st.gradBias, mode⟩
  | .convolution st => t.params.lookup "weight" = some ⟨st.weight, st.gradWeight, mode⟩ ∧
    t.params.lookup "bias" = some ⟨st.bias, st.gradBias, mode⟩
  | .batchNorm1D st | .batchNorm2D st => t.params.lookup "gamma" = some ⟨st.gamma, st.gradGamma, mode⟩ ∧
    t.params.lookup "beta" = some ⟨st.beta, st.gradBeta, mode⟩ ∧
    t.buffers.lookup "running_mean" = some st.runMean ∧ t.buffers.lookup "running_var" = some st.runVar
  | .dropout st => ∃ g : List ℝ, t.params.lookup "mask" = some ⟨st.mask, ⟨st.mask.shape, g⟩, mode⟩ ∧ g.length = st.mask.vals.length
  | _ => True

/-- The running statistics. -/
def Cpu.buffers : Cpu → List ℝ
  | .batchNorm1D st | .batchNorm2D st => st.runMean.vals ++ st.runVar.vals
  | _ => []

/-- The running variances are not negative. -/
def Cpu.VarOk : Cpu → Prop
  | .batchNorm1D st | .batchNorm2D st => ∀ v ∈ st.runVar.vals, 0 ≤ v
  | _ => True

/-- A tensor and its gradient have the same shape and number of elements. -/
def Buf.Fits (data grad : Buf) : Prop := grad.shape = data.shape ∧ grad.vals.length = data.vals.length

/-- The gradients have the shapes of the parameters. -/
def Cpu.ParamsFit : Cpu → Prop
  | .linear st => st.weight.Fits st.gradWeight ∧ st.bias.Fits st.gradBias
  | .convolution st => st.weight.Fits st.gradWeight ∧ st.bias.Fits st.gradBias
  | .batchNorm1D st | .batchNorm2D st => st.gamma.Fits st.gradGamma ∧ st.beta.Fits st.gradBeta
  | _ => True

/-- How many numbers the `data()` tensors of the parameters have, by name. -/
def Cpu.sizes : Cpu → List (String × Nat)
  | .linear st => [("weight", st.weight.vals.length), ("bias", st.bias.vals.length)]
  | .convolution st => [("weight", st.weight.vals.length), ("bias", st.bias.vals.length)]
  | .batchNorm1D st | .batchNorm2D st => [("gamma", st.gamma.vals.length), ("beta", st.beta.vals.length)]
  | .dropout st => [("mask", st.mask.vals.length)]
  | _ => []

end

end DW

namespace DW.Spec

open DW DW.Props.ElementwiseP

/-- Tensors of these shapes with these elements. -/
def bufs {n : Nat} {ishape : Fin n → Shape} (X : Args ishape) : List Buf := List.ofFn fun j => ⟨ishape j, List.ofFn (X j)⟩

/-- If `c`, `store'` is `store` with the tensors `gis` set to 0, else it is `store`. -/
def Cleared (c : Prop) (gis : List Nat) (store store' : List Buf) : Prop :=
  ∀ h, (c ∧ h ∈ gis → store'[h]? = (store[h]?).map fun b => b.put (List.replicate b.vals.length 0)) ∧
    (¬ (c ∧ h ∈ gis) → store'[h]? = store[h]?)

/-- A layer object that computes `fn` with parameters `θ`.

`Ready` are the states in which `forward` may be called. `After X bk pk` are the states after `forward` on `X`, in which
the layer passes back `bk g` for an output gradient `g`, and `pk g` is the gradient it stores for its parameters; they
depend on `X` alone. A layer
that `overwrites` replaces the gradients of its inputs instead of adding to them. `env` are the circumstances of `forward` under
which this holds. -/
structure Contract {n : Nat} (ishape : Fin n → Shape) (oshape : Shape) (P : Nat)
    (fn : (Fin P → ℝ) → Args ishape → Elems oshape) (θ : Fin P → ℝ) where
  env : Env → Prop
  overwrites : Prop
  Ready : Cpu → Prop
  After : Args ishape → (Elems oshape → Args ishape) → (Elems oshape → Fin P → ℝ) → Cpu → Prop
  params : ∀ {l}, Ready l → l.params = List.ofFn θ
  ready : ∀ {X bk pk l}, After X bk pk l → Ready l
  det : ∀ {X bk pk bk' pk' l l'}, After X bk pk l → After X bk' pk' l' → bk = bk' ∧ pk = pk'
  regradReady : ∀ {l}, Ready l → ∀ v : List ℝ, v.length = l.grads.length → Ready (l.setGrads v)
  regrad : ∀ {X bk pk l}, After X bk pk l → ∀ v : List ℝ, v.length = l.grads.length → After X bk pk (l.setGrads v)
  forward : ∀ {ev l}, env ev → Ready l → ∀ (X : Args ishape) (old : List ℝ), old.length = size oshape →
    ∃ l' bk pk, l.forward ev (bufs X) [⟨oshape, old⟩] = .ok (l', List.ofFn (fn θ X)) ∧ After X bk pk l'
  update : ∀ {X bk pk l}, After X bk pk l → ∀ g : Elems oshape, ∃ l', l.updateGradients (bufs X) [⟨oshape, List.ofFn g⟩] = .ok l' ∧
    After X bk pk l' ∧ l'.grads = List.ofFn (pk g)
  backward : ∀ {ev X bk pk l}, After X bk pk l → ∀ (g : Elems oshape) (gis : List Nat) (store : List Buf) (hn : gis.length = n),
    (∀ j : Fin n, ∃ A : Elems (ishape j), store[gis[j]]? = some ⟨ishape j, List.ofFn A⟩) →
    ∃ l' store₁ store', l.backward ev (bufs X) [⟨oshape, List.ofFn (fn θ X)⟩] [⟨oshape, List.ofFn g⟩] gis store = .ok (l', store') ∧
      After X bk pk l' ∧ l'.grads = l.grads ∧ Cleared overwrites gis store store₁ ∧
      Added store₁ store' fun h k => ∑ j : Fin n, if gis[j] = h then entry (bk g j) k else 0

end DW.Spec
