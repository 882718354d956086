import Verif.Model.Conv
import Verif.Model.Graph
/-!
# The CPU backend

`ICPULayer::create` (src/runtime/cpu/layers/cpulayer.cpp), `CPUBackend` (src/runtime/cpu/cpubackend.cpp) and
`Model::compile`, `forward`, `backward` (src/model/model.cpp).

A `Tensor` is a number, its *handle*, into a store of buffers; copies of a `Tensor` share the handle. The tensors a
layer shares with the parameters and buffers of the model are kept inside the layer object: a change made from
outside, for instance by an optimizer, is a change of the layer object.

Simplified: a layer that throws changes nothing, and a layer call whose written tensor is also one of the tensors it
reads is treated as undefined.
-/

namespace DW

noncomputable section

/-- What a layer call takes from outside: contents of fresh memory, random numbers, and the row `maxCoeff` reports. -/
structure Env where
  junk : Nat → ℝ
  rng : Nat → ℝ
  pick : List ℝ → Nat

/-- The tensors of a `LayerInfo` (include/deepworks/layer_info.hpp:90-96). -/
structure InfoTensors where
  params : List (String × Parameter)
  buffers : List (String × Buf)

/-- The objects deriving from `ICPULayer`. -/
inductive Cpu
  | linear (st : LinearSt)
  | relu
  | softmax
  | batchNorm1D (st : BnSt)
  | elu (alpha : ℝ)
  | maxPooling (st : PoolSt)
  | convolution (st : ConvSt)
  | leakyReLU (alpha : ℝ)
  | sigmoid
  | dropout (st : DropSt)
  | globalAvgPooling
  | batchNorm2D (st : BnSt)
  | add

namespace Cpu

/-- The constructor of `CPUBatchNorm1D` and `CPUBatchNorm2D` (cpubatchnorm1d.cpp:6-15, cpubatchnorm2d.cpp:6-15). -/
def createBn (eps alpha : ℝ) (t : InfoTensors) : Out BnSt := do
  let g ← Out.at? (t.params.lookup "gamma")
  let b ← Out.at? (t.params.lookup "beta")
  let n ← dim g.data 0
  let std ← freshBuf (fun _ => 0) [n]
  let m ← Out.at? (t.buffers.lookup "running_mean")
  let v ← Out.at? (t.buffers.lookup "running_var")
  .ok { gamma := g.data, beta := b.data, gradGamma := g.grad, gradBeta := b.grad, std := std, runMean := m, runVar := v,
        gammaTrainable := g.trainable, betaTrainable := b.trainable, eps := eps, alpha := alpha }

/-- `ICPULayer::create` (cpulayer.cpp:17-49) with the constructors (cpulinear.cpp:6-12, cpuconvolution.cpp:4-8,
cpudropout.cpp:4-7). `real` is the value of a `float`. -/
def create (real : F32 → ℝ) (op : Op) (t : InfoTensors) : Out Cpu :=
  match op with
  | .linear _ => do
    let w ← Out.at? (t.params.lookup "weight")
    let b ← Out.at? (t.params.lookup "bias")
    .ok (.linear ⟨w.data, b.data, w.grad, b.grad⟩)
  | .relu => .ok .relu
  | .softmax => .ok .softmax
  | .batchNorm1D e a => do .ok (.batchNorm1D (← createBn (real e) (real a) t))
  | .elu a => .ok (.elu (real a))
  | .maxPooling k p s => .ok (.maxPooling { geo := ⟨k.1, k.2, p.1, p.2, s.1, s.2⟩ })
  | .convolution _ k p s => do
    let w ← Out.at? (t.params.lookup "weight")
    let b ← Out.at? (t.params.lookup "bias")
    .ok (.convolution { weight := w.data, bias := b.data, gradWeight := w.grad, gradBias := b.grad,
                        geo := ⟨k.1, k.2, p.1, p.2, s.1, s.2⟩ })
  | .leakyReLU a => .ok (.leakyReLU (real a))
  | .sigmoid => .ok .sigmoid
  | .dropout p => do
    let m ← Out.at? (t.params.lookup "mask")
    .ok (.dropout ⟨m.data, m.trainable, real p⟩)
  | .globalAvgPooling => .ok .globalAvgPooling
  | .batchNorm2D e a => do .ok (.batchNorm2D (← createBn (real e) (real a) t))
  | .add => .ok .add

/-- `forward` of each layer: the layer afterwards and the new contents of its first output. -/
def forward (env : Env) (l : Cpu) (ins outs : List Buf) : Out (Cpu × List ℝ) :=
  match l with
  | .linear st => do .ok (.linear st, ← st.forward ins outs)
  | .relu => do .ok (.relu, ← reluFwd ins outs)
  | .softmax => do .ok (.softmax, ← SoftmaxL.forward ins outs)
  | .batchNorm1D st => do
    let r ← st.forward1d env.junk ins outs
    .ok (.batchNorm1D r.1, r.2)
  | .elu a => do .ok (.elu a, ← eluFwd a ins outs)
  | .maxPooling st => do
    let r ← st.forward env.pick env.junk ins outs
    .ok (.maxPooling r.1, r.2)
  | .convolution st => do
    let r ← st.forward env.junk ins outs
    .ok (.convolution r.1, r.2)
  | .leakyReLU a => do .ok (.leakyReLU a, ← leakyReLUFwd a ins outs)
  | .sigmoid => do .ok (.sigmoid, ← sigmoidFwd ins outs)
  | .dropout st => do
    let r ← st.forward env.rng ins outs
    .ok (.dropout r.1, r.2)
  | .globalAvgPooling => do
    let i ← Out.idx ins 0
    let o ← Out.idx outs 0
    .ok (.globalAvgPooling, ← gapForward i o)
  | .batchNorm2D st => do
    let r ← st.forward2d env.junk ins outs
    .ok (.batchNorm2D r.1, r.2)
  | .add => do .ok (.add, ← addForward ins outs)

/-- `updateGradients` of each layer; nothing by default (cpulayer.cpp:55-57). -/
def updateGradients (l : Cpu) (ins gos : List Buf) : Out Cpu :=
  match l with
  | .linear st => do
    let g ← Out.idx gos 0
    let i ← Out.idx ins 0
    let r ← st.updateGradients i g
    .ok (.linear { st with gradWeight := st.gradWeight.put r.1, gradBias := st.gradBias.put r.2 })
  | .batchNorm1D st => do .ok (.batchNorm1D (← st.updateGradients1d (← Out.idx gos 0)))
  | .convolution st => do .ok (.convolution (← st.updateGradients (← Out.idx gos 0)))
  | .batchNorm2D st => do .ok (.batchNorm2D (← st.updateGradients2d (← Out.idx gos 0)))
  | l => .ok l

/-- `grad_inputs.front()` gets the contents `f` computes from it. -/
def writeFront (gis : List Nat) (store : List Buf) (f : Buf → Out (Cpu × List ℝ)) : Out (Cpu × List Buf) := do
  let h ← Out.idx gis 0
  let b ← Out.idx store h
  let r ← f b
  .ok (r.1, store.set h (b.put r.2))

/-- `backward` of each layer. The input gradients are given by handle; the result is the layer and the store
afterwards. -/
def backward (env : Env) (l : Cpu) (ins outs gos : List Buf) (gis : List Nat) (store : List Buf) : Out (Cpu × List Buf) :=
  match l with
  | .linear st => writeFront gis store fun gi => do
    .ok (.linear st, ← st.backward (← Out.idx ins 0) (← Out.idx gos 0) gi)
  | .relu => writeFront gis store fun gi => do .ok (.relu, ← reluBwd (← Out.idx ins 0) (← Out.idx gos 0) gi)
  | .softmax => writeFront gis store fun gi => do
    .ok (.softmax, ← SoftmaxL.backward (← Out.idx outs 0) (← Out.idx gos 0) gi)
  | .batchNorm1D st => writeFront gis store fun gi => do .ok (.batchNorm1D st, ← st.backward1d (← Out.idx gos 0) gi)
  | .elu a => writeFront gis store fun gi => do .ok (.elu a, ← eluBwd a (← Out.idx ins 0) (← Out.idx gos 0) gi)
  | .maxPooling st => writeFront gis store fun gi => do
    let r ← st.backward (← Out.idx gos 0) gi
    .ok (.maxPooling r.1, r.2)
  | .convolution st => writeFront gis store fun gi => do
    .ok (.convolution st, ← st.backward env.junk (← Out.idx gos 0) gi)
  | .leakyReLU a => writeFront gis store fun gi => do
    .ok (.leakyReLU a, ← leakyReLUBwd a (← Out.idx ins 0) (← Out.idx gos 0) gi)
  | .sigmoid => writeFront gis store fun gi => do .ok (.sigmoid, ← sigmoidBwd (← Out.idx outs 0) (← Out.idx gos 0) gi)
  | .dropout st => writeFront gis store fun gi => do .ok (.dropout st, ← st.backward (← Out.idx gos 0) gi)
  | .globalAvgPooling => writeFront gis store fun gi => do .ok (.globalAvgPooling, ← gapBackward (← Out.idx gos 0) gi)
  | .batchNorm2D st => writeFront gis store fun gi => do
    let r ← st.backward2d (← Out.idx gos 0) gi
    .ok (.batchNorm2D r.1, r.2)
  | .add => do .ok (.add, ← addBackward gos gis store)

end Cpu

/-! ### The backend object -/

/-- `CPUBackend`: `m_mem` and `m_grad` by data id, and the layer objects of `m_ops` in order
(src/runtime/cpu/cpubackend.hpp). -/
structure Backend where
  mem : List Nat
  grad : List Nat
  layers : List Cpu

/-- All tensors, and the backend of the model under consideration. -/
structure World where
  store : List Buf
  backend : Option Backend := none

/-- Tensors for one data node: those of `m_mem` and `m_grad` (cpubackend.cpp:43-61). Those not allocated are
default-constructed. -/
def allocData (junk : Nat → ℝ) (storage : Storage) (shape : Shape) : Out (Buf × Buf) :=
  match storage with
  | .internal => do
    let a ← freshBuf junk shape
    let b ← freshBuf junk shape
    .ok (a, b)
  | .input => do
    let b ← freshBuf junk shape
    .ok (⟨[], []⟩, b)
  | .output => .ok (⟨[], []⟩, ⟨[], []⟩)

/-- `CPUBackend::CPUBackend` (cpubackend.cpp:25-66) and `Model::compile` (src/model/model.cpp:236-238): the new
tensors are appended to the store. `tensors` are the tensors of each layer info. -/
def Model.compile (m : Model) (e : Expr) (real : F32 → ℝ) (junk : Nat → ℝ) (tensors : Nat → InfoTensors) : M World Unit :=
  fun w =>
    let r : Out (List (Buf × Buf) × List Cpu) := do
      let data ← (sortedData m.sorted).mapM fun x => allocData junk (m.graph.storage x) (phShape e x)
      let layers ← (sortedOps m.sorted).mapM fun c =>
        Cpu.create real (infoOf e (e.callInfo c)).op (tensors (e.callInfo c))
      .ok (data, layers)
    match r with
    | .ub u => (.ub u, w)
    | .throw x => (.throw x, w)
    | .ok (data, layers) =>
      let n := w.store.length
      (.ok (), ⟨w.store ++ data.map Prod.fst ++ data.map Prod.snd,
        some ⟨(List.range data.length).map (n + ·), (List.range data.length).map (n + data.length + ·), layers⟩⟩)

/-- `CPUBackend::bind` (cpubackend.cpp:68-75): `ids` are the data ids of the node handles. -/
def bind (ts : List Nat) : List Nat → Nat → List Nat → Out (List Nat)
  | [], _, mem => .ok mem
  | id :: ids, i, mem => do
    let t ← Out.idx ts i
    if id < mem.length then bind ts ids (i + 1) (mem.set id t) else .ub .oob

/-- The tensors behind a list of data ids: handles, and their buffers. -/
def gather (mem : List Nat) (store : List Buf) (ids : List Nat) : Out (List Nat × List Buf) := do
  let hs ← ids.mapM (Out.idx mem)
  let bs ← hs.mapM (Out.idx store)
  .ok (hs, bs)

/-- One iteration of `forward` (cpubackend.cpp:86-97). -/
def forwardOp (env : Env) (inIds outIds : List Nat) (mem : List Nat) (l : Cpu) (store : List Buf) : Out (Cpu × List Buf) := do
  let (ih, ins) ← gather mem store inIds
  let (oh, outs) ← gather mem store outIds
  let (l, v) ← l.forward env ins outs
  match oh, outs with
  | h :: _, b :: _ => if h ∈ ih then .ub .overlap else .ok (l, store.set h (b.put v))
  | _, _ => .ub .oob

/-- One iteration of `backward` (cpubackend.cpp:126-147). -/
def backwardOp (env : Env) (inIds outIds : List Nat) (mem grad : List Nat) (l : Cpu) (store : List Buf) :
    Out (Cpu × List Buf) := do
  let (gih, _) ← gather grad store inIds
  let (ih, ins) ← gather mem store inIds
  let (oh, outs) ← gather mem store outIds
  let (goh, gos) ← gather grad store outIds
  let l ← l.updateGradients ins gos
  if gih.any (fun h => h ∈ ih ∨ h ∈ oh ∨ h ∈ goh) then .ub .overlap else l.backward env ins outs gos gih store

/-- Run `f` on layer `k` and the store, and keep what it returns. -/
def onLayer (k : Nat) (f : Cpu → List Buf → Out (Cpu × List Buf)) : M World Unit := fun w =>
  match w.backend with
  | none => (.throw .dw, w)
  | some b =>
    match b.layers[k]? with
    | none => (.ub .oob, w)
    | some l =>
      match f l w.store with
      | .ub u => (.ub u, w)
      | .throw x => (.throw x, w)
      | .ok (l, store) => (.ok (), ⟨store, some { b with layers := b.layers.set k l }⟩)

/-- Run a list of actions. -/
def runAll : List (M World Unit) → M World Unit
  | [] => pure ()
  | a :: as => do
    a
    runAll as

/-- Replace `m_mem` and `m_grad`. -/
def rebind (f : Backend → Out Backend) : M World Unit := fun w =>
  match w.backend with
  | none => (.throw .dw, w)
  | some b =>
    match f b with
    | .ub u => (.ub u, w)
    | .throw x => (.throw x, w)
    | .ok b => (.ok (), { w with backend := some b })

/-- `DeepWorks_Assert(m_backend)` of `Model::forward` and `Model::backward` (model.cpp:257,264). -/
def needBackend : M World Unit := fun w =>
  match w.backend with
  | none => (.throw .dw, w)
  | some _ => (.ok (), w)

/-- The ids of a list of placeholders. -/
def idsOf (m : Model) (phs : List Nat) : List Nat := phs.map (dataId m.sorted)

/-- `Model::forward` (model.cpp:240-244,255-259) and `CPUBackend::forward` (cpubackend.cpp:77-99). `env c` is for the
layer applied by call `c`; `ins` and `outs` are the caller's tensors. -/
def Model.forward (m : Model) (env : Nat → Env) (ins outs : List Nat) : M World Unit := do
  needBackend
  rebind fun b => do .ok { b with mem := ← bind ins (idsOf m m.graph.ins) 0 b.mem }
  rebind fun b => do .ok { b with mem := ← bind outs (idsOf m m.graph.outs) 0 b.mem }
  runAll ((sortedOps m.sorted).zipIdx.map fun p => do
    let w ← M.get
    onLayer p.2 (forwardOp (env p.1) (inIds m.graph m.sorted p.1) (outIds m.graph m.sorted p.1)
      ((w.backend.map Backend.mem).getD [])))

/-- `initializer::zeros(m_grad[id])`. -/
def zeroGrad (id : Nat) : M World Unit := fun w =>
  match w.backend with
  | none => (.throw .dw, w)
  | some b =>
    match b.grad[id]? with
    | none => (.ub .oob, w)
    | some h =>
      match w.store[h]? with
      | none => (.ub .freed, w)
      | some t => (.ok (), { w with store := w.store.set h (t.put (List.replicate t.vals.length 0)) })

/-- `Model::backward` (model.cpp:246-252,261-265) and `CPUBackend::backward` (cpubackend.cpp:101-148). -/
def Model.backward (m : Model) (env : Nat → Env) (ins outs gos : List Nat) : M World Unit := do
  needBackend
  runAll (((sortedData m.sorted).filter fun x => m.graph.storage x != .output).map fun x => zeroGrad (dataId m.sorted x))
  rebind fun b => do .ok { b with mem := ← bind ins (idsOf m m.graph.ins) 0 b.mem }
  rebind fun b => do .ok { b with mem := ← bind outs (idsOf m m.graph.outs) 0 b.mem }
  rebind fun b => do .ok { b with grad := ← bind gos (idsOf m m.graph.outs) 0 b.grad }
  runAll ((sortedOps m.sorted).zipIdx.reverse.map fun p => do
    let w ← M.get
    onLayer p.2 (backwardOp (env p.1) (inIds m.graph m.sorted p.1) (outIds m.graph m.sorted p.1)
      ((w.backend.map Backend.mem).getD []) ((w.backend.map Backend.grad).getD [])))

end

end DW
