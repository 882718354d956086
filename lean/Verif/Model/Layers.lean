import Verif.Model.Eigen
import Verif.Model.Tensor
import Mathlib.Analysis.SpecialFunctions.Exp
/-!
# Linear, softmax and activation layers of the CPU backend

Kernels from src/runtime/cpu/kernels/kernels.cpp and the layer classes of src/runtime/cpu/layers.
A kernel takes evaluated Eigen expressions and returns what is assigned to its destination map; a
`+=` kernel also takes the old value of the destination. The layer functions take the tensors as
values and return the new contents of the tensor they write; the tensors passed to one call do not
overlap.
-/

namespace DW

noncomputable section

open Classical Eig

/-! ### Kernels -/

/-- `CPULinearForward` (kernels.cpp:12-14). -/
def linearForward (X W : Mat) : Out Mat := mul X (transpose W)

/-- `CPULinearAddBias` (kernels.cpp:16-18). -/
def linearAddBias (X : Mat) (b : Vec) : Out Mat := rowwise (· + ·) X b

/-- `CPULinearInputGrad` (kernels.cpp:20-24). -/
def linearInputGrad (dx W gradInput : Mat) : Out Mat := do
  let p ← mul dx W
  zip (· + ·) gradInput p

/-- `CPULinearWeightGrad` (kernels.cpp:26-28). -/
def linearWeightGrad (input dx : Mat) : Out Mat := mul (transpose dx) input

/-- `CPULinearBiasGrad` (kernels.cpp:30-32). -/
def linearBiasGrad (dx : Mat) : Vec := colSum dx

/-- The matrix `exp_x` of `CPUSoftmaxForward` (kernels.cpp:35). -/
def softmaxExp (X : Mat) : Out Mat := do
  let mx ← rowMax X
  let d ← colwise (· - ·) X mx
  .ok (Eig.map Real.exp d)

/-- `CPUSoftmaxForward` (kernels.cpp:34-37). -/
def softmaxForward (X : Mat) : Out Mat := do
  let e ← softmaxExp X
  colwise (· / ·) e (rowSum e)

/-- `CPUSoftmaxInputGrad` (kernels.cpp:39-42). -/
def softmaxInputGrad (output gradOutput gradInput : Mat) : Out Mat := do
  let p ← zip (· * ·) gradOutput output
  let k := rowSum p
  let d ← colwise (· - ·) gradOutput k
  let q ← zip (· * ·) output d
  zip (· + ·) gradInput q

/-- `CPUReLUForward` (kernels.cpp:44-46). -/
def reluForward (X : Vec) : Vec := vmap (fun x => if 0 < x then x else 0) X

/-- `CPUReLUInputGrad` (kernels.cpp:48-52). -/
def reluInputGrad (input gradOutput gradInput : Vec) : Out Vec := do
  let d ← vzip (fun x g => if 0 < x then g else 0) input gradOutput
  vzip (· + ·) gradInput d

/-- `CPULeakyReLUForward` (kernels.cpp:54-56). -/
def leakyReLUForward (alpha : ℝ) (X : Vec) : Vec := vmap (fun x => if x < 0 then x * alpha else x) X

/-- `CPULeakyReLUInputGrad` (kernels.cpp:58-62). -/
def leakyReLUInputGrad (alpha : ℝ) (input gradOutput gradInput : Vec) : Out Vec := do
  let d ← vzip (fun x g => if x < 0 then g * alpha else g) input gradOutput
  vzip (· + ·) gradInput d

/-- `CPUELUForward` (kernels.cpp:64-66). -/
def eluForward (alpha : ℝ) (X : Vec) : Vec := vmap (fun x => if x < 0 then (Real.exp x - 1) * alpha else x) X

/-- `CPUELUInputGrad` (kernels.cpp:68-71). -/
def eluInputGrad (alpha : ℝ) (input gradOutput gradInput : Vec) : Out Vec := do
  let s := vmap (fun x => if x < 0 then Real.exp x * alpha else 1) input
  let d ← vzip (· * ·) gradOutput s
  vzip (· + ·) gradInput d

/-- `CPUSigmoidForward` (kernels.cpp:73-75). -/
def sigmoidForward (X : Vec) : Vec := vmap (fun x => (Real.exp (x * -1) + 1)⁻¹) X

/-- `CPUSigmoidInputGrad` (kernels.cpp:76-79). -/
def sigmoidInputGrad (output gradOutput gradInput : Vec) : Out Vec := do
  let s := vmap (fun y => y * (y * -1 + 1)) output
  let d ← vzip (· * ·) gradOutput s
  vzip (· + ·) gradInput d

/-! ### `CPULinear` -/

/-- The tensors a `CPULinear` refers to (src/runtime/cpu/layers/cpulinear.cpp:6-12). -/
structure LinearSt where
  weight : Buf
  bias : Buf
  gradWeight : Buf
  gradBias : Buf

namespace LinearSt

/-- `accumulate(shape.begin() + 1, shape.end(), 1, multiplies)` (cpulinear.cpp:35). -/
def second : Shape → Out Int
  | [] => .ub .oob
  | _ :: rest => Tensor.accProd rest

/-- `CPULinear::validate` (cpulinear.cpp:14-21). -/
def validate (ins outs : List Buf) : Out Unit := do
  Out.check (ins.length == 1)
  Out.check (outs.length == 1)
  let input ← Out.idx ins 0
  let output ← Out.idx outs 0
  Out.check (input.shape.length != 1)
  Out.check (output.shape.length != 1)

/-- `CPULinear::forward` (cpulinear.cpp:23-44): the new contents of the output. -/
def forward (st : LinearSt) (ins outs : List Buf) : Out (List ℝ) := do
  validate ins outs
  let input ← Out.idx ins 0
  let output ← Out.idx outs 0
  let n ← second input.shape
  let X ← mat input.vals (← dim input 0) n
  let W ← mat st.weight.vals (← dim st.weight 0) (← dim st.weight 1)
  let o0 ← dim output 0
  let o1 ← dim output 1
  let r ← linearForward X W
  let out ← setMat output.vals 0 o0 o1 r
  let Y ← mat out o0 o1
  let b ← vec st.bias.vals (← dim st.bias 0)
  let r ← linearAddBias Y b
  setMat out 0 o0 o1 r

/-- `CPULinear::backward` (cpulinear.cpp:46-64): the new contents of the input gradient. -/
def backward (st : LinearSt) (input gradOutput gradInput : Buf) : Out (List ℝ) := do
  let n ← second input.shape
  let dx ← mat gradOutput.vals (← dim gradOutput 0) (← dim gradOutput 1)
  let W ← mat st.weight.vals (← dim st.weight 0) (← dim st.weight 1)
  let g0 ← dim gradInput 0
  let gi ← mat gradInput.vals g0 n
  let r ← linearInputGrad dx W gi
  setMat gradInput.vals 0 g0 n r

/-- `CPULinear::updateGradients` (cpulinear.cpp:66-83): the new contents of the gradients of weight
and bias. -/
def updateGradients (st : LinearSt) (input gradOutput : Buf) : Out (List ℝ × List ℝ) := do
  let n ← second input.shape
  let X ← mat input.vals (← dim input 0) n
  let dx ← mat gradOutput.vals (← dim gradOutput 0) (← dim gradOutput 1)
  let r ← linearWeightGrad X dx
  let w ← setMat st.gradWeight.vals 0 (← dim st.gradWeight 0) (← dim st.gradWeight 1) r
  let b ← setVec st.gradBias.vals (← dim st.gradBias 0) (linearBiasGrad dx)
  .ok (w, b)

end LinearSt

/-! ### `CPUSoftmax` -/

namespace SoftmaxL

/-- `CPUSoftmax::validate` (src/runtime/cpu/layers/cpusoftmax.cpp:3-10). -/
def validate (ins outs : List Buf) : Out Unit := do
  Out.check (ins.length == 1)
  Out.check (outs.length == 1)
  let input ← Out.idx ins 0
  let output ← Out.idx outs 0
  Out.check (input.shape.length == 2)
  Out.check (output.shape.length == 2)

/-- `CPUSoftmax::forward` (cpusoftmax.cpp:12-23). -/
def forward (ins outs : List Buf) : Out (List ℝ) := do
  validate ins outs
  let input ← Out.idx ins 0
  let output ← Out.idx outs 0
  let X ← mat input.vals (← dim input 0) (← dim input 1)
  let r ← softmaxForward X
  setMat output.vals 0 (← dim output 0) (← dim output 1) r

/-- `CPUSoftmax::backward` (cpusoftmax.cpp:25-36). -/
def backward (output gradOutput gradInput : Buf) : Out (List ℝ) := do
  let o ← mat output.vals (← dim output 0) (← dim output 1)
  let go ← mat gradOutput.vals (← dim gradOutput 0) (← dim gradOutput 1)
  let g0 ← dim gradInput 0
  let g1 ← dim gradInput 1
  let gi ← mat gradInput.vals g0 g1
  let r ← softmaxInputGrad o go gi
  setMat gradInput.vals 0 g0 g1 r

end SoftmaxL

/-! ### Activations

The four classes differ in the kernel they call and in the tensor their gradient is computed from. -/

namespace ActL

/-- `validate` (cpurelu.cpp:4-11, cpuleakyrelu.cpp:3-10, cpuelu.cpp:3-10, cpusigmoid.cpp:3-10). -/
def validate (ins outs : List Buf) : Out Unit := do
  Out.check (ins.length == 1)
  Out.check (outs.length == 1)
  let input ← Out.idx ins 0
  let output ← Out.idx outs 0
  Out.check (input.shape == output.shape)

/-- `forward` (cpurelu.cpp:13-22, cpuleakyrelu.cpp:12-23, cpuelu.cpp:12-23, cpusigmoid.cpp:12-21). -/
def forward (kernel : Vec → Vec) (ins outs : List Buf) : Out (List ℝ) := do
  validate ins outs
  let input ← Out.idx ins 0
  let output ← Out.idx outs 0
  let X ← vec input.vals input.vals.length
  setVec output.vals output.vals.length (kernel X)

/-- `backward` (cpurelu.cpp:24-35, cpuleakyrelu.cpp:25-38, cpuelu.cpp:25-38, cpusigmoid.cpp:23-34);
`from_` is the input, or for Sigmoid the output. -/
def backward (kernel : Vec → Vec → Vec → Out Vec) (from_ gradOutput gradInput : Buf) : Out (List ℝ) := do
  let x ← vec from_.vals from_.vals.length
  let go ← vec gradOutput.vals gradOutput.vals.length
  let gi ← vec gradInput.vals gradInput.vals.length
  let r ← kernel x go gi
  setVec gradInput.vals gradInput.vals.length r

end ActL

/-- `CPUReLU` (cpurelu.cpp). -/
def reluFwd (ins outs : List Buf) : Out (List ℝ) := ActL.forward reluForward ins outs
def reluBwd (input gradOutput gradInput : Buf) : Out (List ℝ) := ActL.backward reluInputGrad input gradOutput gradInput

/-- `LeakyReLU` (cpuleakyrelu.cpp); `alpha` is the attribute. -/
def leakyReLUFwd (alpha : ℝ) (ins outs : List Buf) : Out (List ℝ) := ActL.forward (leakyReLUForward alpha) ins outs
def leakyReLUBwd (alpha : ℝ) (input gradOutput gradInput : Buf) : Out (List ℝ) :=
  ActL.backward (leakyReLUInputGrad alpha) input gradOutput gradInput

/-- `CPUELU` (cpuelu.cpp); `alpha` is the attribute. -/
def eluFwd (alpha : ℝ) (ins outs : List Buf) : Out (List ℝ) := ActL.forward (eluForward alpha) ins outs
def eluBwd (alpha : ℝ) (input gradOutput gradInput : Buf) : Out (List ℝ) :=
  ActL.backward (eluInputGrad alpha) input gradOutput gradInput

/-- `Sigmoid` (cpusigmoid.cpp). -/
def sigmoidFwd (ins outs : List Buf) : Out (List ℝ) := ActL.forward sigmoidForward ins outs
def sigmoidBwd (output gradOutput gradInput : Buf) : Out (List ℝ) :=
  ActL.backward sigmoidInputGrad output gradOutput gradInput

end

end DW
