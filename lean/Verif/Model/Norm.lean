import Verif.Model.Layers
/-!
# Layout conversion, batch normalisation, dropout, global average pooling and addition

Kernels from src/runtime/cpu/kernels/kernels.cpp and the layer classes of src/runtime/cpu/layers,
with the conventions of `Verif.Model.Layers`. A function that changes members of its layer also
returns the new layer. `junk` are the contents of freshly allocated memory.
-/

namespace DW

noncomputable section

open Classical Eig

/-- `shape[i]` used as a loop bound of type `size_t`. -/
def dimN (b : Buf) (i : Nat) : Out Nat := do
  let d ← dim b i
  if 0 ≤ d then .ok d.toNat else .ub .oob

/-- `Tensor(shape)` (src/runtime/tensor.cpp:57-59,66-77,89-95): uninitialised. -/
def freshBuf (junk : Nat → ℝ) (shape : Shape) : Out Buf := do
  Out.check (!Tensor.hasNegative shape)
  let n ← Tensor.accProd shape
  .ok ⟨shape, (List.range n.toNat).map junk⟩

/-- `if (cond) t = Tensor(shape);`. -/
def renew (junk : Nat → ℝ) (cond : Bool) (t : Buf) (shape : Shape) : Out Buf :=
  if cond then freshBuf junk shape else .ok t

/-! ### Layout -/

/-- `dst[i] = *(src++)` for each `i` of a list. -/
def writeSeq {α : Type} : List Nat → List α → List α → Out (List α)
  | [], _, dst => .ok dst
  | _ :: _, [], _ => .ub .oob
  | i :: is, x :: src, dst => if i < dst.length then writeSeq is src (dst.set i x) else .ub .oob

/-- The indices `NCHW2NHWC` writes (kernels.cpp:512-516). -/
def nhwcIdx (N C H W : Nat) : List Nat :=
  (List.range N).flatMap fun n => (List.range C).flatMap fun c => (List.range H).flatMap fun h =>
    (List.range W).map fun w => ((n * H + h) * W + w) * C + c

/-- `utils::NCHW2NHWC` (kernels.cpp:504-521): the new contents of `output`. -/
def nchw2nhwc (input output : Buf) : Out (List ℝ) := do
  let N ← dimN input 0
  let C ← dimN input 1
  let H ← dimN input 2
  let W ← dimN input 3
  writeSeq (nhwcIdx N C H W) input.vals output.vals

/-- The indices `NHWC2NCHW` writes (kernels.cpp:531-535). -/
def nchwIdx (N C H W : Nat) : List Nat :=
  (List.range N).flatMap fun n => (List.range H).flatMap fun h => (List.range W).flatMap fun w =>
    (List.range C).map fun c => ((n * C + c) * H + h) * W + w

/-- `utils::NHWC2NCHW` (kernels.cpp:523-540). -/
def nhwc2nchw (input output : Buf) : Out (List ℝ) := do
  let N ← dimN output 0
  let C ← dimN output 1
  let H ← dimN output 2
  let W ← dimN output 3
  writeSeq (nchwIdx N C H W) input.vals output.vals

/-! ### Global average pooling -/

/-- `CPUGlobalAvgPooling::forward` (src/runtime/cpu/layers/cpuglobalavgpooling.cpp:5-11) and
`CPUGlobalAvgPoolingForward` (kernels.cpp:366-375). -/
def gapForward (input output : Buf) : Out (List ℝ) := do
  let batch ← dim input 0
  let channels ← dim input 1
  let h ← dim input 2
  let w ← dim input 3
  let X ← mat input.vals (batch * channels) (h * w)
  setVec output.vals output.vals.length (rowMean X)

/-- `CPUGlobalAvgPooling::backward` (cpuglobalavgpooling.cpp:13-21) and
`CPUGlobalAvgPoolingInputGrad` (kernels.cpp:377-391). -/
def gapBackward (gradOutput gradInput : Buf) : Out (List ℝ) := do
  let batch ← dim gradInput 0
  let channels ← dim gradInput 1
  let h ← dim gradInput 2
  let w ← dim gradInput 3
  let go ← vec gradOutput.vals (batch * channels)
  let gi ← mat gradInput.vals (batch * channels) (h * w)
  let r ← colwise (fun a o => a + o / ((h * w : Int) : ℝ)) gi go
  setMat gradInput.vals 0 (batch * channels) (h * w) r

/-! ### Batch normalisation -/

/-- What `CPUBatchNorm1DForward` assigns. -/
structure BnOut where
  output : Mat
  centered : Mat
  std : Vec
  mean : Vec
  var : Vec

/-- `CPUBatchNorm1DForward` (kernels.cpp:295-316). -/
def bnForward (input : Mat) (runMean runVar : Vec) (training : Bool) (eps alpha : ℝ) (gamma beta : Vec) :
    Out BnOut := do
  let r ← (if training then do
      let mean := colMean input
      let centered ← rowwise (· - ·) input mean
      let var := colMean (Eig.map (fun x => x ^ 2) centered)
      let std := vmap Real.sqrt (vmap (· + eps) var)
      let m ← vzip (· + ·) (vmap (· * alpha) runMean) (vmap (· * (1 - alpha)) mean)
      let v ← vzip (· + ·) (vmap (· * alpha) runVar) (vmap (· * (1 - alpha)) var)
      .ok (centered, std, m, v)
    else do
      let centered ← rowwise (· - ·) input runMean
      let std := vmap Real.sqrt (vmap (· + eps) runVar)
      .ok (centered, std, runMean, runVar) : Out (Mat × Vec × Vec × Vec))
  let (centered, std, m, v) := r
  let q ← vzip (· / ·) gamma std
  let s ← rowwise (· * ·) centered q
  let output ← rowwise (· + ·) s beta
  .ok ⟨output, centered, std, m, v⟩

/-- `CPUBatchNorm1DInputGrad` (kernels.cpp:318-337). -/
def bnInputGrad (centered : Mat) (std : Vec) (go gi : Mat) (gamma : Vec) : Out Mat := do
  let batch : ℝ := centered.rows
  let gxn ← rowwise (· * ·) go gamma
  let p ← zip (· * ·) centered gxn
  let p ← rowwise (· / ·) p (vmap (fun x => x ^ 2) std)
  let gstd := vmap (· * -1) (colSum p)
  let gvar ← vzip (· / ·) gstd (vmap (· * 2) std)
  let a ← rowwise (· / ·) gxn std
  let b ← rowwise (· * ·) centered gvar
  let gxc ← zip (· + ·) a (Eig.map (· * (2 / batch)) b)
  let gmu := colSum gxc
  let r ← rowwise (· - ·) gxc (vmap (· / batch) gmu)
  zip (· + ·) gi r

/-- `CPUBatchNorm1DParamGrad` (kernels.cpp:339-344): gradients of gamma and beta. -/
def bnParamGrad (centered : Mat) (std : Vec) (go : Mat) : Out (Vec × Vec) := do
  let n ← rowwise (· / ·) centered std
  let p ← zip (· * ·) n go
  .ok (colSum p, colSum go)

/-- The members of `CPUBatchNorm1D` and `CPUBatchNorm2D` (src/runtime/cpu/layers/cpubatchnorm1d.cpp:6-15,
cpubatchnorm2d.cpp:6-15) with the trainable flags and the attributes of the layer info. `nhwcIn` and
`nhwcOut` exist in `CPUBatchNorm2D` only. -/
structure BnSt where
  gamma : Buf
  beta : Buf
  gradGamma : Buf
  gradBeta : Buf
  std : Buf
  runMean : Buf
  runVar : Buf
  centered : Buf := ⟨[], []⟩
  nhwcIn : Buf := ⟨[], []⟩
  nhwcOut : Buf := ⟨[], []⟩
  gammaTrainable : Bool
  betaTrainable : Bool
  eps : ℝ
  alpha : ℝ

/-- Replace the elements of a tensor. -/
def Buf.put (b : Buf) (vals : List ℝ) : Buf := { b with vals := vals }

namespace BnSt

/-- `validate` of both classes (cpubatchnorm1d.cpp:17-24, cpubatchnorm2d.cpp:17-24). -/
def validate (rank : Nat) (ins outs : List Buf) : Out Unit := do
  Out.check (ins.length == 1)
  Out.check (outs.length == 1)
  let input ← Out.idx ins 0
  let output ← Out.idx outs 0
  Out.check (input.shape.length == rank)
  Out.check (output.shape.length == rank)

/-- `CPUBatchNorm1D::forward` (cpubatchnorm1d.cpp:26-69): the layer afterwards and the new contents of
the output. -/
def forward1d (junk : Nat → ℝ) (st : BnSt) (ins outs : List Buf) : Out (BnSt × List ℝ) := do
  validate 2 ins outs
  let input ← Out.idx ins 0
  let output ← Out.idx outs 0
  let centered ← renew junk (st.centered.shape != input.shape) st.centered input.shape
  Out.check (st.gammaTrainable == st.betaTrainable)
  let X ← mat input.vals (← dim input 0) (← dim input 1)
  let mean ← vec st.runMean.vals (← dim st.runMean 0)
  let var ← vec st.runVar.vals (← dim st.runVar 0)
  let gamma ← vec st.gamma.vals (← dim st.gamma 0)
  let beta ← vec st.beta.vals (← dim st.beta 0)
  let r ← bnForward X mean var (st.gammaTrainable && st.betaTrainable) st.eps st.alpha gamma beta
  let c ← setMat centered.vals 0 (← dim centered 0) (← dim centered 1) r.centered
  let s ← setVec st.std.vals (← dim st.std 0) r.std
  let m ← setVec st.runMean.vals (← dim st.runMean 0) r.mean
  let v ← setVec st.runVar.vals (← dim st.runVar 0) r.var
  let out ← setMat output.vals 0 (← dim output 0) (← dim output 1) r.output
  .ok ({ st with centered := centered.put c, std := st.std.put s, runMean := st.runMean.put m,
                 runVar := st.runVar.put v }, out)

/-- `CPUBatchNorm1D::backward` (cpubatchnorm1d.cpp:71-88). -/
def backward1d (st : BnSt) (gradOutput gradInput : Buf) : Out (List ℝ) := do
  let c ← mat st.centered.vals (← dim st.centered 0) (← dim st.centered 1)
  let s ← vec st.std.vals (← dim st.std 0)
  let go ← mat gradOutput.vals (← dim gradOutput 0) (← dim gradOutput 1)
  let g0 ← dim gradInput 0
  let g1 ← dim gradInput 1
  let gi ← mat gradInput.vals g0 g1
  let gamma ← vec st.gamma.vals (← dim st.gamma 0)
  let r ← bnInputGrad c s go gi gamma
  setMat gradInput.vals 0 g0 g1 r

/-- `CPUBatchNorm1D::updateGradients` (cpubatchnorm1d.cpp:90-105). -/
def updateGradients1d (st : BnSt) (gradOutput : Buf) : Out BnSt := do
  let c ← mat st.centered.vals (← dim st.centered 0) (← dim st.centered 1)
  let s ← vec st.std.vals (← dim st.std 0)
  let go ← mat gradOutput.vals (← dim gradOutput 0) (← dim gradOutput 1)
  let r ← bnParamGrad c s go
  let b ← setVec st.gradBeta.vals (← dim st.gradBeta 0) r.2
  let g ← setVec st.gradGamma.vals (← dim st.gradGamma 0) r.1
  .ok { st with gradBeta := st.gradBeta.put b, gradGamma := st.gradGamma.put g }

/-- `CPUBatchNorm2D::forward` (cpubatchnorm2d.cpp:26-74). The scratch tensors are allocated only if
they are empty. -/
def forward2d (junk : Nat → ℝ) (st : BnSt) (ins outs : List Buf) : Out (BnSt × List ℝ) := do
  validate 4 ins outs
  let input ← Out.idx ins 0
  let output ← Out.idx outs 0
  Out.check (st.gammaTrainable == st.betaTrainable)
  let N ← dim input 0
  let C ← dim input 1
  let H ← dim input 2
  let W ← dim input 3
  let nhwcIn ← renew junk (st.nhwcIn.vals.length == 0) st.nhwcIn [N, H, W, C]
  let nhwcOut ← renew junk (st.nhwcIn.vals.length == 0) st.nhwcOut [N, H, W, C]
  let centered ← renew junk (st.centered.vals.length == 0) st.centered [N * H * W, C]
  let i ← nchw2nhwc input nhwcIn
  let X ← mat i (N * H * W) C
  let mean ← vec st.runMean.vals C
  let var ← vec st.runVar.vals C
  let gamma ← vec st.gamma.vals C
  let beta ← vec st.beta.vals C
  let r ← bnForward X mean var st.gammaTrainable st.eps st.alpha gamma beta
  let c ← setMat centered.vals 0 (N * H * W) C r.centered
  let s ← setVec st.std.vals C r.std
  let m ← setVec st.runMean.vals C r.mean
  let v ← setVec st.runVar.vals C r.var
  let o ← setMat nhwcOut.vals 0 (N * H * W) C r.output
  let out ← nhwc2nchw (nhwcOut.put o) output
  .ok ({ st with centered := centered.put c, std := st.std.put s, runMean := st.runMean.put m,
                 runVar := st.runVar.put v, nhwcIn := nhwcIn.put i, nhwcOut := nhwcOut.put o }, out)

/-- `static_cast<int>(total) / C`. -/
def rowsOf (b : Buf) (C : Int) : Out Int := if C = 0 then .ub .divZero else .ok ((b.vals.length : Int).tdiv C)

/-- `CPUBatchNorm2D::backward` (cpubatchnorm2d.cpp:76-97). -/
def backward2d (st : BnSt) (gradOutput gradInput : Buf) : Out (BnSt × List ℝ) := do
  let C ← dim gradOutput 1
  let o ← nchw2nhwc gradOutput st.nhwcOut
  let zeros := List.replicate st.nhwcIn.vals.length (0 : ℝ)
  let rows ← rowsOf gradOutput C
  let rowsIn ← rowsOf st.nhwcIn C
  let c ← mat st.centered.vals rows C
  let s ← vec st.std.vals C
  let go ← mat o rows C
  let gi ← mat zeros rowsIn C
  let gamma ← vec st.gamma.vals C
  let r ← bnInputGrad c s go gi gamma
  let i ← setMat zeros 0 rowsIn C r
  let out ← nhwc2nchw (st.nhwcIn.put i) gradInput
  .ok ({ st with nhwcOut := st.nhwcOut.put o, nhwcIn := st.nhwcIn.put i }, out)

/-- `CPUBatchNorm2D::updateGradients` (cpubatchnorm2d.cpp:99-112). -/
def updateGradients2d (st : BnSt) (gradOutput : Buf) : Out BnSt := do
  let C ← dim gradOutput 1
  let o ← nchw2nhwc gradOutput st.nhwcOut
  let rows ← rowsOf gradOutput C
  let c ← mat st.centered.vals rows C
  let s ← vec st.std.vals C
  let go ← mat o rows C
  let r ← bnParamGrad c s go
  let b ← setVec st.gradBeta.vals C r.2
  let g ← setVec st.gradGamma.vals C r.1
  .ok { st with gradBeta := st.gradBeta.put b, gradGamma := st.gradGamma.put g, nhwcOut := st.nhwcOut.put o }

end BnSt

/-! ### Dropout -/

/-- The mask parameter of a `CPUDropout` (src/runtime/cpu/layers/cpudropout.cpp:4-7), its trainable flag
and the attribute `p`. -/
structure DropSt where
  mask : Buf
  trainable : Bool
  p : ℝ

namespace DropSt

/-- `CPUDropoutForward` after the mask is drawn (kernels.cpp:346-353). -/
def kernel (x m : Vec) (p : ℝ) : Out Vec := vzip (fun m x => (if p ≤ m then x else 0) / (1 - p)) m x

/-- `CPUDropout::forward` (cpudropout.cpp:18-31). `rng` are the numbers `initializer::uniform` draws.
`copyTo` (src/runtime/tensor.cpp:79-87) throws for an empty output. -/
def forward (rng : Nat → ℝ) (st : DropSt) (ins outs : List Buf) : Out (DropSt × List ℝ) := do
  ActL.validate ins outs
  let input ← Out.idx ins 0
  let output ← Out.idx outs 0
  if st.trainable then do
    let mask := st.mask.put ((List.range st.mask.vals.length).map rng)
    let x ← vec input.vals input.vals.length
    let m ← vec mask.vals mask.vals.length
    let r ← kernel x m st.p
    let out ← setVec output.vals output.vals.length r
    .ok ({ st with mask := mask }, out)
  else do
    Out.check (output.vals.length != 0)
    .ok (st, input.vals)

/-- `CPUDropout::backward` (cpudropout.cpp:33-42) and `CPUDropoutInputGrad` (kernels.cpp:355-364). -/
def backward (st : DropSt) (gradOutput gradInput : Buf) : Out (List ℝ) := do
  let go ← vec gradOutput.vals gradOutput.vals.length
  let m ← vec st.mask.vals st.mask.vals.length
  let gi ← vec gradInput.vals gradInput.vals.length
  let d ← vzip (fun m g => if st.p ≤ m then g else 0) m go
  let r ← vzip (· + ·) gi d
  setVec gradInput.vals gradInput.vals.length r

end DropSt

/-! ### Add -/

/-- `CPUAdd::forward` (src/runtime/cpu/layers/cpuadd.cpp:4-11) and `CPUAddForward` (kernels.cpp:542-548). -/
def addForward (ins outs : List Buf) : Out (List ℝ) := do
  let lhs ← Out.at? ins[0]?
  let rhs ← Out.at? ins[1]?
  let out ← Out.at? outs[0]?
  let a ← vec lhs.vals lhs.vals.length
  let b ← vec rhs.vals rhs.vals.length
  let r ← vzip (· + ·) a b
  setVec out.vals out.vals.length r

/-- `t.data()[i] += v`, where `t` is tensor number `h` of a table. -/
def addAt (tbl : List Buf) (h i : Nat) (v : ℝ) : Out (List Buf) :=
  match tbl[h]? with
  | none => .ub .null
  | some b =>
    match b.vals[i]? with
    | none => .ub .oob
    | some x => .ok (tbl.set h (b.put (b.vals.set i (x + v))))

/-- The loop of `CPUAdd::backward` from iteration `i` on (cpuadd.cpp:21-25), run in order. `gi0` and
`gi1` may be the same tensor. -/
def addLoop (gi0 gi1 : Nat) : List ℝ → Nat → List Buf → Out (List Buf)
  | [], _, tbl => .ok tbl
  | v :: go, i, tbl => do
    let tbl ← addAt tbl gi0 i v
    let tbl ← addAt tbl gi1 i v
    addLoop gi0 gi1 go (i + 1) tbl

/-- `CPUAdd::backward` (cpuadd.cpp:13-26) on gradient tensors of a table. -/
def addBackward (gos : List Buf) (gis : List Nat) (tbl : List Buf) : Out (List Buf) := do
  let go ← Out.at? gos[0]?
  let gi0 ← Out.at? gis[0]?
  let gi1 ← Out.at? gis[1]?
  addLoop gi0 gi1 go.vals 0 tbl

end

end DW
