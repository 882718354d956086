import Verif.Model.Norm
/-!
# im2col, col2im, convolution and max pooling

Kernels from src/runtime/cpu/kernels/kernels.cpp and the classes `CPUConvolution` and `CPUMaxPooling`
(src/runtime/cpu/layers). Conventions as in `Verif.Model.Norm`. The loops marked `omp parallel for` run in
order here; other schedules are the subject of `Verif.Model.Parallel`.
-/

namespace DW

noncomputable section

open Classical Eig

/-- Kernel, padding and stride, vertical and horizontal. -/
structure Geo where
  kh : Int
  kw : Int
  ph : Int
  pw : Int
  sh : Int
  sw : Int

/-- The checks of `CPUConvolution::validate` and `CPUMaxPooling::validate`
(src/runtime/cpu/layers/cpuconvolution.cpp:10-19, cpumaxpooling.cpp:4-13). -/
def Geo.validate (g : Geo) : Out Unit := do
  Out.check (decide (0 < g.kh ∧ 0 < g.kw))
  Out.check (decide (0 ≤ g.ph ∧ 0 ≤ g.pw))
  Out.check (decide (0 < g.sh ∧ 0 < g.sw))

/-- `(n + 2 * p - (d * (k - 1) + 1)) / s + 1` (kernels.cpp:420-421,477-478). The loops count down to zero, so a
negative result is undefined. -/
def outDim (n k p s d : Int) : Out Nat :=
  if s = 0 then .ub .divZero
  else if 0 ≤ (n + 2 * p - (d * (k - 1) + 1)).tdiv s + 1 then .ok ((n + 2 * p - (d * (k - 1) + 1)).tdiv s + 1).toNat
  else .ub .oob

/-! ### im2col -/

/-- The innermost loop (kernels.cpp:433-439): what each step reads, `none` for the fill value. `base` is
the offset of the row. -/
def im2colCols (w sw base : Int) : Int → Nat → List (Option Nat)
  | _, 0 => []
  | col, k + 1 => (if 0 ≤ col ∧ col < w then some (base + col).toNat else none) :: im2colCols w sw base (col + sw) k

/-- The loop over output rows (kernels.cpp:427-442). `src` is the offset of the channel. -/
def im2colRows (h w sh sw src col : Int) (wOut : Nat) : Int → Nat → List (Option Nat)
  | _, 0 => []
  | row, k + 1 =>
    (if ¬ (0 ≤ row ∧ row < h) then List.replicate wOut none else im2colCols w sw (src + row * w) col wOut) ++
      im2colRows h w sh sw src col wOut (row + sh) k

/-- All loops of `im2col` (kernels.cpp:423-445). -/
def im2colReads (ch h w : Nat) (g : Geo) (dh dw : Int) (hOut wOut : Nat) : List (Option Nat) :=
  (List.range ch).flatMap fun (c : Nat) => (List.range g.kh.toNat).flatMap fun (kh : Nat) =>
    (List.range g.kw.toNat).flatMap fun (kw : Nat) =>
      im2colRows h w g.sh g.sw (c * (h * w)) (kw * dw - g.pw) wOut (kh * dh - g.ph) hOut

/-- Read an element of the image or take the fill value. -/
def readOrFill (img : List ℝ) (fill : ℝ) : Option Nat → Out ℝ
  | none => .ok fill
  | some i => Out.idx img i

/-- `im2col` (kernels.cpp:393-446) on an image of the given channels, height and width with elements `img`:
the new contents of the buffer. Image and buffer are different tensors. -/
def im2col (img : List ℝ) (ch h w : Int) (buf : List ℝ) (g : Geo) (dh dw : Int) (fill : ℝ) : Out (List ℝ) := do
  let hOut ← outDim h g.kh g.ph g.sh dh
  let wOut ← outDim w g.kw g.pw g.sw dw
  if 0 ≤ ch ∧ 0 ≤ h ∧ 0 ≤ w then do
    let vs ← (im2colReads ch.toNat h.toNat w.toNat g dh dw hOut wOut).mapM (readOrFill img fill)
    if vs.length ≤ buf.length then .ok (vs ++ buf.drop vs.length) else .ub .oob
  else .ub .oob

/-! ### col2im -/

/-- The innermost loop (kernels.cpp:488-495): where each element of the buffer is added, if anywhere. -/
def col2imCols (w sw base : Int) : Int → Nat → List (Option Nat)
  | _, 0 => []
  | col, k + 1 => (if 0 ≤ col ∧ col < w then some (base + col).toNat else none) :: col2imCols w sw base (col + sw) k

/-- The loop over output rows (kernels.cpp:484-498). -/
def col2imRows (h w sh sw dst col : Int) (wOut : Nat) : Int → Nat → List (Option Nat)
  | _, 0 => []
  | row, k + 1 =>
    (if ¬ (0 ≤ row ∧ row < h) then List.replicate wOut none else col2imCols w sw (dst + row * w) col wOut) ++
      col2imRows h w sh sw dst col wOut (row + sh) k

/-- All loops of `col2im` (kernels.cpp:480-501). -/
def col2imWrites (ch h w : Nat) (g : Geo) (dh dw : Int) (hOut wOut : Nat) : List (Option Nat) :=
  (List.range ch).flatMap fun (c : Nat) => (List.range g.kh.toNat).flatMap fun (kh : Nat) =>
    (List.range g.kw.toNat).flatMap fun (kw : Nat) =>
      col2imRows h w g.sh g.sw (c * (h * w)) (kw * dw - g.pw) wOut (kh * dh - g.ph) hOut

/-- Add each element of the buffer to its destination. -/
def scatterAdd : List (Option Nat) → List ℝ → List ℝ → Out (List ℝ)
  | [], _, dst => .ok dst
  | none :: as, src, dst => scatterAdd as (src.drop 1) dst
  | some _ :: _, [], _ => .ub .oob
  | some a :: as, s :: src, dst =>
    match dst[a]? with
    | none => .ub .oob
    | some x => scatterAdd as src (dst.set a (x + s))

/-- `col2im` (kernels.cpp:448-502): the new elements of the image. -/
def col2im (buf : List ℝ) (img : List ℝ) (ch h w : Int) (g : Geo) (dh dw : Int) : Out (List ℝ) := do
  let hOut ← outDim h g.kh g.ph g.sh dh
  let wOut ← outDim w g.kw g.pw g.sw dw
  if 0 ≤ ch ∧ 0 ≤ h ∧ 0 ≤ w then scatterAdd (col2imWrites ch.toNat h.toNat w.toNat g dh dw hOut wOut) buf img
  else .ub .oob

/-! ### Blocks of a tensor -/

/-- The elements of the view `Tensor(shape, p + off)` with `n` elements; building a view that reaches
outside is already treated as undefined. -/
def block (vals : List ℝ) (off n : Int) : Out (List ℝ) :=
  if 0 ≤ off ∧ 0 ≤ n ∧ off.toNat + n.toNat ≤ vals.length then .ok ((vals.drop off.toNat).take n.toNat) else .ub .oob

/-- Replace the elements from `off` on. -/
def putBlock (vals : List ℝ) (off : Int) (new : List ℝ) : List ℝ :=
  vals.take off.toNat ++ new ++ vals.drop (off.toNat + new.length)

/-! ### Convolution -/

/-- One iteration of `CPUConvolutionalForward` (kernels.cpp:107-116) on the contents of the column buffer and
of the output. -/
def convIter (input : List ℝ) (W : Mat) (bias : Vec) (g : Geo) (cIn hIn wIn cOut rows cols : Int) (b : Nat)
    (s : List ℝ × List ℝ) : Out (List ℝ × List ℝ) := do
  let src ← block input (b * (cIn * hIn * wIn)) (cIn * hIn * wIn)
  let col ← block s.1 (b * rows * cols) (rows * cols)
  let col ← im2col src cIn hIn wIn col g 1 1 0
  let X ← mat col rows cols
  let r ← mul W X
  let r ← colwise (· + ·) r bias
  let out ← block s.2 (b * (cOut * cols)) (cOut * cols)
  let out ← setMat out 0 cOut cols r
  .ok (putBlock s.1 (b * rows * cols) col, putBlock s.2 (b * (cOut * cols)) out)

/-- `CPUConvolutionalForward` (kernels.cpp:81-117): the new contents of the column buffer and of the output. -/
def convForward (input weights bias output : Buf) (buf : List ℝ) (g : Geo) : Out (List ℝ × List ℝ) := do
  let batch ← dimN input 0
  let cIn ← dim input 1
  let hIn ← dim input 2
  let wIn ← dim input 3
  let cOut ← dim weights 0
  let hOut ← dim output 2
  let wOut ← dim output 3
  let rows := cIn * g.kh * g.kw
  let cols := hOut * wOut
  let W ← mat weights.vals cOut rows
  let b ← vec bias.vals cOut
  (List.range batch).foldlM (fun s i => convIter input.vals W b g cIn hIn wIn cOut rows cols i s) (buf, output.vals)

/-- One iteration of `CPUConvolutionalInputGrad` (kernels.cpp:142-152) on the contents of the input gradient.
`junk` are the contents of the local buffer. -/
def convGradIter (junk : Nat → ℝ) (gradOutput : List ℝ) (weights : List ℝ) (g : Geo) (cIn hIn wIn cOut rows cols : Int) (b : Nat)
    (gi : List ℝ) : Out (List ℝ) := do
  let W ← mat weights cOut rows
  let tmp ← freshBuf junk [rows, cols]
  let go ← block gradOutput (b * (cOut * cols)) (cOut * cols)
  let G ← mat go cOut cols
  let c ← mul (transpose W) G
  let tmp ← setMat tmp.vals 0 rows cols c
  let plane ← block gi (b * cIn * hIn * wIn) (cIn * hIn * wIn)
  let plane ← col2im tmp plane cIn hIn wIn g 1 1
  .ok (putBlock gi (b * cIn * hIn * wIn) plane)

/-- `CPUConvolutionalInputGrad` (kernels.cpp:119-153): the new contents of the input gradient. -/
def convInputGrad (junk : Nat → ℝ) (gradOutput weights gradInput : Buf) (g : Geo) : Out (List ℝ) := do
  let batch ← dimN gradOutput 0
  let cOut ← dim gradOutput 1
  let hOut ← dim gradOutput 2
  let wOut ← dim gradOutput 3
  let cIn ← dim gradInput 1
  let hIn ← dim gradInput 2
  let wIn ← dim gradInput 3
  let rows := cIn * g.kh * g.kw
  let cols := hOut * wOut
  (List.range batch).foldlM
    (fun gi i => convGradIter junk gradOutput.vals weights.vals g cIn hIn wIn cOut rows cols i gi) gradInput.vals

/-- `CPUConvolutionalWeightsGrad` (kernels.cpp:155-177): the new contents of the weight gradient. -/
def convWeightsGrad (gradOutput : Buf) (buf : List ℝ) (gradWeights : Buf) : Out (List ℝ) := do
  let batch ← dimN gradOutput 0
  let cOut ← dim gradOutput 1
  let hOut ← dim gradOutput 2
  let wOut ← dim gradOutput 3
  let w1 ← dim gradWeights 1
  let w2 ← dim gradWeights 2
  let w3 ← dim gradWeights 3
  let rows := w1 * w2 * w3
  let cols := hOut * wOut
  let zeros := List.replicate gradWeights.vals.length (0 : ℝ)
  let A ← mat zeros cOut rows
  let A ← (List.range batch).foldlM (fun A (b : Nat) => do
    let go ← block gradOutput.vals (b * cOut * cols) (cOut * cols)
    let G ← mat go cOut cols
    let col ← block buf (b * rows * cols) (rows * cols)
    let X ← mat col rows cols
    let p ← mul G (transpose X)
    zip (· + ·) A p) A
  setMat zeros 0 cOut rows A

/-- `CPUConvolutionalBiasGrad` (kernels.cpp:179-195): the new contents of the bias gradient. -/
def convBiasGrad (gradOutput gradBias : Buf) : Out (List ℝ) := do
  let batch ← dimN gradOutput 0
  let cOut ← dim gradOutput 1
  let hOut ← dim gradOutput 2
  let wOut ← dim gradOutput 3
  let zeros := List.replicate gradBias.vals.length (0 : ℝ)
  let v ← vec zeros cOut
  let v ← (List.range batch).foldlM (fun v (b : Nat) => do
    let go ← block gradOutput.vals (b * (cOut * hOut * wOut)) (cOut * (hOut * wOut))
    let G ← mat go cOut (hOut * wOut)
    vzip (· + ·) v (rowSum G)) v
  setVec zeros cOut v

/-- The members and attributes of a `CPUConvolution` (src/runtime/cpu/layers/cpuconvolution.cpp:4-8). -/
structure ConvSt where
  weight : Buf
  bias : Buf
  gradWeight : Buf
  gradBias : Buf
  im2col : Buf := ⟨[], []⟩
  geo : Geo

namespace ConvSt

/-- `CPUConvolution::forward` (cpuconvolution.cpp:21-55): the layer afterwards and the new contents of the output. -/
def forward (junk : Nat → ℝ) (st : ConvSt) (ins outs : List Buf) : Out (ConvSt × List ℝ) := do
  st.geo.validate
  let input ← Out.idx ins 0
  let output ← Out.idx outs 0
  let batch ← dim input 0
  let cIn ← dim input 1
  let hOut ← dim output 2
  let wOut ← dim output 3
  let rows := cIn * st.geo.kh * st.geo.kw
  let cols := hOut * wOut
  let buf ← renew junk (decide ((st.im2col.vals.length : Int) ≠ batch * rows * cols)) st.im2col [batch * rows * cols]
  let r ← convForward input st.weight st.bias output buf.vals st.geo
  .ok ({ st with im2col := buf.put r.1 }, r.2)

/-- `CPUConvolution::backward` (cpuconvolution.cpp:57-78). -/
def backward (junk : Nat → ℝ) (st : ConvSt) (gradOutput gradInput : Buf) : Out (List ℝ) := do
  Out.check (st.im2col.vals.length != 0)
  convInputGrad junk gradOutput st.weight gradInput st.geo

/-- `CPUConvolution::updateGradients` (cpuconvolution.cpp:80-87): the layer afterwards. -/
def updateGradients (st : ConvSt) (gradOutput : Buf) : Out ConvSt := do
  Out.check (st.im2col.vals.length != 0)
  let w ← convWeightsGrad gradOutput st.im2col.vals st.gradWeight
  let b ← convBiasGrad gradOutput st.gradBias
  .ok { st with gradWeight := st.gradWeight.put w, gradBias := st.gradBias.put b }

end ConvSt

/-! ### Max pooling -/

/-- `std::numeric_limits<float>::min()`: the smallest positive normalised number. -/
def floatMin : ℝ := (1 / 2) ^ 126

/-- Column `j` of a matrix. -/
def colOf (m : Mat) (j : Nat) : Out (List ℝ) :=
  if h : j < m.cols then .ok (List.ofFn fun i => m.el i ⟨j, h⟩) else .ub .oob

/-- One iteration of `CPUMaxPoolingForward` (kernels.cpp:221-230) on the contents of output, indices and column
buffer. `pick` is the row `maxCoeff` reports for a column: some row with the largest value. -/
def poolIter (pick : List ℝ → Nat) (input : List ℝ) (g : Geo) (hIn wIn rows cols : Int) (i : Nat)
    (s : List ℝ × List ℝ × List ℝ) : Out (List ℝ × List ℝ × List ℝ) := do
  let src ← block input (i * (hIn * wIn)) (hIn * wIn)
  let col ← im2col src 1 hIn wIn s.2.2 g 1 1 floatMin
  let X ← mat col rows cols
  let ds ← (List.range X.cols).mapM fun j => do
    let c ← colOf X j
    match c[pick c]? with
    | none => .ub .oob
    | some v => .ok (v, ((pick c : Nat) : ℝ))
  let _ ← block s.1 (i * cols) cols
  let _ ← block s.2.1 (i * cols) cols
  .ok (putBlock s.1 (i * cols) (ds.map (·.1)), putBlock s.2.1 (i * cols) (ds.map (·.2)), col)

/-- `CPUMaxPoolingForward` (kernels.cpp:197-231): the new contents of output, indices and column buffer. -/
def poolForward (pick : List ℝ → Nat) (input output : Buf) (idx buf : List ℝ) (g : Geo) :
    Out (List ℝ × List ℝ × List ℝ) := do
  let batch ← dimN input 0
  let c ← dimN input 1
  let hIn ← dim input 2
  let wIn ← dim input 3
  let hOut ← dim output 2
  let wOut ← dim output 3
  (List.range (batch * c)).foldlM
    (fun s i => poolIter pick input.vals g hIn wIn (g.kh * g.kw) (hOut * wOut) i s) (output.vals, idx, buf)

/-- `int row = indices_ptr[k]`: conversion truncates. -/
def toRow (x : ℝ) : Int := if 0 ≤ x then ⌊x⌋ else ⌈x⌉

/-- The inner loop of `CPUMaxPoolingInputGrad` (kernels.cpp:261-264): place the gradients `go` of one plane,
with rows `idx`, into the column buffer, starting at column `j`. -/
def placeGrads (cols : Int) : List ℝ → List ℝ → Nat → List ℝ → Out (List ℝ)
  | [], _, _, buf => .ok buf
  | _ :: _, [], _, _ => .ub .oob
  | v :: go, r :: idx, j, buf =>
    let k := toRow r * cols + j
    if 0 ≤ k ∧ k.toNat < buf.length then placeGrads cols go idx (j + 1) (buf.set k.toNat v) else .ub .oob

/-- One iteration of `CPUMaxPoolingInputGrad` (kernels.cpp:259-268) on the contents of the column buffer and of
the input gradient. -/
def poolGradIter (go idx : List ℝ) (g : Geo) (hIn wIn cols : Int) (i : Nat) (s : List ℝ × List ℝ) :
    Out (List ℝ × List ℝ) := do
  let zeros := List.replicate s.1.length (0 : ℝ)
  let gv ← block go (i * cols) cols
  let rv ← block idx (i * cols) cols
  let buf ← placeGrads cols gv rv 0 zeros
  let plane ← block s.2 (i * hIn * wIn) (hIn * wIn)
  let plane ← col2im buf plane 1 hIn wIn g 1 1
  .ok (buf, putBlock s.2 (i * hIn * wIn) plane)

/-- `CPUMaxPoolingInputGrad` (kernels.cpp:233-269): the new contents of column buffer and input gradient. -/
def poolInputGrad (gradOutput : Buf) (idx buf : List ℝ) (gradInput : Buf) (g : Geo) : Out (List ℝ × List ℝ) := do
  let batch ← dimN gradInput 0
  let c ← dimN gradInput 1
  let hIn ← dim gradInput 2
  let wIn ← dim gradInput 3
  let hOut ← dim gradOutput 2
  let wOut ← dim gradOutput 3
  (List.range (batch * c)).foldlM
    (fun s i => poolGradIter gradOutput.vals idx g hIn wIn (hOut * wOut) i s) (buf, gradInput.vals)

/-- The members and attributes of a `CPUMaxPooling` (src/runtime/cpu/layers/cpumaxpooling.hpp). -/
structure PoolSt where
  maxIndices : Buf := ⟨[], []⟩
  im2col : Buf := ⟨[], []⟩
  geo : Geo

namespace PoolSt

/-- `CPUMaxPooling::forward` (cpumaxpooling.cpp:15-43): the layer afterwards and the new contents of the output. -/
def forward (pick : List ℝ → Nat) (junk : Nat → ℝ) (st : PoolSt) (ins outs : List Buf) : Out (PoolSt × List ℝ) := do
  st.geo.validate
  let input ← Out.idx ins 0
  let output ← Out.idx outs 0
  let idx ← renew junk (st.maxIndices.shape != output.shape) st.maxIndices output.shape
  let hOut ← dim output 2
  let wOut ← dim output 3
  let n := st.geo.kh * st.geo.kw * (hOut * wOut)
  let buf ← renew junk (decide ((st.im2col.vals.length : Int) ≠ n)) st.im2col [n]
  let r ← poolForward pick input output idx.vals buf.vals st.geo
  .ok ({ st with maxIndices := idx.put r.2.1, im2col := buf.put r.2.2 }, r.1)

/-- `CPUMaxPooling::backward` (cpumaxpooling.cpp:45-59). -/
def backward (st : PoolSt) (gradOutput gradInput : Buf) : Out (PoolSt × List ℝ) := do
  Out.check (st.maxIndices.shape == gradOutput.shape)
  let r ← poolInputGrad gradOutput st.maxIndices.vals st.im2col.vals gradInput st.geo
  .ok ({ st with im2col := st.im2col.put r.1 }, r.2)

end PoolSt

end

end DW
