import Verif.Model.Conv
/-!
# 32-bit integers in the layers

The other parts of the model compute with mathematical integers. Here are the `int` computations of the layers alone, operation by
operation in the order of the source, where a result outside `int` is undefined behaviour. Values are left out: reading and writing
tensors does not influence these computations. An `int` times a `size_t` is a `size_t` in C++ and cannot overflow; such offsets
(`b * rows * cols` with a `size_t b`) are not listed.
-/

set_option autoImplicit false

namespace DW.I32

open Tensor (fitsInt accProd)

/-- The value of an `int` operation. -/
def chk (n : Int) : Out Int := if fitsInt n then .ok n else .ub .overflow

def mul (x y : Int) : Out Int := chk (x * y)
def add (x y : Int) : Out Int := chk (x + y)
def sub (x y : Int) : Out Int := chk (x - y)
def div (x y : Int) : Out Int := if y = 0 then .ub .divZero else chk (x.tdiv y)

/-- `x * y * z`. -/
def mul3 (x y z : Int) : Out Int := do mul (← mul x y) z

/-! ### Applying layers -/

/-- `(size + 2 * padding - kernel) / stride + 1` (src/expression/nn.cpp:221-222, 258-259). -/
def windowOut (size kernel padding stride : Int) : Out Int := do
  let a ← mul 2 padding
  let b ← add size a
  let c ← sub b kernel
  let d ← div c stride
  add d 1

/-! ### im2col and col2im -/

/-- `(n + 2 * p - (dilation * (k - 1) + 1)) / s + 1` with `dilation == 1` (src/runtime/cpu/kernels/kernels.cpp:420-421, 477-478). -/
def colOut (n k p s : Int) : Out Int := do
  let a ← mul 2 p
  let b ← add n a
  let c ← sub k 1
  let d ← mul 1 c
  let e ← add d 1
  let f ← sub b e
  let g ← div f s
  add g 1

/-- A loop `for (int i = n; i; i--) { body; x += s; }`. -/
def walk (s : Int) (body : Int → Out Unit) : Int → Nat → Out Unit
  | _, 0 => .ok ()
  | x, n + 1 => do
    body x
    let y ← add x s
    walk s body y n

/-- The two innermost loops of `im2col` and `col2im` (kernels.cpp:426-442, 483-498) for one element of the kernel. -/
def planeLoops (h w hOut wOut : Int) (g : Geo) (kh kw : Nat) : Out Unit := do
  let r ← mul kh 1
  let row ← sub r g.ph
  walk g.sh (fun row =>
    if 0 ≤ row ∧ row < h then do
      let c ← mul kw 1
      let col ← sub c g.pw
      walk g.sw (fun col =>
        if 0 ≤ col ∧ col < w then do
          let a ← mul row w
          let _ ← add a col
          .ok ()
        else .ok ()) col wOut.toNat
    else .ok ()) row hOut.toNat

/-- `im2col` (kernels.cpp:393-446) and `col2im` (:448-502), which compute the same `int`s. -/
def cols (ch h w : Int) (g : Geo) : Out Unit := do
  let hOut ← colOut h g.kh g.ph g.sh
  let wOut ← colOut w g.kw g.pw g.sw
  (List.range ch.toNat).forM fun _ => do
    (List.range g.kh.toNat).forM fun kh => (List.range g.kw.toNat).forM fun kw => planeLoops h w hOut wOut g kh kw
    let _ ← mul h w
    .ok ()

/-! ### Layers -/

/-- `CPUConvolution::forward` (src/runtime/cpu/layers/cpuconvolution.cpp:34-45) and `CPUConvolutionalForward`
(kernels.cpp:89-117). `had` is the size of the column buffer before. -/
def convForward (had : Nat) (batch c h w o hOut wOut : Int) (g : Geo) : Out Unit := do
  let rows ← mul3 c g.kh g.kw
  let cls ← mul hOut wOut
  let n ← mul3 batch rows cls
  if (had : Int) ≠ n then do
    let n ← mul3 batch rows cls
    let _ ← accProd [n]
    .ok ()
  else .ok ()
  let _ ← mul3 c h w
  let _ ← mul3 o hOut wOut
  (List.range batch.toNat).forM fun _ => do
    let _ ← accProd [1, c, h, w]
    let _ ← accProd [rows, cls]
    cols c h w g

/-- `CPUConvolution::backward` and `updateGradients` (cpuconvolution.cpp:57-87), that is `CPUConvolutionalInputGrad`,
`CPUConvolutionalWeightsGrad` and `CPUConvolutionalBiasGrad` (kernels.cpp:119-195). -/
def convBackward (batch c h w o hOut wOut : Int) (g : Geo) : Out Unit := do
  let rows ← mul3 c g.kh g.kw
  let cls ← mul hOut wOut
  let _ ← mul3 o hOut wOut
  (List.range batch.toNat).forM fun _ => do
    let _ ← accProd [rows, cls]
    let _ ← accProd [1, c, h, w]
    cols c h w g
  let _ ← mul3 c g.kh g.kw
  let _ ← mul hOut wOut
  let _ ← mul3 o hOut wOut
  (List.range batch.toNat).forM fun _ => do
    let _ ← mul hOut wOut
    .ok ()

/-- `CPUMaxPooling::forward` (src/runtime/cpu/layers/cpumaxpooling.cpp:27-42) and `CPUMaxPoolingForward` (kernels.cpp:204-231). `had`
is the size of the column buffer before; the indices are allocated with the shape of the output. -/
def poolForward (had : Nat) (batch c h w hOut wOut : Int) (g : Geo) : Out Unit := do
  let _ ← accProd [batch, c, hOut, wOut]
  let rows ← mul g.kh g.kw
  let cls ← mul hOut wOut
  let n ← mul rows cls
  if (had : Int) ≠ n then do
    let n ← mul rows cls
    let _ ← accProd [n]
    .ok ()
  else .ok ()
  let _ ← mul h w
  let planes ← mul batch c
  (List.range planes.toNat).forM fun _ => do
    let _ ← accProd [1, 1, h, w]
    cols 1 h w g

/-- `CPUMaxPoolingInputGrad` (kernels.cpp:233-268); `row i j` is the row the forward pass recorded for position `j` of plane `i`. -/
def poolBackward (row : Nat → Nat → Int) (batch c h w hOut wOut : Int) (g : Geo) : Out Unit := do
  let _ ← mul g.kh g.kw
  let cls ← mul hOut wOut
  let planes ← mul batch c
  (List.range planes.toNat).forM fun i => do
    (List.range cls.toNat).forM fun j => do
      let a ← mul (row i j) cls
      let _ ← add a j
      .ok ()
    let _ ← accProd [1, 1, h, w]
    cols 1 h w g

/-- `CPULinear` (src/runtime/cpu/layers/cpulinear.cpp:35, 59, 75) and `Linear::init` (src/expression/nn.cpp:146-147): the product of
all dimensions but the first. -/
def linear (shape : Shape) : Out Int := accProd shape.tail

/-- `CPUBatchNorm2D::forward` (src/runtime/cpu/layers/cpubatchnorm2d.cpp:46-70). -/
def norm2d (n c h w : Int) : Out Unit := do
  let _ ← accProd [n, h, w, c]
  let m ← mul3 n h w
  let _ ← accProd [m, c]
  .ok ()

/-- `static_cast<int>(total) / C` in `CPUBatchNorm2D::backward` and `updateGradients` (cpubatchnorm2d.cpp:90-93, 107-109). -/
def norm2dBackward (total c : Int) : Out Int := do div (← chk total) c

/-- `CPUGlobalAvgPooling` forward and backward (kernels.cpp:366-391). -/
def avgPool (batch c h w : Int) : Out Unit := do
  let _ ← mul h w
  let _ ← mul batch c
  .ok ()

/-- `static_cast<int>(target(0, i)) + n_classes * i` (`MatchTargetTo1dMatrix`, kernels.cpp:275-281) for the labels of a batch. -/
def matchTarget (classes : Int) : Nat → List Int → Out Unit
  | _, [] => .ok ()
  | i, t :: ts => do
    let a ← mul classes i
    let _ ← add t a
    matchTarget classes (i + 1) ts

end DW.I32
