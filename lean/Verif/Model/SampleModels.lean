import Verif.Model.Graph
/-!
# The models of the samples

`buildMNISTModel`, `buildIrisModel`, `buildCIFAR10Model` and `buildResnetModel` (samples/*/main.cpp). The functions return the
placeholders `in` and `out` they pass to the constructor of `Model`. The models of the benchmarks are the same
(benchmarks/mnist/benchmark_dw.hpp:11-22, benchmarks/cifar10/benchmark_dw.hpp:14-38).
-/

set_option autoImplicit false

namespace DW.Samples

/-- A layer object is made and applied at once, e.g. `dw::Linear(mid_features, "linear0")(in)`. -/
def use (op : Op) (name : String) (args : List Nat) : M Expr Nat := do
  let i ← Expr.layer op name
  Expr.apply i args

/-- `BatchNorm1D(0.001, 0.05, ...)`: the arguments as `float`s. -/
def norm1D : Op := .batchNorm1D 0x3a83126f#32 0x3d4ccccd#32

/-- `BatchNorm2D()`: the default arguments `1e-5` and `0.1f` as `float`s (include/deepworks/nn.hpp:103). -/
def norm2D : Op := .batchNorm2D 0x3727c5ac#32 0x3dcccccd#32

/-- `buildMNISTModel` (samples/mnist/main.cpp:9-21), also benchmarks/mnist/benchmark_dw.hpp:11-22. -/
def buildMNIST (batch : Int) : M Expr (Nat × Nat) := do
  let inp ← Expr.placeholder [batch, 784]
  let out ← use (.linear 100) "linear0" [inp]
  let out ← use .relu "relu1" [out]
  let out ← use norm1D "batchnorm1d" [out]
  let out ← use (.linear 10) "linear2" [out]
  let out ← use .softmax "softmax3" [out]
  pure (inp, out)

/-- `buildIrisModel` (samples/iris/main.cpp:9-21). -/
def buildIris (batch : Int) : M Expr (Nat × Nat) := do
  let inp ← Expr.placeholder [batch, 4]
  let out ← use (.linear 100) "linear0" [inp]
  let out ← use .relu "relu1" [out]
  let out ← use norm1D "batchnorm1d" [out]
  let out ← use (.linear 3) "linear2" [out]
  let out ← use .softmax "softmax3" [out]
  pure (inp, out)

/-- `Convolution(64, kernel_conv, padding_conv, stride_conv, ...)` (samples/cifar10/main.cpp:14-16). -/
def conv5 : Op := .convolution 64 (5, 5) (2, 2) (1, 1)

/-- `MaxPooling(kernel_pool, padding_pool, stride_pool, ...)` (samples/cifar10/main.cpp:18-20). -/
def pool2 : Op := .maxPooling (2, 2) (0, 0) (2, 2)

/-- `buildCIFAR10Model` (samples/cifar10/main.cpp:9-43), also benchmarks/cifar10/benchmark_dw.hpp:14-38. -/
def buildCIFAR10 (batch : Int) : M Expr (Nat × Nat) := do
  let inp ← Expr.placeholder [batch, 3, 32, 32]
  let out ← use conv5 "conv1" [inp]
  let out ← use pool2 "pool2" [out]
  let out ← use .relu "relu3" [out]
  let out ← use conv5 "conv4" [out]
  let out ← use pool2 "pool5" [out]
  let out ← use .relu "relu6" [out]
  let out ← use (.linear 384) "linear7" [out]
  let out ← use .relu "relu8" [out]
  let out ← use norm1D "batchnorm1d9" [out]
  let out ← use (.linear 192) "linear10" [out]
  let out ← use .relu "relu11" [out]
  let out ← use norm1D "batchnorm1d12" [out]
  let out ← use (.linear 10) "linear13" [out]
  let out ← use .softmax "softmax14" [out]
  pure (inp, out)

/-- `Convolution(c_out, {3, 3}, {1, 1}, {stride, stride})`. -/
def conv3 (cOut stride : Int) : Op := .convolution cOut (3, 3) (1, 1) (stride, stride)

/-- `create_basic_block` (samples/cifar100/main.cpp:9-28). -/
def createBasicBlock (x : Nat) (cOut stride : Int) (downsample : Bool) : M Expr Nat := do
  let out ← use (conv3 cOut stride) "" [x]
  let out ← use norm2D "" [out]
  let out ← use .relu "" [out]
  let out ← use (conv3 cOut 1) "" [out]
  let out ← use norm2D "" [out]
  let x ← if downsample then do
      let x ← use (conv3 cOut stride) "" [x]
      use norm2D "" [x]
    else pure x
  let x ← use .add "" [out, x]
  use .relu "" [x]

/-- `make_layer` of the sample (samples/cifar100/main.cpp:30-38). -/
def makeStage (x : Nat) (cOut stride : Int) : M Expr Nat := do
  let e ← M.get
  let sh ← M.lift (e.shapes [x])
  let c ← M.lift (do Out.idx (← Out.idx sh 0) 1)
  let x ← createBasicBlock x cOut stride (stride != 1 || c != cOut)
  createBasicBlock x cOut 1 false

/-- `buildResnetModel` (samples/cifar100/main.cpp:40-58). -/
def buildResnet (batch : Int) : M Expr (Nat × Nat) := do
  let inp ← Expr.placeholder [batch, 3, 32, 32]
  let out ← use (conv3 16 1) "" [inp]
  let out ← use norm2D "" [out]
  let out ← use .relu "" [out]
  let out ← makeStage out 16 1
  let out ← makeStage out 32 2
  let out ← makeStage out 64 2
  let out ← use .globalAvgPooling "" [out]
  let out ← use (.linear 100) "" [out]
  let out ← use .softmax "" [out]
  pure (inp, out)

end DW.Samples
