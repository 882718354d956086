import Verif.Spec.Fits
import Verif.Model.SampleModels
/-!
# The networks of the samples, as tables
-/

set_option autoImplicit false

namespace DW.Spec

open DW DW.Samples

/-- A layer of a network: the layer, its name, the numbers of its arguments (0 is the input of the network, `i + 1` the result of
layer `i`), and the shape of its result for one sample. -/
structure Step where
  op : Op
  name : String
  args : List Nat
  rest : List Nat
  deriving DecidableEq, Repr

/-- The shape of a batch of `B` tensors of shape `rest`. -/
def batchOf (B : Nat) (rest : List Nat) : Shape := (B : Int) :: rest.map fun n : Nat => (n : Int)

/-- The expressions `e` are the network `l` on batches of `B` inputs of shape `input`: placeholder 0 is the input, placeholder
`i + 1` the result of layer `i`. -/
structure IsNet (e : Expr) (B : Nat) (input : List Nat) (l : List Step) : Prop where
  phs : e.phs = ⟨batchOf B input, none⟩ :: l.mapIdx fun i s => ⟨batchOf B s.rest, some i⟩
  calls : e.calls = l.mapIdx fun i s => ⟨i, s.args⟩
  infos : e.infos.map (fun i => (i.name, i.op)) = l.map fun s => (s.name, s.op)

/-- What is computed for placeholder `x` has this shape for one sample. -/
def restAt (input : List Nat) (l : List Step) : Nat → List Nat
  | 0 => input
  | x + 1 => ((l[x]?).map Step.rest).getD []

/-- The epsilons of the layers for batch normalisation are positive. -/
def EpsPos (real : F32 → ℝ) (op : Op) : Prop :=
  match op with
  | .batchNorm1D eps _ | .batchNorm2D eps _ => 0 < real eps
  | _ => True

/-- The tensors of the layers are those the layers were made with: names and shapes. -/
def NetTensors (B : Nat) (input : List Nat) (l : List Step) (tensors : Nat → InfoTensors) : Prop :=
  ∀ i s, l[i]? = some s → TensorsFit (tensors i) s.op (s.args.map fun a => batchOf B (restAt input l a))

/-- Linear, ReLU, batch normalisation, Linear, Softmax. -/
def denseNet (classes : Nat) : List Step :=
  [⟨.linear 100, "linear0", [0], [100]⟩,
   ⟨.relu, "relu1", [1], [100]⟩,
   ⟨norm1D, "batchnorm1d", [2], [100]⟩,
   ⟨.linear classes, "linear2", [3], [classes]⟩,
   ⟨.softmax, "softmax3", [4], [classes]⟩]

/-- The network of the CIFAR-10 sample. -/
def cifar10Net : List Step :=
  [⟨conv5, "conv1", [0], [64, 32, 32]⟩,
   ⟨pool2, "pool2", [1], [64, 16, 16]⟩,
   ⟨.relu, "relu3", [2], [64, 16, 16]⟩,
   ⟨conv5, "conv4", [3], [64, 16, 16]⟩,
   ⟨pool2, "pool5", [4], [64, 8, 8]⟩,
   ⟨.relu, "relu6", [5], [64, 8, 8]⟩,
   ⟨.linear 384, "linear7", [6], [384]⟩,
   ⟨.relu, "relu8", [7], [384]⟩,
   ⟨norm1D, "batchnorm1d9", [8], [384]⟩,
   ⟨.linear 192, "linear10", [9], [192]⟩,
   ⟨.relu, "relu11", [10], [192]⟩,
   ⟨norm1D, "batchnorm1d12", [11], [192]⟩,
   ⟨.linear 10, "linear13", [12], [10]⟩,
   ⟨.softmax, "softmax14", [13], [10]⟩]

/-- A residual block on placeholder `x`, whose layers are numbered from `n`: two convolutions with batch normalisation, added to
`x` itself or, with `down`, to a convolution of `x`. The result has `c` channels of `d` by `d` pixels. -/
def resBlock (x n c stride d : Nat) (down : Bool) : List Step :=
  [⟨conv3 c stride, "", [x], [c, d, d]⟩,
   ⟨norm2D, "", [n + 1], [c, d, d]⟩,
   ⟨.relu, "", [n + 2], [c, d, d]⟩,
   ⟨conv3 c 1, "", [n + 3], [c, d, d]⟩,
   ⟨norm2D, "", [n + 4], [c, d, d]⟩] ++
  (if down then
    [⟨conv3 c stride, "", [x], [c, d, d]⟩,
     ⟨norm2D, "", [n + 6], [c, d, d]⟩,
     ⟨.add, "", [n + 5, n + 7], [c, d, d]⟩,
     ⟨.relu, "", [n + 8], [c, d, d]⟩]
  else
    [⟨.add, "", [n + 5, x], [c, d, d]⟩,
     ⟨.relu, "", [n + 6], [c, d, d]⟩])

/-- The network of the CIFAR-100 sample: six residual blocks. -/
def resnet : List Step :=
  [⟨conv3 16 1, "", [0], [16, 32, 32]⟩,
   ⟨norm2D, "", [1], [16, 32, 32]⟩,
   ⟨.relu, "", [2], [16, 32, 32]⟩] ++
  resBlock 3 3 16 1 32 false ++ resBlock 10 10 16 1 32 false ++
  resBlock 17 17 32 2 16 true ++ resBlock 26 26 32 1 16 false ++
  resBlock 33 33 64 2 8 true ++ resBlock 42 42 64 1 8 false ++
  [⟨.globalAvgPooling, "", [49], [64, 1, 1]⟩,
   ⟨.linear 100, "", [50], [100]⟩,
   ⟨.softmax, "", [51], [100]⟩]

end DW.Spec
