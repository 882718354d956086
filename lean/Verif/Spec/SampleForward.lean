import Verif.Spec.Values
import Verif.Spec.LayerSpec
/-!
# What the networks of the samples compute, as formulas
-/

set_option autoImplicit false

namespace DW.Spec

open DW

noncomputable section

/-- Batches of images. -/
abbrev Images (N C H W : Nat) := Fin N → Fin C → Fin H → Fin W → ℝ

/-- The parameters of a `Linear` layer, and that they are those of the layer's tensors. -/
structure Affine (u n : Nat) where
  weight : Fin u → Fin n → ℝ
  bias : Fin u → ℝ

def Affine.In {u n : Nat} (p : Affine u n) (t : InfoTensors) : Prop :=
  (∃ tw, HasParam t "weight" [u, n] (rowMajor p.weight) tw) ∧ ∃ tb, HasParam t "bias" [u] (List.ofFn p.bias) tb

/-- The parameters and running statistics of a batch normalisation layer in training or evaluation mode. -/
structure NormParams (n : Nat) where
  gamma : Fin n → ℝ
  beta : Fin n → ℝ
  mean : Fin n → ℝ
  var : Fin n → ℝ

structure NormParams.In {n : Nat} (p : NormParams n) (training : Bool) (t : InfoTensors) : Prop where
  gamma : HasParam t "gamma" [n] (List.ofFn p.gamma) training
  beta : HasParam t "beta" [n] (List.ofFn p.beta) training
  mean : HasBuffer t "running_mean" [n] (List.ofFn p.mean)
  var : HasBuffer t "running_var" [n] (List.ofFn p.var)

/-- The parameters of a `Convolution` layer with quadratic windows. -/
structure Kernels (O C k : Nat) where
  weight : Fin O → Fin C → Fin k → Fin k → ℝ
  bias : Fin O → ℝ

def Kernels.In {O C k : Nat} (p : Kernels O C k) (t : InfoTensors) : Prop :=
  (∃ tw, HasParam t "weight" [O, C, k, k] (flat4 p.weight) tw) ∧ ∃ tb, HasParam t "bias" [O] (List.ofFn p.bias) tb

/-- Normalisation by the statistics of the batch in training mode, by the running statistics in evaluation mode. -/
def normRows {ι : Type} [Fintype ι] {n : Nat} (training : Bool) (eps : ℝ) (p : NormParams n) (X : ι → Fin n → ℝ) : ι → Fin n → ℝ :=
  if training then batchNorm eps p.gamma p.beta X
  else fun i j => normalise (p.mean j) (p.var j) eps (p.gamma j) (p.beta j) (X i j)

/-- The same for images: a channel is a feature, a pixel is a sample. -/
def normImages {N C H W : Nat} (training : Bool) (eps : ℝ) (p : NormParams C) (X : Images N C H W) : Images N C H W :=
  fun i c y x => normRows training eps p (pixels X) (i, y, x) c

def reluRows {B n : Nat} (X : Fin B → Fin n → ℝ) : Fin B → Fin n → ℝ := fun i j => relu (X i j)
def reluImages {N C H W : Nat} (X : Images N C H W) : Images N C H W := fun i c y x => relu (X i c y x)

/-- Windows of `k` elements over `s` with padding `p` and stride `st`, in `o` places. -/
abbrev axis (s k p st o : Nat) : Axis := ⟨s, k, p, st, 1, o⟩

/-- Linear - ReLU - BatchNorm1D - Linear - Softmax. -/
structure DenseParams (k n : Nat) where
  linear0 : Affine 100 k
  norm : NormParams 100
  linear2 : Affine n 100

structure DenseParams.In {k n : Nat} (p : DenseParams k n) (training : Bool) (t : Nat → InfoTensors) : Prop where
  linear0 : p.linear0.In (t 0)
  norm : p.norm.In training (t 2)
  linear2 : p.linear2.In (t 3)

def Affine.apply {B u n : Nat} (p : Affine u n) (X : Fin B → Fin n → ℝ) : Fin B → Fin u → ℝ := linear X p.weight p.bias

def denseForward {B k n : Nat} (training : Bool) (eps : ℝ) (p : DenseParams k n) (X : Fin B → Fin k → ℝ) : Fin B → Fin n → ℝ :=
  softmax (p.linear2.apply (normRows training eps p.norm (reluRows (p.linear0.apply X))))

/-- The network of the CIFAR-10 sample: convolution with padding 2, so that the size stays the same, and pooling that halves it, twice;
then three linear layers. -/
structure CifarParams where
  conv1 : Kernels 64 3 5
  conv4 : Kernels 64 64 5
  linear7 : Affine 384 (64 * (8 * 8))
  norm9 : NormParams 384
  linear10 : Affine 192 384
  norm12 : NormParams 192
  linear13 : Affine 10 192

structure CifarParams.In (p : CifarParams) (training : Bool) (t : Nat → InfoTensors) : Prop where
  conv1 : p.conv1.In (t 0)
  conv4 : p.conv4.In (t 3)
  linear7 : p.linear7.In (t 6)
  norm9 : p.norm9.In training (t 8)
  linear10 : p.linear10.In (t 9)
  norm12 : p.norm12.In training (t 11)
  linear13 : p.linear13.In (t 12)

/-- Convolution with windows of 5 by 5 and padding 2, pooling with windows of 2 by 2, and ReLU. -/
def convPool {N C O : Nat} (d : Nat) (p : Kernels O C 5) (X : Images N C (2 * d) (2 * d)) : Images N O d d :=
  reluImages (maxPool (axis (2 * d) 2 0 2 d) (axis (2 * d) 2 0 2 d) floatMin
    (conv (axis (2 * d) 5 2 1 (2 * d)) (axis (2 * d) 5 2 1 (2 * d)) X p.weight p.bias))

def cifarForward {N : Nat} (training : Bool) (eps : ℝ) (p : CifarParams) (X : Images N 3 32 32) : Fin N → Fin 10 → ℝ :=
  let x := convPool 16 p.conv1 X
  let x := convPool 8 p.conv4 x
  let x := normRows training eps p.norm9 (reluRows (p.linear7.apply (flatten x)))
  let x := normRows training eps p.norm12 (reluRows (p.linear10.apply x))
  softmax (p.linear13.apply x)

/-- A convolution with windows of 3 by 3 and padding 1, followed by batch normalisation. -/
structure ConvNorm (O C : Nat) where
  conv : Kernels O C 3
  norm : NormParams O

structure ConvNorm.In {O C : Nat} (p : ConvNorm O C) (training : Bool) (conv norm : InfoTensors) : Prop where
  conv : p.conv.In conv
  norm : p.norm.In training norm

/-- From `s` by `s` pixels to `d` by `d` pixels. -/
def ConvNorm.apply {N O C : Nat} (p : ConvNorm O C) (training : Bool) (eps : ℝ) (s stride d : Nat) (X : Images N C s s) : Images N O d d :=
  normImages training eps p.norm (Spec.conv (axis s 3 1 stride d) (axis s 3 1 stride d) X p.conv.weight p.conv.bias)

/-- A residual block that keeps the shape. -/
structure Block (C : Nat) where
  first : ConvNorm C C
  second : ConvNorm C C

structure Block.In {C : Nat} (p : Block C) (training : Bool) (t : Nat → InfoTensors) (n : Nat) : Prop where
  first : p.first.In training (t n) (t (n + 1))
  second : p.second.In training (t (n + 3)) (t (n + 4))

def Block.apply {N C : Nat} (p : Block C) (training : Bool) (eps : ℝ) (d : Nat) (X : Images N C d d) : Images N C d d :=
  reluImages fun i c y x =>
    p.second.apply training eps d 1 d (reluImages (p.first.apply training eps d 1 d X)) i c y x + X i c y x

/-- A residual block that halves the image and has `O` channels; the shortcut is a convolution. -/
structure DownBlock (O C : Nat) where
  first : ConvNorm O C
  second : ConvNorm O O
  shortcut : ConvNorm O C

structure DownBlock.In {O C : Nat} (p : DownBlock O C) (training : Bool) (t : Nat → InfoTensors) (n : Nat) : Prop where
  first : p.first.In training (t n) (t (n + 1))
  second : p.second.In training (t (n + 3)) (t (n + 4))
  shortcut : p.shortcut.In training (t (n + 5)) (t (n + 6))

def DownBlock.apply {N O C : Nat} (p : DownBlock O C) (training : Bool) (eps : ℝ) (d : Nat) (X : Images N C (2 * d) (2 * d)) :
    Images N O d d :=
  reluImages fun i c y x =>
    p.second.apply training eps d 1 d (reluImages (p.first.apply training eps (2 * d) 2 d X)) i c y x +
      p.shortcut.apply training eps (2 * d) 2 d X i c y x

/-- The residual network of the CIFAR-100 sample. -/
structure ResnetParams where
  stem : ConvNorm 16 3
  block1 : Block 16
  block2 : Block 16
  block3 : DownBlock 32 16
  block4 : Block 32
  block5 : DownBlock 64 32
  block6 : Block 64
  last : Affine 100 64

structure ResnetParams.In (p : ResnetParams) (training : Bool) (t : Nat → InfoTensors) : Prop where
  stem : p.stem.In training (t 0) (t 1)
  block1 : p.block1.In training t 3
  block2 : p.block2.In training t 10
  block3 : p.block3.In training t 17
  block4 : p.block4.In training t 26
  block5 : p.block5.In training t 33
  block6 : p.block6.In training t 42
  last : p.last.In (t 50)

def resnetForward {N : Nat} (training : Bool) (eps : ℝ) (p : ResnetParams) (X : Images N 3 32 32) : Fin N → Fin 100 → ℝ :=
  let x := reluImages (p.stem.apply training eps 32 1 32 X)
  let x := p.block1.apply training eps 32 x
  let x := p.block2.apply training eps 32 x
  let x := p.block3.apply training eps 16 x
  let x := p.block4.apply training eps 16 x
  let x := p.block5.apply training eps 8 x
  let x := p.block6.apply training eps 8 x
  softmax (p.last.apply (planeMean x))

end

end DW.Spec
