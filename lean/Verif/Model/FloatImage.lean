import Verif.Model.FloatNet
import Verif.Model.FloatCount
import Verif.Spec.Conv
/-!
# Networks on images in `float`, with branches

The forward passes of all layers in evaluation mode except softmax, one after another and in branches that `Add` joins. In evaluation mode each element
of a batch is treated alone, so this is about one of them. A tensor is a function of its indices. A window operation is described by `Spec.Axis`.
-/

set_option autoImplicit false

namespace DW.Float

open DW.Spec (Axis)

noncomputable section

variable (R : Rounding) (F : Libm R) (q : Sqrt)

/-- `std::numeric_limits<float>::min()`, with which `CPUMaxPoolingForward` fills (src/runtime/cpu/kernels/kernels.cpp:223). -/
def fltMin : Flt := .num false minNormal

/-- What `im2col` reads at row `y` and column `x` of a plane (kernels.cpp:427-442). -/
def pixel {H W : ℕ} (X : Fin H → Fin W → Flt) (fill : Flt) (y x : ℤ) : Flt :=
  if h : (0 ≤ y ∧ y < H) ∧ 0 ≤ x ∧ x < W then X ⟨y.toNat, by omega⟩ ⟨x.toNat, by omega⟩ else fill

/-- Row `t` of the column buffer, at window position `p` (kernels.cpp:423-445). Rows are numbered by channel, row and column of the kernel. -/
def patch {C : ℕ} (a b : Axis) (X : Fin C → Fin a.size → Fin b.size → Flt) (fill : Flt) (p : Fin (a.out * b.out))
    (t : Fin (C * (a.kernel * b.kernel))) : Flt :=
  pixel (X t.divNat) fill (a.pos p.divNat t.modNat.divNat) (b.pos p.modNat t.modNat.modNat)

/-- `CPUConvolutionalForward` (kernels.cpp:103-116): `Y` is a possible result for `X`. -/
def ConvForward {C O : ℕ} (a b : Axis) (W : Fin O → Fin (C * (a.kernel * b.kernel)) → Flt) (bias : Fin O → Flt)
    (X : Fin C × Fin a.size × Fin b.size → Flt) (Y : Fin O × Fin a.out × Fin b.out → Flt) : Prop :=
  LinearForward R (patch a b (fun c y x => X (c, y, x)) 0) W bias fun p o => Y (o, p.divNat, p.modNat)

/-- `CPUMaxPoolingForward` (kernels.cpp:197-231): a largest element of each window. -/
def MaxPoolForward {C : ℕ} (a b : Axis) (X : Fin C × Fin a.size × Fin b.size → Flt) (Y : Fin C × Fin a.out × Fin b.out → Flt) : Prop :=
  ∀ (c : Fin C) (r : Fin a.out) (s : Fin b.out), IsMax (fun t : Fin (a.kernel * b.kernel) => pixel (fun y x => X (c, y, x)) fltMin (a.pos r t.divNat) (b.pos s t.modNat)) (Y (c, r, s))

/-- `CPUGlobalAvgPoolingForward` (kernels.cpp:366-375). -/
def AvgPoolForward {C H W : ℕ} (X : Fin C × Fin H × Fin W → Flt) (Y : Fin C → Flt) : Prop :=
  ∀ c, ∃ s, SumOf R (List.ofFn fun t : Fin (H * W) => X (c, t.divNat, t.modNat)) s ∧ Y c = div R s (ofNat R (H * W))

/-- Where element `k` of a vector is in the image that it is (include/deepworks/tensor.hpp: a tensor is a buffer in row-major order). -/
def place {C H W : ℕ} (k : Fin (C * (H * W))) : Fin C × Fin H × Fin W := (k.divNat, k.modNat.divNat, k.modNat.modNat)

/-- The activations. -/
inductive Act
  | relu
  | leakyRelu (alpha : Flt)
  | elu (alpha : Flt)
  | sigmoid

/-- What an activation does to each element (kernels.cpp:44-75). -/
def Act.fn : Act → Flt → Flt
  | .relu => Float.relu
  | .leakyRelu alpha => Float.leakyRelu R alpha
  | .elu alpha => Float.elu R F alpha
  | .sigmoid => Float.sigmoid R F

/-- A network between tensors with indices `ι` and `κ`. -/
inductive Net : Type → Type → Type 1
  | skip {ι : Type} : Net ι ι
  | act {ι : Type} (a : Act) : Net ι ι
  /-- `BatchNorm1D` and `BatchNorm2D`; `channel` is the index of the parameters. -/
  | batchNorm {ι : Type} {C : ℕ} (channel : ι → Fin C) (mean var gamma beta : Fin C → Flt) (eps : Flt) : Net ι ι
  | linear {n k : ℕ} (W : Fin k → Fin n → Flt) (b : Fin k → Flt) : Net (Fin n) (Fin k)
  | conv {C O : ℕ} (a b : Axis) (W : Fin O → Fin (C * (a.kernel * b.kernel)) → Flt) (bias : Fin O → Flt) :
    Net (Fin C × Fin a.size × Fin b.size) (Fin O × Fin a.out × Fin b.out)
  | maxPool {C : ℕ} (a b : Axis) : Net (Fin C × Fin a.size × Fin b.size) (Fin C × Fin a.out × Fin b.out)
  | avgPool {C H W : ℕ} : Net (Fin C × Fin H × Fin W) (Fin C)
  /-- No layer: `Linear` reads its input as a vector (src/runtime/cpu/layers/cpulinear.cpp:35-39, 59-63, 75-79). -/
  | flat {C H W : ℕ} : Net (Fin C × Fin H × Fin W) (Fin (C * (H * W)))
  | seq {ι κ μ : Type} (f : Net ι κ) (g : Net κ μ) : Net ι μ
  /-- Two branches, joined by `Add`. -/
  | join {ι κ : Type} (f g : Net ι κ) : Net ι κ

/-- The forward pass: `Y` is a possible result for `X` (src/runtime/cpu/cpubackend.cpp:86-98). `CPUAddForward` is kernels.cpp:542-548. -/
def Net.Forward : {ι κ : Type} → Net ι κ → (ι → Flt) → (κ → Flt) → Prop
  | _, _, .skip, X, Y => Y = X
  | _, _, .act a, X, Y => ∀ i, Y i = a.fn R F (X i)
  | _, _, .batchNorm ch mean var gamma beta eps, X, Y =>
    ∀ i, BatchNormEval R q (mean (ch i)) (var (ch i)) (gamma (ch i)) (beta (ch i)) eps (X i) (Y i)
  | _, _, .linear W b, X, Y => LinearForward R (fun _ : Fin 1 => X) W b fun _ => Y
  | _, _, .conv a b W bias, X, Y => ConvForward R a b W bias X Y
  | _, _, .maxPool a b, X, Y => MaxPoolForward a b X Y
  | _, _, .avgPool, X, Y => AvgPoolForward R X Y
  | _, _, .flat, X, Y => ∀ k, Y k = X (place k)
  | _, _, .seq f g, X, Y => ∃ Z, f.Forward X Z ∧ g.Forward Z Y
  | _, _, .join f g, X, Y => ∃ Z Z', f.Forward X Z ∧ g.Forward X Z' ∧ ∀ i, Y i = add R (Z i) (Z' i)

end

end DW.Float
