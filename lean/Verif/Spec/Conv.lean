import Verif.Spec.Matrix
import Mathlib.Algebra.BigOperators.Fin
import Mathlib.Data.Real.Archimedean
/-! # Windows over images, convolution -/

namespace DW.Spec

noncomputable section

/-- One direction of a window operation. -/
structure Axis where
  /-- size of the image -/
  size : Nat
  /-- size of the window -/
  kernel : Nat
  pad : Nat
  stride : Nat
  dil : Nat
  /-- number of window positions -/
  out : Nat

/-- The stride is positive and the number of positions is `(size + 2 pad - (dil (kernel - 1) + 1)) / stride + 1`,
divided as C does. -/
def Axis.Valid (a : Axis) : Prop :=
  0 < a.stride ∧
    ((a.size : Int) + 2 * a.pad - (a.dil * ((a.kernel : Int) - 1) + 1)).tdiv a.stride + 1 = a.out

/-- The image coordinate under element `k` of the window at position `r`. -/
def Axis.pos (a : Axis) (r k : Nat) : Int := r * a.stride + k * a.dil - a.pad

/-- The element of an image at `(y, x)`, or `fill` outside. -/
def pixel {H W : Nat} (X : Fin H → Fin W → ℝ) (fill : ℝ) (y x : Int) : ℝ :=
  if h : (0 ≤ y ∧ y < H) ∧ 0 ≤ x ∧ x < W then X ⟨y.toNat, by omega⟩ ⟨x.toNat, by omega⟩ else fill

variable {N C O : Nat}

/-- The windows of an image: the element under `(kh, kw)` of the window at `(r, q)`. -/
def window (a b : Axis) (X : Fin a.size → Fin b.size → ℝ) (fill : ℝ) (kh : Fin a.kernel) (kw : Fin b.kernel)
    (r : Fin a.out) (q : Fin b.out) : ℝ :=
  pixel X fill (a.pos r kh) (b.pos q kw)

/-- What a pixel receives from all windows: the sum of the elements that lie over it. -/
def gathered (a b : Axis) (B : Fin a.kernel → Fin b.kernel → Fin a.out → Fin b.out → ℝ) (y : Fin a.size)
    (x : Fin b.size) : ℝ :=
  ∑ kh : Fin a.kernel, ∑ kw : Fin b.kernel, ∑ r : Fin a.out, ∑ q : Fin b.out,
    if a.pos r kh = y.val ∧ b.pos q kw = x.val then B kh kw r q else 0

/-- Cross-correlation with zero padding. -/
def conv (a b : Axis) (X : Fin N → Fin C → Fin a.size → Fin b.size → ℝ)
    (W : Fin O → Fin C → Fin a.kernel → Fin b.kernel → ℝ) (bias : Fin O → ℝ) (n : Fin N) (o : Fin O) (r : Fin a.out)
    (q : Fin b.out) : ℝ :=
  bias o + ∑ c, ∑ kh : Fin a.kernel, ∑ kw : Fin b.kernel, W o c kh kw * pixel (X n c) 0 (a.pos r kh) (b.pos q kw)

/-- Max pooling: the largest element of the window filled up with `fill`. -/
def maxPool (a b : Axis) (fill : ℝ) (X : Fin N → Fin C → Fin a.size → Fin b.size → ℝ) (n : Fin N) (c : Fin C)
    (r : Fin a.out) (q : Fin b.out) : ℝ := ⨆ k : Fin a.kernel × Fin b.kernel, window a b (X n c) fill k.1 k.2 r q

/-- `pick` selects a largest element. -/
def IsPick (pick : List ℝ → Nat) : Prop :=
  ∀ l : List ℝ, l ≠ [] → ∃ v, l[pick l]? = some v ∧ ∀ x ∈ l, x ≤ v

end

end DW.Spec
