import Verif.Spec.Elems
import Verif.Spec.Layers
import Verif.Spec.Norm
import Verif.Spec.Conv
import Verif.Model.Conv
/-!
# The layers as functions of parameters and input

Each function takes the parameters of the layer as one list of numbers, and the elements of the input tensor.
-/

set_option autoImplicit false

namespace DW.Spec

open DW

noncomputable section

/-- An element-wise function without parameters. -/
def mapFn (s : Shape) (f : ℝ → ℝ) : (Fin 0 → ℝ) → Elems s → Elems s := fun _ x i => f (x i)

/-- Softmax of the rows. -/
def softmaxFn {s : Shape} {B n : Nat} (h : size s = B * n) : (Fin 0 → ℝ) → Elems s → Elems s := fun _ x =>
  elems (matE h) (Function.uncurry (softmax (Function.curry (arr (matE h) x))))

/-- A matrix and a vector of parameters. -/
def affineE (u n : Nat) : Fin (u * n + u) ≃ Fin u × Fin n ⊕ Fin u := (sumE rfl).trans (Equiv.sumCongr (matE rfl) (Equiv.refl _))

/-- `x W^T + b`. -/
def linearFn {s o : Shape} {B n u : Nat} (hs : size s = B * n) (ho : size o = B * u) :
    (Fin (u * n + u) → ℝ) → Elems s → Elems o := fun t x =>
  elems (matE ho) (Function.uncurry (linear (Function.curry (arr (matE hs) x))
    (fun k j => t ((affineE u n).symm (.inl (k, j)))) fun k => t ((affineE u n).symm (.inr k))))

/-- The mean of every channel of every image. -/
def gapFn {s o : Shape} {N C H W : Nat} (hs : size s = N * (C * (H * W))) (ho : size o = N * C) :
    (Fin 0 → ℝ) → Elems s → Elems o := fun _ x =>
  elems (matE ho) fun p => planeMean (arr4 (arr (imgE hs) x)) p.1 p.2

/-- Two lists of `n` parameters, gamma and beta. -/
def gammaOf {n : Nat} (t : Fin (n + n) → ℝ) : Fin n → ℝ := fun j => t ((sumE rfl).symm (.inl j))
def betaOf {n : Nat} (t : Fin (n + n) → ℝ) : Fin n → ℝ := fun j => t ((sumE rfl).symm (.inr j))

/-- Batch normalisation with the statistics of the batch. -/
def batchNormFn {s : Shape} {B n : Nat} (h : size s = B * n) (eps : ℝ) : (Fin (n + n) → ℝ) → Elems s → Elems s := fun t x =>
  elems (matE h) (Function.uncurry (batchNorm eps (gammaOf t) (betaOf t) (Function.curry (arr (matE h) x))))

/-- Batch normalisation with fixed statistics. -/
def normaliseFn {s : Shape} {B n : Nat} (h : size s = B * n) (eps : ℝ) (mu var : Fin n → ℝ) :
    (Fin (n + n) → ℝ) → Elems s → Elems s := fun t x =>
  elems (matE h) fun p => normalise (mu p.2) (var p.2) eps (gammaOf t p.2) (betaOf t p.2) (arr (matE h) x p)

/-- Batch normalisation of each channel. -/
def batchNorm2dFn {s : Shape} {N C H W : Nat} (h : size s = N * (C * (H * W))) (eps : ℝ) :
    (Fin (C + C) → ℝ) → Elems s → Elems s := fun t x =>
  elems (imgE h) fun p => batchNorm eps (gammaOf t) (betaOf t) (pixels (arr4 (arr (imgE h) x))) (p.1, p.2.2.1, p.2.2.2) p.2.1

/-- Normalisation of each channel with fixed statistics. -/
def normalise2dFn {s : Shape} {N C H W : Nat} (h : size s = N * (C * (H * W))) (eps : ℝ) (mu var : Fin C → ℝ) :
    (Fin (C + C) → ℝ) → Elems s → Elems s := fun t x =>
  elems (imgE h) fun p => normalise (mu p.2.1) (var p.2.1) eps (gammaOf t p.2.1) (betaOf t p.2.1) (arr (imgE h) x p)

/-- The kernels and biases of a convolution. -/
def kernelE (O C kh kw : Nat) : Fin (O * (C * (kh * kw)) + O) ≃ Fin O × Fin C × Fin kh × Fin kw ⊕ Fin O :=
  (sumE rfl).trans (Equiv.sumCongr (imgE rfl) (Equiv.refl _))

/-- Cross-correlation. -/
def convFn {s o : Shape} {N C O : Nat} (a b : Axis) (hs : size s = N * (C * (a.size * b.size)))
    (ho : size o = N * (O * (a.out * b.out))) : (Fin (O * (C * (a.kernel * b.kernel)) + O) → ℝ) → Elems s → Elems o := fun t x =>
  elems (imgE ho) fun p => conv a b (arr4 (arr (imgE hs) x)) (arr4 fun q => t ((kernelE O C a.kernel b.kernel).symm (.inl q)))
    (fun k => t ((kernelE O C a.kernel b.kernel).symm (.inr k))) p.1 p.2.1 p.2.2.1 p.2.2.2

/-! ### Sizes of shapes -/

theorem size_mat (B n : Nat) : size [(B : Int), n] = B * n := by
  simp only [size, count, List.prod_cons, List.prod_nil, mul_one]
  exact_mod_cast Int.toNat_natCast (B * n)

theorem size_cons {B n : Nat} {rest : Shape} (hc : count rest = n) : size ((B : Int) :: rest) = B * n := by
  have : count ((B : Int) :: rest) = ((B * n : Nat) : Int) := by
    rw [Nat.cast_mul, ← hc]; simp [count]
  rw [size, this, Int.toNat_natCast]

theorem size_img (N C H W : Nat) : size [(N : Int), C, H, W] = N * (C * (H * W)) := by
  have : count [(N : Int), C, H, W] = ((N * (C * (H * W)) : Nat) : Int) := by simp [count]
  rw [size, this, Int.toNat_natCast]

/-! ### The remaining layers -/

/-- Weight and bias in a list of parameters. -/
abbrev weightOf {u n : Nat} (t : Fin (u * n + u) → ℝ) : Fin u → Fin n → ℝ := fun k j => t ((affineE u n).symm (.inl (k, j)))
abbrev biasOf {u n : Nat} (t : Fin (u * n + u) → ℝ) : Fin u → ℝ := fun k => t ((affineE u n).symm (.inr k))

/-- Kernels and biases in a list of parameters. -/
abbrev kernelOf {O C kh kw : Nat} (t : Fin (O * (C * (kh * kw)) + O) → ℝ) : Fin O → Fin C → Fin kh → Fin kw → ℝ :=
  arr4 fun q => t ((kernelE O C kh kw).symm (.inl q))
abbrev shiftOf {O C kh kw : Nat} (t : Fin (O * (C * (kh * kw)) + O) → ℝ) : Fin O → ℝ :=
  fun k => t ((kernelE O C kh kw).symm (.inr k))

/-- What the dropout layer computes with a given mask, and the identity. -/
def dropFn (s : Shape) (p : ℝ) (r : Nat → ℝ) : (Fin 0 → ℝ) → Elems s → Elems s := fun _ x => dropped p (fun i => r i) x
def idFn (s : Shape) : (Fin 0 → ℝ) → Elems s → Elems s := fun _ x => x

/-- The largest element of every window, where positions outside the image count as `FLT_MIN`. -/
def poolFn {s o : Shape} {N C : Nat} (a b : Axis) (hs : size s = N * (C * (a.size * b.size)))
    (ho : size o = N * (C * (a.out * b.out))) : (Fin 0 → ℝ) → Elems s → Elems o := fun _ x =>
  elems (Spec.imgE ho) fun p => maxPool a b floatMin (arr4 (arr (Spec.imgE hs) x)) p.1 p.2.1 p.2.2.1 p.2.2.2

/-- The sum of two tensors. -/
def addFn (s : Shape) : (Fin 0 → ℝ) → (Args fun _ : Fin 2 => s) → Elems s := fun _ X i => X 0 i + X 1 i

end

end DW.Spec
