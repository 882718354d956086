import Verif.Model.Tensor
import Mathlib.Analysis.SpecialFunctions.Sqrt
/-!
# `deepworks::initializer` (src/initializers.cpp) and the `Tensor` factory functions

The random engine is a parameter: `gen lo hi i` is the `i`-th value drawn from
`uniform_real_distribution(lo, hi)`.
-/

namespace DW.Initializer

open DW DW.Tensor

variable {α : Type}

/-- `initializer::zeros` (src/initializers.cpp:9-11). -/
def zeros [Zero α] (t : Handle) : M (Heap α) Unit := fill t (fun _ => 0)

/-- `initializer::constant` (src/initializers.cpp:13-15). -/
def constant (t : Handle) (v : α) : M (Heap α) Unit := fill t (fun _ => v)

/-- `initializer::uniform` (src/initializers.cpp:28-32). -/
def uniform (gen : ℝ → ℝ → ℕ → ℝ) (t : Handle) (lower upper : ℝ) : M (Heap ℝ) Unit :=
  fill t (gen lower upper)

/-- The number of input and output features (src/initializers.cpp:20-22); `size_t / int` with a
zero divisor is undefined. -/
def features (shape : Shape) (total : Nat) : Out (Int × Int) :=
  match shape with
  | [] => .throw .dw
  | [a, b] => .ok (a, b)
  | s0 :: _ => if s0 = 0 then .ub .divZero else .ok ((total : Int).tdiv s0, s0)

/-- `initializer::xavierUniform` (src/initializers.cpp:17-26). -/
noncomputable def xavierUniform (gen : ℝ → ℝ → ℕ → ℝ) (t : Handle) : M (Heap ℝ) Unit := do
  let d ← desc t
  let f ← M.lift (features d.shape d.total)
  let a : ℝ := Real.sqrt 6 / ((f.1 + f.2 : Int) : ℝ)
  fill t (gen (-a) a)

/-- `Tensor::zeros` (src/runtime/tensor.cpp:11-15). -/
def Tensor.zeros [Zero α] (shape : Shape) : M (Heap α) Handle := do
  let t ← ofShape shape
  Initializer.zeros t
  pure t

/-- `Tensor::constant` (src/runtime/tensor.cpp:17-21). -/
def Tensor.constant (shape : Shape) (v : α) : M (Heap α) Handle := do
  let t ← ofShape shape
  Initializer.constant t v
  pure t

end DW.Initializer
