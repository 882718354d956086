import Verif.Model.Optimizer
import Mathlib.Analysis.SpecialFunctions.Log.Basic
import Mathlib.Algebra.Order.Floor.Ring
/-!
# Cross-entropy loss and accuracy (src/loss.cpp, src/metrics.cpp)

Elements are real numbers: rounding, infinities and NaN are not modelled. The tensors passed to one
call are separate (a gradient tensor aliasing the predictions is not modelled).
-/

namespace DW

noncomputable section

/-- `shape[i]`, an `int`. -/
def dim (b : Buf) (i : Nat) : Out Int := Out.idx b.shape i

/-- The first `n` elements behind a pointer, as an Eigen map of `n` elements reads them. -/
def firstN (vals : List ℝ) (n : Nat) : Out (List ℝ) :=
  if n ≤ vals.length then .ok (vals.take n) else .ub .oob

namespace Loss

/-- `static_cast<int>(float)`: truncation; undefined if the result does not fit. -/
def toInt (x : ℝ) : Out Int :=
  let z := if 0 ≤ x then ⌊x⌋ else ⌈x⌉
  if -2147483648 ≤ z ∧ z ≤ 2147483647 then .ok z else .ub .overflow

/-- `MatchTargetTo1dMatrix` (src/runtime/cpu/kernels/kernels.cpp:275-281), from row `i` on. -/
def matchTarget (classes : Int) : List ℝ → Nat → Out (List Int)
  | [], _ => .ok []
  | t :: ts, i => do
    let z ← toInt t
    let k := z + classes * i
    if -2147483648 ≤ k ∧ k ≤ 2147483647 then do
      let rest ← matchTarget classes ts (i + 1)
      .ok (k :: rest)
    else .ub .overflow

/-- Eigen's `v(0, k)`: no check in release builds. -/
def at1d (vals : List ℝ) (k : Int) : Out ℝ :=
  if 0 ≤ k then Out.idx vals k.toNat else .ub .oob

/-- `CPULog` (src/runtime/cpu/kernels/kernels.cpp:271-273). -/
def cpuLog (vals : List ℝ) : List ℝ := vals.map Real.log

/-- `CPUNLLLoss` (src/runtime/cpu/kernels/kernels.cpp:283-293). -/
def nllLoss (logs target : List ℝ) (batch classes : Int) : Out ℝ := do
  let slice ← matchTarget classes target 0
  let xs ← slice.mapM (at1d logs)
  .ok (-xs.sum / batch)

/-- The checks shared by both functions (src/loss.cpp:14-22,40-49). Returns batch size and classes. -/
def checks (pred target : Buf) : Out (Int × Int) := do
  Out.check (pred.shape.length == 2)
  let batch ← dim pred 0
  let classes ← dim pred 1
  Out.check (target.shape.length == 2)
  let t0 ← dim target 0
  Out.check (t0 == batch)
  let t1 ← dim target 1
  Out.check (t1 == 1)
  .ok (batch, classes)

/-- `CrossEntropyLoss::forward` (src/loss.cpp:13-37). The member `log_predictions` is reallocated
unless it already has the shape, and then overwritten; its new value is the second result. -/
def forward (pred target : Buf) : Out (ℝ × Buf) := do
  let (batch, classes) ← checks pred target
  let prob ← firstN pred.vals (batch * classes).toNat
  let tgt ← firstN target.vals batch.toNat
  let logs := cpuLog prob
  let loss ← nllLoss logs tgt batch classes
  .ok (loss, ⟨pred.shape, logs⟩)

/-- `grad_output_1d(0, slice).array() = -1 / prob_mat_1d(0, slice).array()` (src/loss.cpp:60). -/
def scatter (prob : List ℝ) : List Int → List ℝ → Out (List ℝ)
  | [], grad => .ok grad
  | k :: ks, grad => do
    let p ← at1d prob k
    let _ ← at1d grad k
    scatter prob ks (grad.set k.toNat (-1 / p))

/-- `CrossEntropyLoss::backward` (src/loss.cpp:39-64); returns the new `grad_output`. -/
def backward (pred target grad : Buf) : Out Buf := do
  Out.check (pred.shape.length == 2)
  Out.check (grad.shape == pred.shape)
  let (batch, classes) ← checks pred target
  let prob ← firstN pred.vals (batch * classes).toNat
  let tgt ← firstN target.vals batch.toNat
  let zeros := List.replicate grad.vals.length (0 : ℝ)
  let g ← firstN zeros (batch * classes).toNat
  let slice ← matchTarget classes tgt 0
  let g ← scatter prob slice g
  .ok ⟨grad.shape, g.map (· / (batch : ℝ)) ++ zeros.drop (batch * classes).toNat⟩

end Loss

namespace Metric

open Classical in
/-- Eigen's `maxCoeff(&index)` over one row: `best` so far is at `at_`, next element is `i`. -/
def maxFrom (best : ℝ) (at_ i : Nat) : List ℝ → Nat
  | [] => at_
  | x :: xs => if best < x then maxFrom x i (i + 1) xs else maxFrom best at_ (i + 1) xs

/-- `row.maxCoeff(&index)`. An empty row is undefined. -/
def argmax : List ℝ → Out Nat
  | [] => .ub .oob
  | x :: xs => .ok (maxFrom x 0 1 xs)

/-- Row `i` of a row-major matrix. -/
def row (vals : List ℝ) (cols i : Nat) : List ℝ := (vals.drop (i * cols)).take cols

open Classical in
/-- The loop of `accuracy` (src/metrics.cpp:23-30). -/
def accLoop (pred labels : List ℝ) (cols : Nat) (acc : ℝ) (i : Nat) : Nat → Out ℝ
  | 0 => .ok acc
  | n + 1 => do
    let k ← argmax (row pred cols i)
    let label ← Out.idx labels i
    accLoop pred labels cols (acc + if (k : ℝ) = label then 1 else 0) (i + 1) n

/-- `metric::accuracy` (src/metrics.cpp:12-32). -/
def accuracy (pred true_ : Buf) : Out ℝ := do
  Out.check (pred.shape.length == 2)
  let rows ← dim pred 0
  let cols ← dim pred 1
  Out.check ((true_.vals.length : Int) == rows)
  let p ← firstN pred.vals (rows * cols).toNat
  let acc ← accLoop p true_.vals cols.toNat 0 0 rows.toNat
  .ok (acc / rows)

/-- The loop of `accuracyOneHot` (src/metrics.cpp:46-51). -/
def accOneHotLoop (pred labels : List ℝ) (cols : Nat) (acc : ℝ) (i : Nat) : Nat → Out ℝ
  | 0 => .ok acc
  | n + 1 => do
    let k ← argmax (row pred cols i)
    let l ← argmax (row labels cols i)
    accOneHotLoop pred labels cols (acc + if k = l then 1 else 0) (i + 1) n

/-- `metric::accuracyOneHot` (src/metrics.cpp:34-53). -/
def accuracyOneHot (pred true_ : Buf) : Out ℝ := do
  Out.check (true_.shape == pred.shape)
  Out.check (pred.shape.length == 2)
  let rows ← dim pred 0
  let cols ← dim pred 1
  let p ← firstN pred.vals (rows * cols).toNat
  let t ← firstN true_.vals (rows * cols).toNat
  let acc ← accOneHotLoop p t cols.toNat 0 0 rows.toNat
  .ok (acc / rows)

end Metric

end

end DW
