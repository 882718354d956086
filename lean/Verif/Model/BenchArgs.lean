import Verif.Model.Progress
/-!
# The command line of the benchmarks and the number of epochs

`main` of benchmarks/mnist/main.cpp and benchmarks/cifar10/main.cpp, and the head of the loop over the epochs.
-/

set_option autoImplicit false

namespace DW.BenchArgs

open DW.Bench (Text toSize)
open DW.Progress (atoi arg)

/-- What the arguments set. -/
structure Config where
  trainDir : Text
  testDir : Text
  batch : ℤ
  epochs : ℤ
  deriving DecidableEq

/-- The first lines of `main` (benchmarks/mnist/main.cpp:12-17, benchmarks/cifar10/main.cpp:12-17). -/
def config (args : List Text) : Out Config := do
  let root ← arg args 0
  let batch ← (do atoi (← arg args 1))
  let epochs ← (do atoi (← arg args 2))
  pure ⟨root ++ ['/', 't', 'r', 'a', 'i', 'n'], root ++ ['/', 't', 'e', 's', 't'], batch, epochs⟩

/-- How the loop ends. -/
inductive End
  | done
  | overflow
  deriving DecidableEq

/-- `for (int i = 0; i < epochs; ++i)` from `i` on, where `epochs` is a `size_t`, to which `i` is converted: how often the body runs, and how it
ends (benchmarks/mnist/benchmark_dw.hpp:76, benchmarks/cifar10/benchmark_dw.hpp:127, benchmarks/mnist/benchmark_torch.hpp:81,
benchmarks/cifar10/benchmark_torch.hpp:117). -/
inductive Loop (epochs : ℕ) : ℤ → ℕ → End → Prop
  | done {i : ℤ} : ¬ toSize i < epochs → Loop epochs i 0 .done
  | overflow {i : ℤ} : toSize i < epochs → 2147483647 < i + 1 → Loop epochs i 1 .overflow
  | step {i : ℤ} {k : ℕ} {e : End} : toSize i < epochs → i + 1 ≤ 2147483647 → Loop epochs (i + 1) k e → Loop epochs i (k + 1) e

/-- The loop for the number of epochs of the command line, which `main` passes as a `size_t`
(benchmarks/mnist/main.cpp:37,:40, benchmarks/cifar10/main.cpp:37,:40). -/
def Run (n : ℤ) (k : ℕ) (e : End) : Prop := Loop (toSize n) 0 k e

end DW.BenchArgs
