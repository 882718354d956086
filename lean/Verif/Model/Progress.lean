import Verif.Model.Bench
import Verif.Model.Samples
/-!
# The command line and the progress of the samples

`main` of samples/mnist/main.cpp, samples/iris/main.cpp, samples/cifar10/main.cpp and samples/cifar100/main.cpp: how the arguments are read,
and at which iterations of an epoch a loss is printed. The losses are exact here; how far their averages in `float` are off is C126.
-/

set_option autoImplicit false

namespace DW.Progress

open DW.Bench (Text)
open DW.Samples (isSpace digits)
open DW.Tensor (fitsInt)

/-- `std::atoi`: white space, a sign, digits; what follows is ignored. A number that is too large is undefined behaviour. -/
def atoi (s : Text) : Out Int :=
  let s := s.dropWhile isSpace
  let neg := s.head? == some '-'
  let s := if s.head? == some '-' || s.head? == some '+' then s.drop 1 else s
  let v : Int := if neg then -(digits (s.takeWhile Char.isDigit) : Int) else digits (s.takeWhile Char.isDigit)
  if fitsInt v then .ok v else .ub .overflow

/-- `argv[i + 1]`, of which a string or a number is made; `argv[argc]` is null. -/
def arg (args : List Text) (i : ℕ) : Out Text :=
  match args[i]? with
  | some t => .ok t
  | none => if i = args.length then .ub .null else .ub .oob

/-- What the arguments set. -/
structure Config where
  test : Bool
  trainDir : Text
  testDir : Text
  batch : ℤ
  epochs : ℤ
  freq : ℤ
  path : Text
  deriving DecidableEq

/-- The first lines of `main` (samples/mnist/main.cpp:25-44, samples/iris/main.cpp:25-44, samples/cifar10/main.cpp:47-66,
samples/cifar100/main.cpp:61-80). `train` and `test` are what is put after the directory. -/
def config (train test : Text) (args : List Text) : Out Config := do
  let mode ← arg args 0
  let root ← arg args 1
  let batch ← (do atoi (← arg args 2))
  if mode = ['t', 'r', 'a', 'i', 'n'] then
    let epochs ← (do atoi (← arg args 3))
    let freq ← (do atoi (← arg args 4))
    let path ← arg args 5
    pure ⟨false, root ++ train, root ++ test, batch, epochs, freq, path⟩
  else if mode = ['t', 'e', 's', 't'] then
    let path ← arg args 3
    pure ⟨true, root ++ train, root ++ test, batch, -1, -1, path⟩
  else .throw .std

noncomputable section

/-- The lines that one epoch of training prints, given the losses of the batches to come, from iteration `iter` and the sum `loss` on
(samples/mnist/main.cpp:83-102, samples/iris/main.cpp:83-102, samples/cifar10/main.cpp:105-124, samples/cifar100/main.cpp:119-138). -/
def epochFrom (batch freq : ℤ) (iter : ℕ) (loss : ℝ) : List ℝ → Out (List ℝ)
  | [] => .ok [loss / iter]
  | l :: ls =>
    if !fitsInt ((iter + 1 : ℕ) * batch) then .ub .overflow
    else if freq = 0 then .ub .divZero
    else do
      let rest ← epochFrom batch freq (iter + 1) (loss + l) ls
      pure (if ((iter + 1 : ℕ) * batch).tmod freq = 0 then (loss + l) / (iter + 1 : ℕ) :: rest else rest)

/-- The same for a whole epoch. -/
def epoch (batch freq : ℤ) (losses : List ℝ) : Out (List ℝ) := epochFrom batch freq 0 0 losses

end

end DW.Progress
