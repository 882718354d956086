import Verif.Model.Floats
import Mathlib.Data.Nat.Digits.Defs
import Mathlib.Algebra.Order.Floor.Ring
/-!
# What the benchmarks print

benchmarks/utils/output_utils.cpp. A text is a list of characters; what is printed is the list of the characters written, each with the
stream it is written to. `size_t` has 64 bits and `int` has 32.
-/

set_option autoImplicit false

namespace DW.Bench

open DW.Float
open scoped ENNReal

noncomputable section

abbrev Text := List Char

/-- `std::cout`, or another stream that is given to a function. -/
inductive Out
  | cout
  | other
  deriving DecidableEq

abbrev Log := List (Out × Char)

/-- `os << text`. -/
def put (os : Out) (t : Text) : Log := t.map fun c => (os, c)

/-- The digits of a whole number, as `<<` and `std::to_string` write them. -/
def decNat (n : ℕ) : Text := if n = 0 then ['0'] else (Nat.digits 10 n).reverse.map fun d => Char.ofNat (48 + d)

def decInt (x : ℤ) : Text := if x < 0 then '-' :: decNat x.natAbs else decNat x.natAbs

/-- The loop over all elements but the last, then the last one (output_utils.cpp:12-15). -/
def elements : List ℤ → Text
  | [] => []
  | [x] => decInt x ++ [']']
  | x :: y :: l => decInt x ++ [',', ' '] ++ elements (y :: l)

/-- `operator<<` for `std::vector<int64_t>` (output_utils.cpp:7-17). -/
def printShape (l : List ℤ) : Text := if l = [] then [] else '[' :: elements l

/-- `a - b` of type `size_t`. -/
def subSize (a b : ℕ) : ℕ := (a + 2 ^ 64 - b) % 2 ^ 64

/-- A `size_t` converted to `int`. -/
def toInt (n : ℕ) : ℤ := Int.bmod n (2 ^ 32)

/-- An `int` converted to `size_t`. -/
def toSize (x : ℤ) : ℕ := (x % 2 ^ 64).toNat

/-- `OUTPUT_WIDTH` (output_utils.hpp:6). -/
def outputWidth : ℕ := 80

/-- `OUTPUT_WIDTH + 4 * 2` (output_utils.cpp:35, 71). -/
def width : ℕ := outputWidth + 4 * 2

def spaces (n : ℕ) : Text := List.replicate n ' '

/-- A line of `n` equal characters. -/
def rule (c : Char) (n : ℕ) : Text := List.replicate n c ++ ['\n']

/-- `PrintDelimiter` (output_utils.cpp:27-32). -/
def printDelimiter (os : Out) : Log := put os (rule '-' outputWidth)

/-- `PrintHeader` (output_utils.cpp:34-55). The first star and the text go to `std::cout`; the first loop over spaces counts in `int`, the
second one in `size_t`. -/
def printHeader (text : Text) (os : Out) : Log :=
  let block := toInt (subSize (width - 2) text.length / 2)
  put os (rule '*' width) ++ put .cout ['*'] ++ put os (spaces block.toNat) ++ put .cout text ++ put os (spaces (toSize block)) ++
    put os ['*', '\n'] ++ put os (rule '*' width)

/-- One column of `print_row_info` (output_utils.cpp:84-97). -/
def cell (text : Text) : Text :=
  let rest := subSize ((width - 8) / 4) text.length
  spaces (rest / 2) ++ text ++ spaces (if rest % 2 = 1 then rest / 2 + 1 else rest / 2) ++ ['|', '|']

/-- `print_row_info` (output_utils.cpp:83-99). -/
def row (a b c d : Text) : Text := ['|', '|'] ++ cell a ++ cell b ++ cell c ++ cell d ++ ['\n']

/-- The whole number that is nearest to `x`, at least 0; the even one if two are. -/
def nearest (x : ℝ) : ℕ :=
  open Classical in if x - ⌊x⌋₊ < 1 / 2 ∨ x - ⌊x⌋₊ = 1 / 2 ∧ ⌊x⌋₊ % 2 = 0 then ⌊x⌋₊ else ⌊x⌋₊ + 1

/-- `p` digits, with zeros in front. -/
def digits (p n : ℕ) : Text := (List.range p).reverse.map fun k => Char.ofNat (48 + n / 10 ^ k % 10)

/-- A finite number with `p` digits after the point, as `%f` and `std::fixed` write it. -/
def fixed (p : ℕ) (x : ℝ) : Text :=
  open Classical in
  (if x < 0 then ['-'] else []) ++ decNat (nearest (|x| * 10 ^ p) / 10 ^ p) ++ ['.'] ++ digits p (nearest (|x| * 10 ^ p) % 10 ^ p)

/-- A number as `%f` and `std::fixed` write it. That some NaNs are written with a sign is left out. -/
def number (p : ℕ) : Flt → Text
  | .nan => ['n', 'a', 'n']
  | .num s x =>
    open Classical in
    if x = ⊤ then (if s then ['-'] else []) ++ ['i', 'n', 'f'] else
    if x = 0 ∧ s then '-' :: fixed p 0 else fixed p (if s then -x.toReal else x.toReal)

/-- `std::modf`, then `integer_part -= 1`, `fract_part += integer_part` and `fract_part * 100` (output_utils.cpp:115-119). The operations of
type `double` are exact here, but infinities and NaN remain. -/
def percent : Flt → Flt
  | .nan => .nan
  | .num s x =>
    if x = ⊤ then .num s ⊤ else
    let v := if s then -x.toReal else x.toReal
    let whole : ℝ := if 0 ≤ v then ⌊v⌋ else ⌈v⌉
    let r := (v - whole + (whole - 1)) * 100
    .num (open Classical in decide (r < 0)) (ENNReal.ofReal |r|)

/-- `get_procent_diff` (output_utils.cpp:100-122). -/
def percentDiff (target other : Flt) (maximize : Bool) : Text :=
  open Classical in
  if target.lt other then (if maximize then '-' else '+') :: number 2 (percent (divWith id other target)) ++ ['%'] else
  if other.lt target ∧ !maximize then '-' :: number 2 (percent (divWith id target other)) ++ ['%']
  else '+' :: number 2 (percent (divWith id target other)) ++ ['%']

/-- `BenchmarkResults` (output_utils.hpp:8-14). -/
structure Results where
  epochs : ℕ
  trainTime : ℕ
  inferenceTime : ℕ
  loss : Flt
  accuracy : Flt

/-- A `size_t`, converted to `double`. -/
def count (n : ℕ) : Flt := .num false n

/-- A number of milliseconds (output_utils.cpp:130-136). -/
def ms (n : ℕ) : Text := decNat n ++ [' ', 'm', 's']

/-- `PrintBenchmarkResultsTable` (output_utils.cpp:65-152), to `std::cout`; line by line. -/
def table (a b : Results) : List Text :=
  [['\n'], rule '=' width, row [] "Deepworks".toList "Torch".toList "DW vs Torch".toList, rule '=' width,
    row "Epochs".toList (decNat a.epochs) (decNat b.epochs) "None".toList,
    row "Train time".toList (ms a.trainTime) (ms b.trainTime) (percentDiff (count a.trainTime) (count b.trainTime) false),
    row "Inference time".toList (ms a.inferenceTime) (ms b.inferenceTime) (percentDiff (count a.inferenceTime) (count b.inferenceTime) false),
    row "Accuracy".toList (number 6 a.accuracy) (number 6 b.accuracy) (percentDiff a.accuracy b.accuracy true),
    row "Loss".toList (number 6 a.loss) (number 6 b.loss) (percentDiff a.loss b.loss false),
    rule '=' width, ['\n']]

/-- What an epoch of a benchmark measures: differences of `high_resolution_clock` in nanoseconds, which may be negative as that clock can be
set, and the averages of losses and accuracies. -/
structure Epoch where
  train : ℤ
  inference : ℤ
  loss : Flt
  accuracy : Flt

/-- `time += duration_cast<milliseconds>(d).count()` for a `size_t` (benchmarks/mnist/benchmark_dw.hpp:113-114,
benchmarks/cifar10/benchmark_dw.hpp:164-165). The cast drops a part of a millisecond. -/
def addTime (t : ℕ) (d : ℤ) : ℕ := ((t + d.tdiv 1000000) % 2 ^ 64).toNat

/-- The loop over the epochs from number `i` on, of `n` epochs (benchmarks/mnist/benchmark_dw.hpp:76-120,
benchmarks/cifar10/benchmark_dw.hpp:127-171). -/
def epochs (n : ℕ) : ℕ → List Epoch → Results → Results
  | _, [], r => r
  | i, e :: l, r =>
    let r := { r with trainTime := addTime r.trainTime e.train, inferenceTime := addTime r.inferenceTime e.inference }
    epochs n (i + 1) l (if i + 1 = n then { r with loss := e.loss, accuracy := e.accuracy } else r)

/-- `executeDeepworksMNISTBenchmark` and `executeDeepworksCIFAR10Benchmark` (benchmarks/mnist/benchmark_dw.hpp:58-124,
benchmarks/cifar10/benchmark_dw.hpp:109-175), given what each epoch measures. -/
def benchmark (l : List Epoch) : Results := epochs l.length 0 l ⟨l.length, 0, 0, 0, 0⟩

end

end DW.Bench
