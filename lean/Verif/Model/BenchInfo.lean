import Verif.Model.Bench
/-!
# What the benchmarks print about datasets and epochs

`PrintDatasetInfo` and `PrintEpochInformation` (benchmarks/utils/output_utils.cpp). How a `float` is written is left open: its text is given.
-/

set_option autoImplicit false

namespace DW.BenchInfo

open DW.Bench (Text Log Out put printHeader printShape decNat spaces)

/-- `std::right << std::setw(n)`. -/
def padLeft (n : ℕ) (t : Text) : Text := spaces (n - t.length) ++ t

/-- `std::left << std::setw(n)`. -/
def padRight (n : ℕ) (t : Text) : Text := t ++ spaces (n - t.length)

/-- The lines of `PrintDatasetInfo` after the header (output_utils.cpp:59-62). -/
def datasetLines (name : Text) (train validation : ℕ) (shape : List ℤ) : Text :=
  "- Name: ".toList ++ name ++ ['\n'] ++ ("- Train size: ".toList ++ decNat train ++ ['\n']) ++
    ("- Validation size: ".toList ++ decNat validation ++ ['\n']) ++ ("- Element shape: ".toList ++ printShape shape ++ ['\n'])

/-- `PrintDatasetInfo` (output_utils.cpp:57-63). -/
def printDatasetInfo (name : Text) (train validation : ℕ) (shape : List ℤ) : Log :=
  printHeader "Dataset info".toList .cout ++ put .cout (datasetLines name train validation shape)

/-- `PrintEpochInformation` (output_utils.cpp:19-25). -/
def epochLine (current n : ℕ) (loss accuracy : Text) : Text :=
  "- Epoch: ".toList ++ padLeft 10 (decNat current) ++ ['/'] ++ decNat n ++ " | ".toList ++ ("Train loss: ".toList ++ padRight 10 loss) ++
    " | ".toList ++ ("Validation accuracy: ".toList ++ padRight 10 accuracy) ++ ['\n']

end DW.BenchInfo
