import Mathlib.Data.Fin.Basic
import Mathlib.Data.List.OfFn
import Mathlib.Logic.Equiv.Fin.Basic
/-! # Matrices, higher arrays and their row-major buffers -/

namespace DW.Spec

variable {α : Type}

/-- The elements of a matrix, row after row. -/
def rowMajor {m n : Nat} (P : Fin m → Fin n → α) : List α :=
  List.ofFn fun k : Fin (m * n) => P k.divNat k.modNat

/-- The elements of a three-dimensional array in row-major order: element `(i, j, k)` is at
`i*(b*c) + (j*c + k)`. -/
def flat3 {a b c : Nat} (X : Fin a → Fin b → Fin c → α) : List α :=
  rowMajor fun i (q : Fin (b * c)) => X i q.divNat q.modNat

/-- The elements of a four-dimensional array in row-major order: element `(i, j, k, l)` is at
`i*(b*(c*d)) + (j*(c*d) + (k*d + l))`. -/
def flat4 {a b c d : Nat} (X : Fin a → Fin b → Fin c → Fin d → α) : List α :=
  rowMajor fun i (q : Fin (b * (c * d))) => X i q.divNat q.modNat.divNat q.modNat.modNat

/-- The four-dimensional array a function of positions describes. -/
def arr4 {a b c d : Nat} (x : Fin a × Fin b × Fin c × Fin d → α) : Fin a → Fin b → Fin c → Fin d → α :=
  fun i j k l => x (i, j, k, l)

end DW.Spec
