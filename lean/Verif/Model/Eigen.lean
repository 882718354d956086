import Verif.Model.Loss
import Verif.Spec.Matrix
import Mathlib.Algebra.BigOperators.Fin
/-!
# The Eigen operations the kernels use

`Mat` and `Vec` are evaluated Eigen expressions over the reals: rounding, infinities and NaN are not
modelled, nor the order in which sums are evaluated. Eigen's dimension checks are assertions that
release builds drop, so a mismatch is undefined.
-/

namespace DW

noncomputable section

open Spec

/-- An Eigen matrix (src/runtime/cpu/kernels/kernels.hpp:8-9). -/
structure Mat where
  rows : Nat
  cols : Nat
  el : Fin rows → Fin cols → ℝ

/-- An Eigen vector (kernels.hpp:11-15); row and column vectors are not distinguished. -/
structure Vec where
  size : Nat
  el : Fin size → ℝ

namespace Eig

/-- `ConstMatrix{p, r, c}` where `vals` are the elements behind `p`. -/
def mat (vals : List ℝ) (r c : Int) : Out Mat :=
  if 0 ≤ r ∧ 0 ≤ c ∧ r.toNat * c.toNat ≤ vals.length then
    .ok ⟨r.toNat, c.toNat, fun i j => vals.getD (i.val * c.toNat + j.val) 0⟩
  else .ub .oob

/-- `ConstVector{p, n}`. -/
def vec (vals : List ℝ) (n : Int) : Out Vec :=
  if 0 ≤ n ∧ n.toNat ≤ vals.length then .ok ⟨n.toNat, fun i => vals.getD i.val 0⟩ else .ub .oob

/-- `Matrix{p + off, r, c} = m`: the elements behind `p` afterwards. -/
def setMat (vals : List ℝ) (off : Nat) (r c : Int) (m : Mat) : Out (List ℝ) :=
  if r = m.rows ∧ c = m.cols ∧ off + m.rows * m.cols ≤ vals.length then
    .ok (vals.take off ++ rowMajor m.el ++ vals.drop (off + m.rows * m.cols))
  else .ub .oob

/-- `Vector{p, n} = v`: the elements behind `p` afterwards. -/
def setVec (vals : List ℝ) (n : Int) (v : Vec) : Out (List ℝ) :=
  if n = v.size ∧ v.size ≤ vals.length then .ok (List.ofFn v.el ++ vals.drop v.size) else .ub .oob

/-- `a * b`. -/
def mul (a b : Mat) : Out Mat :=
  if h : a.cols = b.rows then .ok ⟨a.rows, b.cols, fun i j => ∑ k, a.el i k * b.el (Fin.cast h k) j⟩
  else .ub .oob

/-- `a.transpose()`. -/
def transpose (a : Mat) : Mat := ⟨a.cols, a.rows, fun i j => a.el j i⟩

/-- A coefficient-wise function of a matrix. -/
def map (f : ℝ → ℝ) (a : Mat) : Mat := ⟨a.rows, a.cols, fun i j => f (a.el i j)⟩

/-- A coefficient-wise function of two matrices. -/
def zip (f : ℝ → ℝ → ℝ) (a b : Mat) : Out Mat :=
  if h : a.rows = b.rows ∧ a.cols = b.cols then
    .ok ⟨a.rows, a.cols, fun i j => f (a.el i j) (b.el (Fin.cast h.1 i) (Fin.cast h.2 j))⟩
  else .ub .oob

/-- `a.rowwise() ∘ v`: combine every row with `v`. -/
def rowwise (f : ℝ → ℝ → ℝ) (a : Mat) (v : Vec) : Out Mat :=
  if h : a.cols = v.size then .ok ⟨a.rows, a.cols, fun i j => f (a.el i j) (v.el (Fin.cast h j))⟩
  else .ub .oob

/-- `a.colwise() ∘ v`: combine every column with `v`. -/
def colwise (f : ℝ → ℝ → ℝ) (a : Mat) (v : Vec) : Out Mat :=
  if h : a.rows = v.size then .ok ⟨a.rows, a.cols, fun i j => f (a.el i j) (v.el (Fin.cast h i))⟩
  else .ub .oob

/-- `a.rowwise().sum()`: one value per row. -/
def rowSum (a : Mat) : Vec := ⟨a.rows, fun i => ∑ j, a.el i j⟩

/-- `a.colwise().sum()`: one value per column. -/
def colSum (a : Mat) : Vec := ⟨a.cols, fun j => ∑ i, a.el i j⟩

/-- `a.rowwise().mean()`. -/
def rowMean (a : Mat) : Vec := ⟨a.rows, fun i => (∑ j, a.el i j) / a.cols⟩

/-- `a.colwise().mean()`. -/
def colMean (a : Mat) : Vec := ⟨a.cols, fun j => (∑ i, a.el i j) / a.rows⟩

/-- `a.rowwise().maxCoeff()`: undefined if there are rows but no columns. -/
def rowMax (a : Mat) : Out Vec :=
  if a.rows = 0 ∨ a.cols ≠ 0 then
    .ok ⟨a.rows, fun i => match List.ofFn (a.el i) with | [] => 0 | x :: xs => xs.foldl max x⟩
  else .ub .oob

/-- A coefficient-wise function of a vector. -/
def vmap (f : ℝ → ℝ) (a : Vec) : Vec := ⟨a.size, fun i => f (a.el i)⟩

/-- A coefficient-wise function of two vectors. -/
def vzip (f : ℝ → ℝ → ℝ) (a b : Vec) : Out Vec :=
  if h : a.size = b.size then .ok ⟨a.size, fun i => f (a.el i) (b.el (Fin.cast h i))⟩ else .ub .oob

end Eig

end

end DW
