import Mathlib.Analysis.SpecialFunctions.Exp
import Mathlib.Algebra.BigOperators.Fin
/-! # What the layers are documented to compute -/

namespace DW.Spec

noncomputable section

/-- `x W^T + b`. -/
def linear {B n u : Nat} (X : Fin B → Fin n → ℝ) (W : Fin u → Fin n → ℝ) (b : Fin u → ℝ) :
    Fin B → Fin u → ℝ := fun i k => (∑ j, X i j * W k j) + b k

def relu (x : ℝ) : ℝ := max 0 x

open Classical in
def leakyRelu (alpha x : ℝ) : ℝ := if 0 ≤ x then x else alpha * x

open Classical in
def elu (alpha x : ℝ) : ℝ := if 0 ≤ x then x else alpha * (Real.exp x - 1)

def sigmoid (x : ℝ) : ℝ := 1 / (1 + Real.exp (-x))

/-- Softmax of every row. -/
def softmax {B n : Nat} (X : Fin B → Fin n → ℝ) : Fin B → Fin n → ℝ :=
  fun i j => Real.exp (X i j) / ∑ k, Real.exp (X i k)

/-- The documented output of dropout in training mode, for a given mask. -/
def dropped {n : Nat} (p : ℝ) (m x : Fin n → ℝ) : Fin n → ℝ := open Classical in fun i => if p ≤ m i then x i / (1 - p) else 0

end

end DW.Spec
