import Mathlib.Data.ENNReal.Inv
import Mathlib.Data.List.OfFn
import Mathlib.Data.List.Range
/-!
# Arithmetic of `float`

Elsewhere in the model elements are real numbers. Here they are values of type `float` with signed zeros, infinities and NaN, every
operation rounds, and the order in which Eigen adds is left open. Modelled are the kernels between the last layer of a classifier and
its loss, and the products of matrices in `Linear` and `Convolution`.

IEEE 754 defines an operation as the operation on extended real numbers followed by rounding; this is how it is written here. The
rounding is a parameter with the properties of rounding to the nearest `float` (`Rounding`); `Verif.Lemmas.Binary32` defines it.
-/

set_option autoImplicit false

namespace DW.Float

open scoped ENNReal

noncomputable section

/-- A value of type `float`: NaN, or a sign and a magnitude, which may be infinite. -/
inductive Flt where
  | nan
  | num (neg : Bool) (mag : ℝ≥0∞)

/-- The largest `float`. -/
def maxFloat : ℝ≥0∞ := 16777215 * 2 ^ 104

/-- The smallest normal `float`. -/
def minNormal : ℝ≥0∞ := (2 ^ 126)⁻¹

/-- Half of the smallest `float`. -/
def halfMin : ℝ≥0∞ := (2 ^ 150)⁻¹

/-- The unit of rounding: half of the distance from 1 to the next `float`. -/
def unit : ℝ≥0∞ := (2 ^ 24)⁻¹

/-- Rounding of magnitudes to the nearest `float`: monotone, exact for `float`s and in particular for whole numbers with at most 24
significant bits, with the relative error `unit` for normal numbers, the absolute error `halfMin` below them, and infinite from
`2 ^ 128` on. A finite result is not above `maxFloat`. -/
structure Rounding where
  rd : ℝ≥0∞ → ℝ≥0∞
  mono : Monotone rd
  idem : ∀ x, rd (rd x) = rd x
  exact : ∀ m e : ℕ, m < 2 ^ 24 → e ≤ 104 → rd (m * 2 ^ e) = m * 2 ^ e
  upper : ∀ x, minNormal ≤ x → x ≤ maxFloat → rd x ≤ x + unit * x
  lower : ∀ x, minNormal ≤ x → x ≤ maxFloat → x ≤ rd x + unit * x
  tinyUpper : ∀ x < minNormal, rd x ≤ x + halfMin
  tinyLower : ∀ x < minNormal, x ≤ rd x + halfMin
  huge : ∀ x, 2 ^ 128 ≤ x → rd x = ⊤
  largest : ∀ x, rd x ≠ ⊤ → rd x ≤ maxFloat

instance : Zero Flt := ⟨.num false 0⟩

instance : One Flt := ⟨.num false 1⟩

/-- `-a`. -/
def Flt.neg : Flt → Flt
  | .nan => .nan
  | .num s x => .num (!s) x

/-- `a * b`, rounded with `rd`. Zero times infinity is NaN. -/
def mulWith (rd : ℝ≥0∞ → ℝ≥0∞) : Flt → Flt → Flt
  | .num s x, .num t y => if x = 0 ∧ y = ⊤ ∨ x = ⊤ ∧ y = 0 then .nan else .num (s ^^ t) (rd (x * y))
  | _, _ => .nan

open Classical in
/-- `a + b`, rounded with `rd`. A difference of infinities is NaN; a difference of equal numbers is +0. -/
def addWith (rd : ℝ≥0∞ → ℝ≥0∞) : Flt → Flt → Flt
  | .num s x, .num t y =>
    if s = t then .num s (rd (x + y))
    else if x = y then if x = ⊤ then .nan else .num false 0
    else if y < x then .num s (rd (x - y))
    else .num t (rd (y - x))
  | _, _ => .nan

/-- `a / b`, rounded with `rd`. -/
def divWith (rd : ℝ≥0∞ → ℝ≥0∞) : Flt → Flt → Flt
  | .num s x, .num t y => if x = 0 ∧ y = 0 ∨ x = ⊤ ∧ y = ⊤ then .nan else .num (s ^^ t) (rd (x / y))
  | _, _ => .nan

/-- `a < b`. NaN is not less than anything. -/
def Flt.lt : Flt → Flt → Prop
  | .num s x, .num t y =>
    match s, t with
    | false, false => x < y
    | true, true => y < x
    | true, false => ¬(x = 0 ∧ y = 0)
    | false, true => False
  | _, _ => False

/-- Not NaN and not infinite. -/
def Flt.Finite : Flt → Prop
  | .nan => False
  | .num _ x => x ≠ ⊤

/-- The real number a finite `float` denotes. -/
def Flt.val : Flt → ℝ
  | .nan => 0
  | .num s x => if s then -x.toReal else x.toReal

variable (R : Rounding)

def mul (a b : Flt) : Flt := mulWith R.rd a b

def add (a b : Flt) : Flt := addWith R.rd a b

def sub (a b : Flt) : Flt := addWith R.rd a b.neg

def div (a b : Flt) : Flt := divWith R.rd a b

/-- `a * b + c` with one rounding, which compilers may use. -/
def fma (a b c : Flt) : Flt := addWith R.rd (mulWith id a b) c

/-- `c + a * b`, with or without a rounding of the product. -/
def MulAdd (a b c r : Flt) : Prop := r = add R c (mul R a b) ∨ r = fma R a b c

/-- A sum of `float`s, in any order. -/
inductive SumOf : List Flt → Flt → Prop
  | one (a : Flt) : SumOf [a] a
  | start (a : Flt) : SumOf [a] (add R 0 a)
  | add {l l' : List Flt} {a b : Flt} : SumOf l a → SumOf l' b → SumOf (l ++ l') (add R a b)
  | perm {l l' : List Flt} {a : Flt} : l.Perm l' → SumOf l a → SumOf l' a

/-- A sum of products, in any order and with any of the products not rounded. -/
inductive DotOf : List (Flt × Flt) → Flt → Prop
  | one (a b : Flt) : DotOf [(a, b)] (mul R a b)
  | start (a b : Flt) : DotOf [(a, b)] (Float.add R 0 (mul R a b))
  | fmaStart (a b : Flt) : DotOf [(a, b)] (fma R a b 0)
  | add {l l' : List (Flt × Flt)} {a b : Flt} : DotOf l a → DotOf l' b → DotOf (l ++ l') (Float.add R a b)
  | fma {l : List (Flt × Flt)} {a b c : Flt} : DotOf l c → DotOf (l ++ [(a, b)]) (Float.fma R a b c)
  | perm {l l' : List (Flt × Flt)} {a : Flt} : l.Perm l' → DotOf l a → DotOf l' a

/-- `std::exp` and `std::log`, or the functions Eigen uses instead. Their results are not always the nearest `float`s; this is what is
used of them here. -/
structure Libm (R : Rounding) where
  exp : Flt → Flt
  log : Flt → Flt
  expZero : ∀ s, exp (.num s 0) = 1
  expNeg : ∀ x, ∃ y : ℝ≥0∞, y ≤ 1 ∧ R.rd y = y ∧ exp (.num true x) = .num false y
  expSmall : ∀ x, 200 ≤ x → exp (.num true x) = 0
  logZero : log 0 = .num true ⊤
  logPos : ∀ x, 0 < x → x < ⊤ → R.rd x = x → ∃ (s : Bool) (y : ℝ≥0∞), y ≤ 128 ∧ log (.num false x) = .num s y

variable (F : Libm R) {B n k : Nat}

/-- `row.maxCoeff()` for a row without NaN. -/
def IsMax (row : Fin n → Flt) (m : Flt) : Prop := (∃ j, row j = m) ∧ ∀ j, ¬m.lt (row j)

/-- `CPUSoftmaxForward` (src/runtime/cpu/kernels/kernels.cpp:34-37): `Y` is a possible result for `X`. -/
def SoftmaxForward (X Y : Fin B → Fin n → Flt) : Prop :=
  ∀ i, ∃ m s, IsMax (X i) m ∧ SumOf R (List.ofFn fun j => F.exp (sub R (X i j) m)) s ∧
    ∀ j, Y i j = div R (F.exp (sub R (X i j) m)) s

/-- `CPULog` and `CPUNLLLoss` (kernels.cpp:271-273, 283-293), with the labels as column numbers. -/
def LossForward (P : Fin B → Fin n → Flt) (label : Fin B → Fin n) (loss : Flt) : Prop :=
  ∃ s, SumOf R (List.ofFn fun i => F.log (P i (label i))) s ∧ loss = div R s.neg (.num false B)

/-- `CrossEntropyLoss::backward` (src/loss.cpp:39-64): zeros, then `-1 / p` at the labels, then division by the batch size. -/
def lossBackward (P : Fin B → Fin n → Flt) (label : Fin B → Fin n) (i : Fin B) (j : Fin n) : Flt :=
  div R (if j = label i then div R (.num true 1) (P i j) else 0) (.num false B)

/-- `CPUSoftmaxInputGrad` (kernels.cpp:39-42): `G'` is what `grad_input` may hold afterwards if it held `G₀`. -/
def SoftmaxInputGrad (Y G G₀ G' : Fin B → Fin n → Flt) : Prop :=
  ∀ i, ∃ s, DotOf R (List.ofFn fun j => (G i j, Y i j)) s ∧ ∀ j, MulAdd R (Y i j) (sub R (G i j) s) (G₀ i j) (G' i j)

/-- `CPULinearForward` and `CPULinearAddBias` (kernels.cpp:12-18). -/
def LinearForward (X : Fin B → Fin n → Flt) (W : Fin k → Fin n → Flt) (b : Fin k → Flt) (Y : Fin B → Fin k → Flt) : Prop :=
  ∀ i j, ∃ z, DotOf R (List.ofFn fun r => (X i r, W j r)) z ∧ Y i j = add R z (b j)

/-- `CPULinearWeightGrad` and `CPULinearBiasGrad` (kernels.cpp:26-32). -/
def LinearGrads (X : Fin B → Fin n → Flt) (D : Fin B → Fin k → Flt) (dW : Fin k → Fin n → Flt) (db : Fin k → Flt) : Prop :=
  (∀ j r, DotOf R (List.ofFn fun i => (D i j, X i r)) (dW j r)) ∧ ∀ j, SumOf R (List.ofFn fun i => D i j) (db j)

/-- The update of one element in `SGD::step` (src/optimizer.cpp:28). -/
def SgdStep (lr w g w' : Flt) : Prop := w' = sub R w (mul R lr g) ∨ w' = fma R lr.neg g w

end

end DW.Float
