import Verif.Model.Floats
import Verif.Model.Conv
/-!
# Whole numbers in `float`s

`metric::accuracy` counts in a `float` and compares a column number with a label, which is a `float`; `MaxPooling` remembers rows in a
tensor, whose elements are `float`s.
-/

set_option autoImplicit false

namespace DW.Float

open scoped ENNReal

noncomputable section

variable (R : Rounding) {B n : Nat}

/-- Conversion of a whole number to `float`. -/
def ofNat (m : Nat) : Flt := .num false (R.rd m)

/-- `a == b`. NaN differs from everything, the two zeros are equal. -/
def Flt.eq : Flt → Flt → Prop
  | .num s x, .num t y => x = y ∧ (s = t ∨ x = 0)
  | _, _ => False

open Classical in
/-- The loop `acc += hit`. -/
def countHits (hits : List Prop) : Flt := hits.foldl (fun acc h => add R acc (if h then 1 else 0)) 0

/-- `metric::accuracy` (src/metrics.cpp:12-32): `r` is a possible result. `pick i` is the column that `maxCoeff` reports for row `i`;
comparing it with the label converts it to `float`, and so does the division with the number of rows. -/
def Accuracy (P : Fin B → Fin n → Flt) (label : Fin B → Flt) (r : Flt) : Prop :=
  ∃ pick : Fin B → Fin n, (∀ i, IsMax (P i) (P i (pick i))) ∧
    r = div R (countHits R (List.ofFn fun i => (ofNat R (pick i)).eq (label i))) (ofNat R B)

/-- `metric::accuracyOneHot` (src/metrics.cpp:34-53). The columns are compared as whole numbers. -/
def AccuracyOneHot (P T : Fin B → Fin n → Flt) (r : Flt) : Prop :=
  ∃ pick pick' : Fin B → Fin n, (∀ i, IsMax (P i) (P i (pick i))) ∧ (∀ i, IsMax (T i) (T i (pick' i))) ∧
    r = div R (countHits R (List.ofFn fun i => pick i = pick' i)) (ofNat R B)

/-- A `CPUMaxPooling` whose `max_indices` are `float`s (kernels.cpp:227): the rows chosen by `forward` are rounded when they are stored. -/
def stored (st : PoolSt) : PoolSt :=
  { st with maxIndices := st.maxIndices.put (st.maxIndices.vals.map fun x => (R.rd (ENNReal.ofReal x)).toReal) }

end

end DW.Float
