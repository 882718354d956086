import Verif.Model.FloatNet
import Verif.Props.FloatAct
import Verif.Props.FloatNorm
import Verif.Lemmas.Deriv
import Mathlib.Analysis.Calculus.MeanValue
/-!
# C114: deep networks in `float`

The distance of the outputs of a chain of layers from those of exact arithmetic.
-/

set_option autoImplicit false

namespace DW.Props.FloatNetP

open DW.Float DW.Props.FloatSoftmaxP DW.Props.FloatLossP DW.Props.FloatDotP DW.Props.FloatGradP DW.Props.FloatActP DW.Props.FloatAccuracyP DW.Props.FloatAdamP
  DW.Props.FloatAdamStepP DW.Props.FloatNormP
open scoped ENNReal

noncomputable section

variable {R : Rounding} {F : Libm R} {q : Sqrt} {ε ρ : ℝ} {B n k m : ℕ}

/-- The relative errors of `exp` and of the square root are at most `ε` and `ρ`. -/
structure Accurate (F : Libm R) (q : Sqrt) (ε ρ : ℝ) : Prop where
  exp : ExpFull F ε
  exp_nonneg : 0 ≤ ε
  exp_le : ε ≤ 1 / 2 ^ 10
  sqrt : SqrtNear q ρ
  sqrt_nonneg : 0 ≤ ρ
  sqrt_le : ρ ≤ 1 / 2 ^ 10

/-! ## The exact network -/

/-- The layer in exact arithmetic. -/
def layer : {n k : ℕ} → Layer n k → (Fin B → Fin n → ℝ) → Fin B → Fin k → ℝ
  | _, _, .linear W b, X => Spec.linear X (fun j r => (W j r).val) fun j => (b j).val
  | _, _, .batchNorm mean var gamma beta eps, X => fun i j => Spec.normalise (mean j).val (var j).val eps.val (gamma j).val (beta j).val (X i j)
  | _, _, .relu, X => fun i j => Spec.relu (X i j)
  | _, _, .leakyRelu alpha, X => fun i j => Spec.leakyRelu alpha.val (X i j)
  | _, _, .elu alpha, X => fun i j => Spec.elu alpha.val (X i j)
  | _, _, .sigmoid, X => fun i j => Spec.sigmoid (X i j)

/-- The layers one after another in exact arithmetic. -/
def chain : {n m : ℕ} → Chain n m → (Fin B → Fin n → ℝ) → Fin B → Fin m → ℝ
  | _, _, .nil, X => X
  | _, _, .cons l c, X => chain c (layer l X)

/-! ## The bounds -/

/-- The largest sum of the magnitudes of a row of weights. -/
def rowNorm (W : Fin k → Fin n → Flt) : ℝ := ⨆ j, ∑ r, |(W j r).val|

/-- The largest magnitude of a bias. -/
def biasNorm (b : Fin k → Flt) : ℝ := ⨆ j, |(b j).val|

theorem le_rowNorm (W : Fin k → Fin n → Flt) (j : Fin k) : ∑ r, |(W j r).val| ≤ rowNorm W :=
  le_ciSup (f := fun j => ∑ r, |(W j r).val|) (Set.finite_range _).bddAbove j

theorem le_biasNorm (b : Fin k → Flt) (j : Fin k) : |(b j).val| ≤ biasNorm b :=
  le_ciSup (f := fun j => |(b j).val|) (Set.finite_range _).bddAbove j

theorem rowNorm_nonneg (W : Fin k → Fin n → Flt) : 0 ≤ rowNorm W := Real.iSup_nonneg fun _ => Finset.sum_nonneg fun _ _ => abs_nonneg _

theorem biasNorm_nonneg (b : Fin k → Flt) : 0 ≤ biasNorm b := Real.iSup_nonneg fun _ => abs_nonneg _

/-- The largest magnitude of a factor of `BatchNorm1D`. -/
def factorNorm (var gamma : Fin n → Flt) (eps : Flt) : ℝ := ⨆ j, |(gamma j).val / √((var j).val + eps.val)|

theorem le_factorNorm (var gamma : Fin n → Flt) (eps : Flt) (j : Fin n) :
    |(gamma j).val / √((var j).val + eps.val)| ≤ factorNorm var gamma eps :=
  le_ciSup (f := fun j => |(gamma j).val / √((var j).val + eps.val)|) (Set.finite_range _).bddAbove j

theorem factorNorm_nonneg (var gamma : Fin n → Flt) (eps : Flt) : 0 ≤ factorNorm var gamma eps := Real.iSup_nonneg fun _ => abs_nonneg _

/-- The relative error of a sum of `n` products and a bias. -/
def gam (n : ℕ) : ℝ := (1 + u) ^ (2 * n + 1) - 1

/-- What comes from numbers below the normal ones. -/
def tiny (n : ℕ) : ℝ := 3 * n * η * (1 + u) ^ (2 * n + 1)

/-- A bound `A` for the magnitudes of the exact numbers and a bound `d` for the errors. -/
structure Bounds where
  A : ℝ
  d : ℝ

/-- The bounds after a layer from those before it; `ε` and `ρ` are the relative errors of `exp` and of the square root. -/
def after (ε ρ : ℝ) : {n k : ℕ} → Layer n k → Bounds → Bounds
  | n, _, .linear W b, p => ⟨rowNorm W * p.A + biasNorm b, rowNorm W * p.d + gam n * (rowNorm W * (p.A + p.d) + biasNorm b) + tiny n⟩
  | _, _, .batchNorm mean var gamma beta eps, p => ⟨factorNorm var gamma eps * (p.A + biasNorm mean) + biasNorm beta,
      factorNorm var gamma eps * p.d + (8 * u + 1.2 * ρ) * (factorNorm var gamma eps * (p.A + p.d + biasNorm mean) + biasNorm beta) +
        2 * η * (p.A + p.d + biasNorm mean + factorNorm var gamma eps + 3)⟩
  | _, _, .relu, p => p
  | _, _, .leakyRelu alpha, p =>
    ⟨max 1 |alpha.val| * p.A, max 1 |alpha.val| * p.d + u * (max 1 |alpha.val| * (p.A + p.d)) + η⟩
  | _, _, .elu alpha, p => ⟨max 1 |alpha.val| * p.A, max 1 |alpha.val| * p.d + (2.1 * u + 1.1 * ε) * |alpha.val| + η⟩
  | _, _, .sigmoid, p => ⟨1, p.d / 4 + (2.1 * u + 1.1 * ε) + 1 / 2 ^ 126⟩

/-- Nothing overflows in the layer: its parameters are finite and the bounds are not too large. -/
def Fits : {n k : ℕ} → Layer n k → Bounds → Prop
  | n, _, .linear W b, p => (∀ j r, (W j r).Finite) ∧ (∀ j, (b j).Finite) ∧
    (1 + u) ^ (2 * n + 1) * (rowNorm W * (p.A + p.d) + biasNorm b + 3 * n * η) ≤ big
  | _, _, .batchNorm mean var gamma beta eps, p => (∀ j, Usable (var j) (gamma j) eps) ∧ (∀ j, (mean j).Finite) ∧ (∀ j, (beta j).Finite) ∧
    p.A + p.d + biasNorm mean ≤ 2 ^ 120 ∧ factorNorm var gamma eps ≤ 2 ^ 120 ∧
    factorNorm var gamma eps * (p.A + p.d + biasNorm mean) + biasNorm beta ≤ 2 ^ 120
  | _, _, .relu, _ => True
  | _, _, .leakyRelu alpha, p => alpha.Finite ∧ |alpha.val| * (p.A + p.d) ≤ big
  | _, _, .elu alpha, _ => alpha.Finite ∧ |alpha.val| ≤ 2 ^ 120
  | _, _, .sigmoid, _ => True

/-- The bounds after all layers. -/
def afterAll (ε ρ : ℝ) : {n m : ℕ} → Chain n m → Bounds → Bounds
  | _, _, .nil, p => p
  | _, _, .cons l c, p => afterAll ε ρ c (after ε ρ l p)

/-- Nothing overflows. -/
def FitsAll (ε ρ : ℝ) : {n m : ℕ} → Chain n m → Bounds → Prop
  | _, _, .nil, _ => True
  | _, _, .cons l c, p => Fits l p ∧ FitsAll ε ρ c (after ε ρ l p)

/-- `X` are finite `float`s within `p.d` of the numbers `T`, whose magnitudes are at most `p.A`. -/
structure Within (R : Rounding) (X : Fin B → Fin n → Flt) (T : Fin B → Fin n → ℝ) (p : Bounds) : Prop where
  nonneg : 0 ≤ p.A ∧ 0 ≤ p.d
  finite : ∀ i j, (X i j).Finite
  isFloat : ∀ i j, IsFloat R (X i j)
  size : ∀ i j, |T i j| ≤ p.A
  error : ∀ i j, |(X i j).val - T i j| ≤ p.d

theorem Within.val_le {X : Fin B → Fin n → Flt} {T : Fin B → Fin n → ℝ} {p : Bounds} (h : Within R X T p) (i : Fin B) (j : Fin n) :
    |(X i j).val| ≤ p.A + p.d := by
  have h1 := abs_sub_le (X i j).val (T i j) 0
  rw [sub_zero, sub_zero] at h1
  linarith [h.size i j, h.error i j]

/-! ## Sums and products are `float`s -/

theorem isFloat_rd (s : Bool) (x : ℝ≥0∞) : IsFloat R (.num s (R.rd x)) := R.idem x

theorem isFloat_zero : IsFloat R 0 := by
  show R.rd 0 = 0
  exact rd_zero

theorem isFloat_add (a b : Flt) : IsFloat R (add R a b) := by
  rcases a with _ | ⟨s, x⟩
  · exact trivial
  rcases b with _ | ⟨t, y⟩
  · exact trivial
  show IsFloat R (addWith R.rd _ _)
  simp only [addWith]
  split_ifs
  all_goals first
    | exact isFloat_rd _ _
    | exact trivial
    | exact isFloat_zero

theorem isFloat_mul (a b : Flt) : IsFloat R (mul R a b) := by
  rcases a with _ | ⟨s, x⟩
  · exact trivial
  rcases b with _ | ⟨t, y⟩
  · exact trivial
  show IsFloat R (mulWith R.rd _ _)
  simp only [mulWith]
  split_ifs
  · exact trivial
  · exact isFloat_rd _ _

theorem isFloat_fma (a b c : Flt) : IsFloat R (fma R a b c) := by
  unfold fma
  exact isFloat_add _ _

theorem isFloat_mulAdd {a b c r : Flt} (h : MulAdd R a b c r) : IsFloat R r := by
  rcases h with rfl | rfl
  · exact isFloat_add _ _
  · exact isFloat_fma _ _ _

theorem isFloat_div (a b : Flt) : IsFloat R (div R a b) := by
  rcases a with _ | ⟨s, x⟩
  · exact trivial
  rcases b with _ | ⟨t, y⟩
  · exact trivial
  show IsFloat R (divWith R.rd _ _)
  simp only [divWith]
  split_ifs
  · exact trivial
  · exact isFloat_rd _ _

/-! ## How the activations pass errors on -/

theorem relu_lipschitz (x y : ℝ) : |Spec.relu x - Spec.relu y| ≤ |x - y| := by
  unfold Spec.relu
  rcases le_total 0 x with hx | hx <;> rcases le_total 0 y with hy | hy
  · rw [max_eq_right hx, max_eq_right hy]
  · rw [max_eq_right hx, max_eq_left hy, abs_of_nonneg (by linarith), abs_of_nonneg (by linarith)]
    linarith
  · rw [max_eq_left hx, max_eq_right hy, abs_of_nonpos (by linarith), abs_of_nonpos (by linarith)]
    linarith
  · rw [max_eq_left hx, max_eq_left hy, sub_self, abs_zero]
    exact abs_nonneg _

/-- A function that is the identity for numbers from 0 on and at most `a` times as steep as it below. -/
theorem piecewise_lipschitz {a : ℝ} {f : ℝ → ℝ} (h0 : ∀ x, 0 ≤ x → f x = x) (h1 : ∀ x y, x < 0 → y < 0 → |f x - f y| ≤ |a| * |x - y|)
    (h2 : ∀ x, x < 0 → |f x| ≤ |a| * |x|) (x y : ℝ) : |f x - f y| ≤ max 1 |a| * |x - y| := by
  have l1 := le_max_left 1 |a|
  have l2 := le_max_right 1 |a|
  have mixed : ∀ x y, 0 ≤ x → y < 0 → |f x - f y| ≤ max 1 |a| * |x - y| := by
    intro x y hx hy
    have e1 := abs_sub (f x) (f y)
    have e2 := h2 y hy
    rw [h0 x hx] at e1 ⊢
    rw [abs_of_nonneg (by linarith : 0 ≤ x - y)]
    rw [abs_of_nonneg hx] at e1
    rw [abs_of_neg hy] at e2
    have e3 : 1 * x ≤ max 1 |a| * x := mul_le_mul_of_nonneg_right l1 hx
    have e4 : |a| * -y ≤ max 1 |a| * -y := mul_le_mul_of_nonneg_right l2 (by linarith)
    linarith
  rcases le_or_gt 0 x with hx | hx <;> rcases le_or_gt 0 y with hy | hy
  · rw [h0 x hx, h0 y hy]
    exact le_mul_of_one_le_left (abs_nonneg _) l1
  · exact mixed x y hx hy
  · rw [abs_sub_comm, abs_sub_comm x]
    exact mixed y x hy hx
  · exact (h1 x y hx hy).trans (mul_le_mul_of_nonneg_right l2 (abs_nonneg _))

theorem leakyRelu_lipschitz (a x y : ℝ) : |Spec.leakyRelu a x - Spec.leakyRelu a y| ≤ max 1 |a| * |x - y| := by
  refine piecewise_lipschitz (f := Spec.leakyRelu a) (fun x hx => if_pos hx) (fun x y hx hy => ?_) (fun x hx => ?_) x y
  · rw [Spec.leakyRelu, Spec.leakyRelu, if_neg (not_le.2 hx), if_neg (not_le.2 hy), ← mul_sub, abs_mul]
  · rw [Spec.leakyRelu, if_neg (not_le.2 hx), abs_mul]

theorem exp_lipschitz {x y : ℝ} (hx : x ≤ 0) (hy : y ≤ 0) : |Real.exp x - Real.exp y| ≤ |x - y| := by
  have key : ∀ {x y : ℝ}, y ≤ x → x ≤ 0 → |Real.exp x - Real.exp y| ≤ |x - y| := by
    intro x y h hx
    have e1 : Real.exp x - Real.exp y = Real.exp x * (1 - Real.exp (y - x)) := by
      rw [mul_sub, ← Real.exp_add, mul_one]
      congr 2
      ring
    have e2 := Real.add_one_le_exp (y - x)
    have e3 : Real.exp (y - x) ≤ 1 := Real.exp_le_one_iff.2 (by linarith)
    have e4 : Real.exp x ≤ 1 := Real.exp_le_one_iff.2 hx
    rw [e1, abs_of_nonneg (mul_nonneg (Real.exp_pos x).le (by linarith)), abs_of_nonneg (by linarith)]
    have e5 : Real.exp x * (1 - Real.exp (y - x)) ≤ 1 * (1 - Real.exp (y - x)) := mul_le_mul_of_nonneg_right e4 (by linarith)
    linarith
  rcases le_total y x with h | h
  · exact key h hx
  · rw [abs_sub_comm, abs_sub_comm x]
    exact key h hy

theorem elu_lipschitz (a x y : ℝ) : |Spec.elu a x - Spec.elu a y| ≤ max 1 |a| * |x - y| := by
  refine piecewise_lipschitz (f := Spec.elu a) (fun x hx => if_pos hx) (fun x y hx hy => ?_) (fun x hx => ?_) x y
  · rw [Spec.elu, Spec.elu, if_neg (not_le.2 hx), if_neg (not_le.2 hy), ← mul_sub, abs_mul, sub_sub_sub_cancel_right]
    exact mul_le_mul_of_nonneg_left (exp_lipschitz hx.le hy.le) (abs_nonneg _)
  · rw [Spec.elu, if_neg (not_le.2 hx), abs_mul]
    have := exp_lipschitz hx.le le_rfl
    rw [Real.exp_zero, sub_zero] at this
    exact mul_le_mul_of_nonneg_left this (abs_nonneg _)

theorem sigmoid_lipschitz (x y : ℝ) : |Spec.sigmoid x - Spec.sigmoid y| ≤ |x - y| / 4 := by
  have hb : ∀ z ∈ (Set.univ : Set ℝ), ‖Spec.sigmoid z * (1 - Spec.sigmoid z)‖ ≤ 1 / 4 := fun z _ => by
    have h0 : 0 ≤ Spec.sigmoid z := by unfold Spec.sigmoid; positivity
    have h1 : Spec.sigmoid z ≤ 1 := by
      unfold Spec.sigmoid
      rw [div_le_one (by positivity)]
      linarith [Real.exp_pos (-z)]
    rw [Real.norm_of_nonneg (mul_nonneg h0 (by linarith))]
    have := sq_nonneg (Spec.sigmoid z - 1 / 2)
    linarith
  have := (convex_univ (𝕜 := ℝ) (E := ℝ)).norm_image_sub_le_of_norm_hasDerivWithin_le (fun z _ => (DerivL.sigmoid_deriv z).hasDerivWithinAt) hb
    (Set.mem_univ y) (Set.mem_univ x)
  rw [Real.norm_eq_abs, Real.norm_eq_abs] at this
  linarith

/-! ## One layer -/

theorem layer_near (hL : Accurate F q ε ρ) (l : Layer n k) {X : Fin B → Fin n → Flt} {Y : Fin B → Fin k → Flt}
    {T : Fin B → Fin n → ℝ} {p : Bounds} (hp : Within R X T p) (hf : Fits l p) (h : l.Forward R F q X Y) : Within R Y (layer l T) (after ε ρ l p) := by
  have hu := u_pos
  have hη := η_pos
  obtain ⟨hF, hε, hε', hq, hρ, hρ'⟩ := hL
  obtain ⟨hA, hd⟩ := hp.nonneg
  cases l with
  | linear W b =>
    obtain ⟨hW, hb, hmax⟩ := hf
    have hg0 : 0 ≤ gam n := sub_nonneg.2 (one_le_pow₀ (by linarith))
    have ht0 : 0 ≤ tiny n := by unfold tiny; positivity
    have hN := rowNorm_nonneg W
    have hβ := biasNorm_nonneg b
    have weigh : ∀ (j : Fin k) (z : Fin n → ℝ) (c : ℝ), 0 ≤ c → (∀ r, |z r| ≤ c) → ∑ r, |z r| * |(W j r).val| ≤ rowNorm W * c := by
      intro j z c hc hz
      calc ∑ r, |z r| * |(W j r).val| ≤ ∑ r, c * |(W j r).val| := Finset.sum_le_sum fun r _ => mul_le_mul_of_nonneg_right (hz r) (abs_nonneg _)
        _ = (∑ r, |(W j r).val|) * c := by rw [← Finset.mul_sum, mul_comm]
        _ ≤ rowNorm W * c := mul_le_mul_of_nonneg_right (le_rowNorm W j) hc
    have hsize : ∀ i j, linearSize (X i) (W j) (b j) ≤ rowNorm W * (p.A + p.d) + biasNorm b := fun i j =>
      add_le_add (weigh j (fun r => (X i r).val) _ (by linarith) (hp.val_le i)) (le_biasNorm b j)
    have herr := fun i j => linear_error h hp.finite hW hb i j (by
      refine le_trans (mul_le_mul_of_nonneg_left ?_ (by positivity)) hmax
      linarith [hsize i j])
    refine ⟨⟨by simp only [after]; positivity, by simp only [after]; positivity⟩, fun i j => (herr i j).1, fun i j => ?_, fun i j => ?_, fun i j => ?_⟩
    · obtain ⟨z, -, hz⟩ := h i j
      rw [hz]
      exact isFloat_add _ _
    · refine (abs_add_le _ _).trans (add_le_add ?_ (le_biasNorm b j))
      refine (Finset.abs_sum_le_sum_abs _ _).trans ?_
      simp only [abs_mul]
      exact weigh j (T i) _ hA (hp.size i)
    · have e1 := (herr i j).2
      have e2 : |FloatDotP.linear (X i) (W j) (b j) - Spec.linear T (fun j r => (W j r).val) (fun j => (b j).val) i j| ≤ rowNorm W * p.d := by
        unfold FloatDotP.linear Spec.linear
        rw [add_sub_add_right_eq_sub, ← Finset.sum_sub_distrib]
        refine (Finset.abs_sum_le_sum_abs _ _).trans ?_
        simp only [← sub_mul, abs_mul]
        exact weigh j (fun r => (X i r).val - T i r) _ hd (hp.error i)
      have e3 := abs_sub_le (Y i j).val (FloatDotP.linear (X i) (W j) (b j)) (Spec.linear T (fun j r => (W j r).val) (fun j => (b j).val) i j)
      have e4 := mul_le_mul_of_nonneg_left (hsize i j) hg0
      unfold gam at e4
      simp only [layer, after, gam, tiny]
      linarith
  | batchNorm mean var gamma beta eps =>
    obtain ⟨hu', hm, hb, k1, k2, k3⟩ := hf
    have hC := factorNorm_nonneg var gamma eps
    have hμ := biasNorm_nonneg mean
    have hβ := biasNorm_nonneg beta
    have err := fun i j => batchNorm_error hq hρ hρ' (hu' j) (hm j) (hb j) (hp.finite i j) (h i j) (M := p.A + p.d + biasNorm mean)
      ((abs_sub _ _).trans (add_le_add (hp.val_le i j) (le_biasNorm mean j))) (le_factorNorm var gamma eps j) (le_biasNorm beta j) k1 k2 k3
    refine ⟨⟨by simp only [after]; positivity, by simp only [after]; positivity⟩, fun i j => (err i j).1, fun i j => isFloat_mulAdd (h i j),
      fun i j => ?_, fun i j => ?_⟩
    · simp only [layer, normalise_eq]
      refine (abs_add_le _ _).trans (add_le_add ?_ (le_biasNorm beta j))
      rw [abs_mul, mul_comm]
      exact mul_le_mul (le_factorNorm var gamma eps j) ((abs_sub _ _).trans (add_le_add (hp.size i j) (le_biasNorm mean j))) (abs_nonneg _) hC
    · have e1 := (err i j).2
      have e2 := mul_le_mul (le_factorNorm var gamma eps j) (hp.error i j) (abs_nonneg _) hC
      rw [← abs_mul] at e2
      have e3 := abs_sub_le (Y i j).val (scaled (mean j).val (var j).val (gamma j).val (beta j).val eps.val (X i j).val)
        (scaled (mean j).val (var j).val (gamma j).val (beta j).val eps.val (T i j))
      rw [show scaled (mean j).val (var j).val (gamma j).val (beta j).val eps.val (X i j).val -
        scaled (mean j).val (var j).val (gamma j).val (beta j).val eps.val (T i j) =
          (gamma j).val / √((var j).val + eps.val) * ((X i j).val - T i j) by unfold scaled; ring] at e3
      simp only [layer, after, normalise_eq]
      linarith
  | relu =>
    refine ⟨hp.nonneg, fun i j => ?_, fun i j => ?_, fun i j => ?_, fun i j => ?_⟩
    · rw [h i j]; exact (relu_exact (hp.finite i j)).1
    · rw [h i j]
      unfold Float.relu
      split_ifs
      · exact hp.isFloat i j
      · exact isFloat_zero
    · have := relu_lipschitz (T i j) 0
      rw [show Spec.relu 0 = 0 from max_self 0, sub_zero, sub_zero] at this
      exact this.trans (hp.size i j)
    · rw [h i j, (relu_exact (hp.finite i j)).2]
      exact (relu_lipschitz _ _).trans (hp.error i j)
  | leakyRelu alpha =>
    obtain ⟨ha, hmax⟩ := hf
    have near := fun i j => leakyRelu_near (R := R) ha (hp.finite i j) (by
      rw [abs_mul]
      exact (mul_le_mul_of_nonneg_left (hp.val_le i j) (abs_nonneg _)).trans hmax)
    have l1 : 0 ≤ max 1 |alpha.val| := le_trans zero_le_one (le_max_left _ _)
    have size : ∀ x, |Spec.leakyRelu alpha.val x| ≤ max 1 |alpha.val| * |x| := fun x => by
      have := leakyRelu_lipschitz alpha.val x 0
      rwa [show Spec.leakyRelu alpha.val 0 = 0 from if_pos le_rfl, sub_zero, sub_zero] at this
    refine ⟨⟨by simp only [after]; positivity, by simp only [after]; positivity⟩, fun i j => ?_, fun i j => ?_, fun i j => ?_, fun i j => ?_⟩
    · rw [h i j]; exact (near i j).1
    · rw [h i j]
      unfold Float.leakyRelu
      split_ifs
      · exact isFloat_mul _ _
      · exact hp.isFloat i j
    · exact (size _).trans (mul_le_mul_of_nonneg_left (hp.size i j) l1)
    · rw [h i j]
      have e1 := (near i j).2
      have e2 := (leakyRelu_lipschitz alpha.val (X i j).val (T i j)).trans (mul_le_mul_of_nonneg_left (hp.error i j) l1)
      have e3 := mul_le_mul_of_nonneg_left ((size (X i j).val).trans (mul_le_mul_of_nonneg_left (hp.val_le i j) l1)) hu.le
      have e4 := abs_sub_le (Float.leakyRelu R alpha (X i j)).val (Spec.leakyRelu alpha.val (X i j).val) (Spec.leakyRelu alpha.val (T i j))
      simp only [layer, after]
      linarith
  | elu alpha =>
    obtain ⟨ha, hmax⟩ := hf
    have l1 : 0 ≤ max 1 |alpha.val| := le_trans zero_le_one (le_max_left _ _)
    have err := fun i j => elu_error hF hε hε' ha (hp.finite i j) hmax
    refine ⟨⟨by simp only [after]; positivity, by simp only [after]; positivity⟩, fun i j => ?_, fun i j => ?_, fun i j => ?_, fun i j => ?_⟩
    · rw [h i j]; exact (err i j).1
    · rw [h i j]
      unfold Float.elu
      split_ifs
      · exact isFloat_mul _ _
      · exact hp.isFloat i j
    · have := elu_lipschitz alpha.val (T i j) 0
      rw [show Spec.elu alpha.val 0 = 0 from if_pos le_rfl, sub_zero, sub_zero] at this
      exact this.trans (mul_le_mul_of_nonneg_left (hp.size i j) l1)
    · rw [h i j]
      have e1 := (err i j).2
      have e2 := (elu_lipschitz alpha.val (X i j).val (T i j)).trans (mul_le_mul_of_nonneg_left (hp.error i j) l1)
      have e4 := abs_sub_le (Float.elu R F alpha (X i j)).val (Spec.elu alpha.val (X i j).val) (Spec.elu alpha.val (T i j))
      simp only [layer, after]
      linarith
  | sigmoid =>
    have range : ∀ x, 0 ≤ Spec.sigmoid x ∧ Spec.sigmoid x ≤ 1 := fun x => by
      unfold Spec.sigmoid
      refine ⟨by positivity, ?_⟩
      rw [div_le_one (by positivity)]
      linarith [Real.exp_pos (-x)]
    have fin : ∀ i j, (Float.sigmoid R F (X i j)).Finite := fun i j => by
      obtain ⟨y, hy, -, he⟩ := sigmoid_range hF (by rintro h0; have := hp.finite i j; rw [h0] at this; exact this) (hp.isFloat i j)
      rw [he]
      exact ne_top_of_le_ne_top ENNReal.one_ne_top hy
    refine ⟨⟨by simp only [after]; positivity, by simp only [after]; positivity⟩, fun i j => ?_, fun i j => ?_, fun i j => ?_, fun i j => ?_⟩
    · rw [h i j]; exact fin i j
    · rw [h i j]; exact isFloat_div _ _
    · show |Spec.sigmoid (T i j)| ≤ 1
      rw [abs_of_nonneg (range _).1]
      exact (range _).2
    · rw [h i j]
      have e1 := sigmoid_error hF hε hε' (hp.finite i j) (hp.isFloat i j)
      have e2 := sigmoid_lipschitz (X i j).val (T i j)
      have e3 := hp.error i j
      have e4 := abs_sub_le (Float.sigmoid R F (X i j)).val (Spec.sigmoid (X i j).val) (Spec.sigmoid (T i j))
      have e5 : (2.1 * u + 1.1 * ε) * Spec.sigmoid (X i j).val ≤ (2.1 * u + 1.1 * ε) * 1 := mul_le_mul_of_nonneg_left (range _).2 (by positivity)
      simp only [layer, after]
      linarith

/-! ## All layers -/

/-- **C114**. If nothing can overflow, the outputs of a network of any depth are finite and within the bound `afterAll` of those of exact
arithmetic, whatever the orders in which the sums are computed. -/
theorem network_near (hL : Accurate F q ε ρ) (c : Chain n m) {X : Fin B → Fin n → Flt} {Y : Fin B → Fin m → Flt}
    {T : Fin B → Fin n → ℝ} {p : Bounds} (hp : Within R X T p) (hf : FitsAll ε ρ c p) (h : c.Forward R F q X Y) :
    Within R Y (chain c T) (afterAll ε ρ c p) := by
  induction c generalizing p with
  | nil => cases h; exact hp
  | cons l c ih =>
    obtain ⟨Z, h1, h2⟩ := h
    exact ih (layer_near hL l hp hf.1 h1) hf.2 h2

/-- The inputs of the network as exact numbers. -/
theorem inputs_within {X : Fin B → Fin n → Flt} (hX : ∀ i j, (X i j).Finite) (hf : ∀ i j, IsFloat R (X i j)) {A : ℝ} (hA : 0 ≤ A)
    (h : ∀ i j, |(X i j).val| ≤ A) : Within R X (fun i j => (X i j).val) ⟨A, 0⟩ :=
  ⟨⟨hA, le_rfl⟩, hX, hf, h, fun i j => by rw [sub_self, abs_zero]⟩

/-- **C114** (predictions): if in exact arithmetic the output of class `j` is more than twice the bound above the others, the program
finds the same class. -/
theorem same_class (hL : Accurate F q ε ρ) (c : Chain n m) {X : Fin B → Fin n → Flt} {Y : Fin B → Fin m → Flt}
    {T : Fin B → Fin n → ℝ} {p : Bounds} (hp : Within R X T p) (hf : FitsAll ε ρ c p) (h : c.Forward R F q X Y) (i : Fin B) (j : Fin m)
    (hj : ∀ k, k ≠ j → chain c T i k + 2 * (afterAll ε ρ c p).d < chain c T i j) : ∀ k, k ≠ j → (Y i k).lt (Y i j) := by
  intro k hk
  have hw := network_near hL c hp hf h
  rw [lt_iff (hw.finite i k) (hw.finite i j)]
  have h1 := (abs_le.1 (hw.error i k)).2
  have h2 := (abs_le.1 (hw.error i j)).1
  have h3 := hj k hk
  linarith

/-- **C114** (reproducibility): two runs, with different orders of summation, fused or not, agree up to twice the bound. -/
theorem runs_agree (hL : Accurate F q ε ρ) (c : Chain n m) {X : Fin B → Fin n → Flt} {Y Y' : Fin B → Fin m → Flt}
    {T : Fin B → Fin n → ℝ} {p : Bounds} (hp : Within R X T p) (hf : FitsAll ε ρ c p) (h : c.Forward R F q X Y) (h' : c.Forward R F q X Y')
    (i : Fin B) (j : Fin m) : |(Y i j).val - (Y' i j).val| ≤ 2 * (afterAll ε ρ c p).d := by
  have h1 := (network_near hL c hp hf h).error i j
  have h2 := (network_near hL c hp hf h').error i j
  have h3 := abs_sub_le (Y i j).val (chain c T i j) (Y' i j).val
  rw [abs_sub_comm (chain c T i j)] at h3
  linarith

/-! ## The bound for `Linear` and ReLU -/

/-- The layers are `Linear`, with at most `w` inputs, sums of weights up to `N` and biases up to `β`, and ReLU; there are `L` `Linear` ones. -/
inductive Plain (w : ℕ) (N β : ℝ) : {n m : ℕ} → Chain n m → ℕ → Prop
  | nil {n : ℕ} : Plain w N β (.nil (n := n)) 0
  | linear {n k m L : ℕ} {W : Fin k → Fin n → Flt} {b : Fin k → Flt} {c : Chain k m} (hn : n ≤ w) (hW : ∀ j r, (W j r).Finite)
      (hb : ∀ j, (b j).Finite) (hN : rowNorm W ≤ N) (hβ : biasNorm b ≤ β) (h : Plain w N β c L) : Plain w N β (.cons (.linear W b) c) (L + 1)
  | relu {n m L : ℕ} {c : Chain n m} (h : Plain w N β c L) : Plain w N β (.cons .relu c) L

/-- The bounds after `l` `Linear` layers. -/
def plain (w : ℕ) (N β A : ℝ) (l : ℕ) : Bounds :=
  ⟨N ^ l * (A + l * β), ((1 + gam w) ^ l - 1) * (N ^ l * (A + l * β)) + l * tiny w * ((1 + gam w) * N) ^ l⟩

theorem gam_mono {n w : ℕ} (h : n ≤ w) : gam n ≤ gam w :=
  sub_le_sub_right (pow_le_pow_right₀ (by linarith [u_pos]) (by omega)) 1

theorem gam_nonneg (n : ℕ) : 0 ≤ gam n := sub_nonneg.2 (one_le_pow₀ (by linarith [u_pos]))

theorem tiny_nonneg (n : ℕ) : 0 ≤ tiny n := by
  have := u_pos
  have := η_pos
  unfold tiny
  positivity

theorem tiny_mono {n w : ℕ} (h : n ≤ w) : tiny n ≤ tiny w := by
  have hu := u_pos
  have hη := η_pos
  have hn : (n : ℝ) ≤ w := by exact_mod_cast h
  unfold tiny
  refine mul_le_mul (mul_le_mul_of_nonneg_right (by linarith) hη.le) (pow_le_pow_right₀ (by linarith) (by omega)) (by positivity) (by positivity)

theorem plain_nonneg {w : ℕ} {N β A : ℝ} (hN : 0 ≤ N) (hβ : 0 ≤ β) (hA : 0 ≤ A) (l : ℕ) : 0 ≤ (plain w N β A l).A ∧ 0 ≤ (plain w N β A l).d := by
  have h1 := gam_nonneg w
  have h2 := tiny_nonneg w
  have h3 : 0 ≤ (1 + gam w) ^ l - 1 := sub_nonneg.2 (one_le_pow₀ (by linarith))
  exact ⟨by unfold plain; positivity, by unfold plain; positivity⟩

/-- One more layer. -/
theorem plain_step {w n : ℕ} {N β A N' β' : ℝ} {p : Bounds} {l : ℕ} (hN : 1 ≤ N) (hβ : 0 ≤ β) (hA : 0 ≤ A) (hn : n ≤ w) (hN' : N' ≤ N) (hβ' : β' ≤ β)
    (h0 : 0 ≤ N') (hb0 : 0 ≤ β') (hp0 : 0 ≤ p.A ∧ 0 ≤ p.d) (hp : p.A ≤ (plain w N β A l).A ∧ p.d ≤ (plain w N β A l).d) :
    N' * p.A + β' ≤ (plain w N β A (l + 1)).A ∧
      N' * p.d + gam n * (N' * (p.A + p.d) + β') + tiny n ≤ (plain w N β A (l + 1)).d ∧
      (1 + gam n) * (N' * (p.A + p.d) + β') + tiny n ≤ (plain w N β A (l + 1)).A + (plain w N β A (l + 1)).d := by
  have hg := gam_nonneg w
  have ht := tiny_nonneg w
  have hN0 : 0 ≤ N := by linarith
  obtain ⟨hq1, hq2⟩ := plain_nonneg (w := w) hN0 hβ hA l
  set q := plain w N β A l with hq
  set g := 1 + gam w with hgd
  have hg1 : 1 ≤ g := by linarith
  have pw : 1 ≤ N ^ (l + 1) := one_le_pow₀ hN
  set S := N ^ (l + 1) * (A + ((l + 1 : ℕ) : ℝ) * β) with hS
  have eqA : N * q.A + β ≤ S := by
    have e : N * q.A = N ^ (l + 1) * (A + l * β) := by rw [hq]; simp only [plain]; rw [pow_succ]; ring
    have e2 : S = N ^ (l + 1) * (A + l * β) + N ^ (l + 1) * β := by rw [hS]; push_cast; ring
    have e3 : 1 * β ≤ N ^ (l + 1) * β := mul_le_mul_of_nonneg_right pw hβ
    linarith
  have hAle : N' * p.A ≤ N * q.A := mul_le_mul hN' hp.1 hp0.1 hN0
  have hdle : N' * p.d ≤ N * q.d := mul_le_mul hN' hp.2 hp0.2 hN0
  have hin : N' * (p.A + p.d) + β' ≤ S + N * q.d := by linarith
  have hin0 : 0 ≤ N' * (p.A + p.d) + β' := by have := mul_nonneg h0 (add_nonneg hp0.1 hp0.2); linarith
  have hgn : gam n * (N' * (p.A + p.d) + β') ≤ gam w * (S + N * q.d) := mul_le_mul (gam_mono hn) hin hin0 hg
  have htn := tiny_mono hn
  -- the sum in terms of the previous bound
  have hqd : q.d = (g ^ l - 1) * q.A + l * tiny w * (g * N) ^ l := by rw [hq]; rfl
  have goal' : g * (N * q.d) + gam w * S + tiny w ≤ (g ^ (l + 1) - 1) * S + ((l + 1 : ℕ) : ℝ) * tiny w * (g * N) ^ (l + 1) := by
    have f1 : g * (N * q.d) = (g ^ (l + 1) - g) * (N * q.A) + l * tiny w * (g * N) ^ (l + 1) := by rw [hqd, pow_succ, pow_succ]; ring
    have f2 : 0 ≤ g ^ (l + 1) - g := by
      have : g ^ 1 ≤ g ^ (l + 1) := pow_le_pow_right₀ hg1 (by omega)
      rw [pow_one] at this
      linarith
    have f3 : (g ^ (l + 1) - g) * (N * q.A) ≤ (g ^ (l + 1) - g) * S := mul_le_mul_of_nonneg_left (by linarith) f2
    have f4 : 1 ≤ (g * N) ^ (l + 1) := one_le_pow₀ (one_le_mul_of_one_le_of_one_le hg1 hN)
    have f5 : tiny w * 1 ≤ tiny w * (g * N) ^ (l + 1) := mul_le_mul_of_nonneg_left f4 ht
    have f6 : gam w = g - 1 := by rw [hgd]; ring
    have f7 : ((l + 1 : ℕ) : ℝ) * tiny w * (g * N) ^ (l + 1) = l * tiny w * (g * N) ^ (l + 1) + tiny w * (g * N) ^ (l + 1) := by push_cast; ring
    have f8 : (g - 1) * S = g * S - S := by ring
    have f9 : (g ^ (l + 1) - g) * S = g ^ (l + 1) * S - g * S := by ring
    have f10 : (g ^ (l + 1) - 1) * S = g ^ (l + 1) * S - S := by ring
    rw [f1, f6, f7, f8, f10]
    linarith
  have e : g * (N * q.d) + gam w * S = N * q.d + gam w * (S + N * q.d) := by rw [hgd]; ring
  refine ⟨?_, ?_, ?_⟩
  · show _ ≤ S
    linarith
  · show _ ≤ (g ^ (l + 1) - 1) * S + ((l + 1 : ℕ) : ℝ) * tiny w * (g * N) ^ (l + 1)
    linarith
  · show _ ≤ S + ((g ^ (l + 1) - 1) * S + ((l + 1 : ℕ) : ℝ) * tiny w * (g * N) ^ (l + 1))
    linarith

theorem plain_mono {w : ℕ} {N β A : ℝ} (hN : 1 ≤ N) (hβ : 0 ≤ β) (hA : 0 ≤ A) :
    Monotone fun l => (plain w N β A l).A + (plain w N β A l).d :=
  monotone_nat_of_le_succ fun l => by
    have hp := plain_nonneg (w := w) (N := N) (by linarith) hβ hA l
    have := (plain_step (w := w) (n := w) (N' := 1) (β' := 0) (p := plain w N β A l) hN hβ hA le_rfl hN hβ zero_le_one le_rfl
      hp ⟨le_rfl, le_rfl⟩).2.2
    have h1 : 0 ≤ gam w * ((plain w N β A l).A + (plain w N β A l).d) := mul_nonneg (gam_nonneg w) (by linarith)
    have h2 := tiny_nonneg w
    show (plain w N β A l).A + (plain w N β A l).d ≤ (plain w N β A (l + 1)).A + (plain w N β A (l + 1)).d
    linarith

theorem plain_fits {w : ℕ} {N β A : ℝ} (hN : 1 ≤ N) (hβ : 0 ≤ β) (hA : 0 ≤ A) {c : Chain n m} {L : ℕ} (hc : Plain w N β c L) {l : ℕ} {p : Bounds}
    (hp0 : 0 ≤ p.A ∧ 0 ≤ p.d) (hp : p.A ≤ (plain w N β A l).A ∧ p.d ≤ (plain w N β A l).d)
    (hmax : (plain w N β A (l + L)).A + (plain w N β A (l + L)).d ≤ big) :
    FitsAll ε ρ c p ∧ (afterAll ε ρ c p).d ≤ (plain w N β A (l + L)).d := by
  induction hc generalizing l p with
  | nil => exact ⟨trivial, hp.2⟩
  | @linear n k m L W b c hn hW hb hN' hβ' _ ih =>
    obtain ⟨s1, s2, s3⟩ := plain_step hN hβ hA hn hN' hβ' (rowNorm_nonneg W) (biasNorm_nonneg b) hp0 hp
    have e : l + (L + 1) = l + 1 + L := by omega
    rw [e] at hmax ⊢
    obtain ⟨r1, r2⟩ := ih (l := l + 1) (p := after ε ρ (.linear W b) p)
      ⟨add_nonneg (mul_nonneg (rowNorm_nonneg W) hp0.1) (biasNorm_nonneg b),
        add_nonneg (add_nonneg (mul_nonneg (rowNorm_nonneg W) hp0.2) (mul_nonneg (gam_nonneg n)
          (add_nonneg (mul_nonneg (rowNorm_nonneg W) (add_nonneg hp0.1 hp0.2)) (biasNorm_nonneg b)))) (tiny_nonneg n)⟩ ⟨s1, s2⟩ hmax
    refine ⟨⟨⟨hW, hb, ?_⟩, r1⟩, r2⟩
    have hm := (plain_mono (w := w) hN hβ hA (Nat.le_add_right (l + 1) L)).trans hmax
    refine le_trans (le_of_eq ?_) (s3.trans hm)
    unfold gam tiny
    ring
  | relu _ ih =>
    obtain ⟨r1, r2⟩ := ih hp0 hp hmax
    exact ⟨⟨trivial, r1⟩, r2⟩

/-- **C114** (`Linear` and ReLU, in closed form): with `L` `Linear` layers of at most `w` inputs, the error is at most
`((1 + γ) ^ L - 1) N ^ L (A + L β)` with `γ = (1 + u) ^ (2 w + 1) - 1`, apart from tiny numbers: relative to what the exact outputs may
be, it grows linearly with the depth and the width. -/
theorem deep_relu (hL : Accurate F q ε ρ) {w L : ℕ} {N β A : ℝ} (hN : 1 ≤ N) (hβ : 0 ≤ β) (hA : 0 ≤ A)
    {c : Chain n m} (hc : Plain w N β c L) {X : Fin B → Fin n → Flt} {Y : Fin B → Fin m → Flt} (hX : ∀ i j, (X i j).Finite)
    (hXf : ∀ i j, IsFloat R (X i j)) (hXA : ∀ i j, |(X i j).val| ≤ A) (h : c.Forward R F q X Y)
    (hmax : (plain w N β A L).A + (plain w N β A L).d ≤ big) (i : Fin B) (j : Fin m) :
    (Y i j).Finite ∧ |(Y i j).val - chain c (fun i j => (X i j).val) i j| ≤
      ((1 + gam w) ^ L - 1) * (N ^ L * (A + L * β)) + L * tiny w * ((1 + gam w) * N) ^ L := by
  have h0 : (plain w N β A 0).A = A ∧ (plain w N β A 0).d = 0 := by simp [plain]
  obtain ⟨r1, r2⟩ := plain_fits (ε := ε) (ρ := ρ) (l := 0) (p := ⟨A, 0⟩) hN hβ hA hc ⟨hA, le_rfl⟩ ⟨h0.1.ge, h0.2.ge⟩ (by rwa [Nat.zero_add])
  have hw := network_near hL c (inputs_within hX hXf hA hXA) r1 h
  rw [Nat.zero_add] at r2
  exact ⟨hw.finite i j, (hw.error i j).trans r2⟩

/-! ## Probabilities -/

theorem softmax_shift {x y : Fin m → ℝ} {d : ℝ} (h : ∀ r, |x r - y r| ≤ d) (j : Fin m) :
    |softmax x j - softmax y j| ≤ Real.exp (2 * d) - 1 := by
  have key : ∀ {x y : Fin m → ℝ}, (∀ r, |x r - y r| ≤ d) → softmax x j - softmax y j ≤ Real.exp (2 * d) - 1 := by
    intro x y h
    have hd : 0 ≤ d := (abs_nonneg _).trans (h j)
    have pos : ∀ z : Fin m → ℝ, 0 < ∑ r, Real.exp (z r) := fun z => Finset.sum_pos (fun r _ => Real.exp_pos _) ⟨j, Finset.mem_univ j⟩
    have e1 : softmax x j ≤ Real.exp (2 * d) * softmax y j := by
      unfold softmax
      rw [← mul_div_assoc, div_le_div_iff₀ (pos x) (pos y)]
      have f1 : Real.exp (x j) ≤ Real.exp d * Real.exp (y j) := by
        rw [← Real.exp_add]
        exact Real.exp_le_exp.2 (by linarith [(abs_le.1 (h j)).2])
      have f2 : ∑ r, Real.exp (y r) ≤ Real.exp d * ∑ r, Real.exp (x r) := by
        rw [Finset.mul_sum]
        refine Finset.sum_le_sum fun r _ => ?_
        rw [← Real.exp_add]
        exact Real.exp_le_exp.2 (by linarith [(abs_le.1 (h r)).1])
      calc Real.exp (x j) * ∑ r, Real.exp (y r) ≤ (Real.exp d * Real.exp (y j)) * (Real.exp d * ∑ r, Real.exp (x r)) :=
            mul_le_mul f1 f2 (pos y).le (by positivity)
        _ = Real.exp (2 * d) * Real.exp (y j) * ∑ r, Real.exp (x r) := by rw [two_mul, Real.exp_add]; ring
    have e2 : softmax y j ≤ 1 := by
      unfold softmax
      rw [div_le_one (pos y)]
      exact Finset.single_le_sum (f := fun r => Real.exp (y r)) (fun r _ => (Real.exp_pos _).le) (Finset.mem_univ j)
    have e3 : 1 ≤ Real.exp (2 * d) := Real.one_le_exp (by linarith)
    have e4 : (Real.exp (2 * d) - 1) * softmax y j ≤ (Real.exp (2 * d) - 1) * 1 := mul_le_mul_of_nonneg_left e2 (by linarith)
    linarith
  refine abs_le.2 ⟨?_, key h⟩
  have := key (x := y) (y := x) fun r => by rw [abs_sub_comm]; exact h r
  linarith

/-- **C114** (probabilities): with a softmax after the chain, the probabilities differ from the exact ones by at most
`exp (2 d) - 1 + 2 (m + 1) u + 3 ε`, where `d` is the bound for the chain. -/
theorem network_softmax (hL : Accurate F q ε ρ) (c : Chain n m) {X : Fin B → Fin n → Flt}
    {Y P : Fin B → Fin m → Flt} {T : Fin B → Fin n → ℝ} {p : Bounds} (hp : Within R X T p) (hf : FitsAll ε ρ c p) (h : c.Forward R F q X Y)
    (hs : SoftmaxForward R F Y P) (hm : m ≤ 2 ^ 20) (i : Fin B) (j : Fin m) :
    |(P i j).val - Spec.softmax (chain c T) i j| ≤ Real.exp (2 * (afterAll ε ρ c p).d) - 1 + (2 * (m + 1) * u + 3 * ε) := by
  have hw := network_near hL c hp hf h
  have h1 := softmax_error hs hw.finite hm hL.exp.neg hL.exp_nonneg hL.exp_le i j
  have h2 := softmax_shift (fun r => hw.error i r) j
  have h3 := abs_sub_le (P i j).val (softmax (fun r => (Y i r).val) j) (softmax (chain c T i) j)
  show |(P i j).val - softmax (chain c T i) j| ≤ _
  linarith

/-! ## There are such runs -/

/-- No layer `Linear` without inputs. -/
def HasInputs : {n m : ℕ} → Chain n m → Prop
  | _, _, .nil => True
  | n, _, .cons (.linear _ _) c => 0 < n ∧ HasInputs c
  | _, _, .cons _ c => HasInputs c

theorem forward_exists (F : Libm R) (q : Sqrt) (c : Chain n m) (hc : HasInputs c) (X : Fin B → Fin n → Flt) : ∃ Y, c.Forward R F q X Y := by
  induction c with
  | nil => exact ⟨X, rfl⟩
  | cons l c ih =>
    cases l with
    | linear W b =>
      have hn : ∀ (i : Fin B) j, List.ofFn (fun r => (X i r, W j r)) ≠ [] := fun i j => by
        rw [Ne, List.ofFn_eq_nil_iff]
        exact hc.1.ne'
      choose z hz using fun i j => dot_exists (R := R) _ (hn i j)
      obtain ⟨Y, hY⟩ := ih hc.2 fun i j => add R (z i j) (b j)
      exact ⟨Y, _, fun i j => ⟨z i j, hz i j, rfl⟩, hY⟩
    | batchNorm mean var gamma beta eps => obtain ⟨Y, hY⟩ := ih hc _; exact ⟨Y, _, fun _ _ => Or.inl rfl, hY⟩
    | relu => obtain ⟨Y, hY⟩ := ih hc _; exact ⟨Y, _, fun _ _ => rfl, hY⟩
    | leakyRelu alpha => obtain ⟨Y, hY⟩ := ih hc _; exact ⟨Y, _, fun _ _ => rfl, hY⟩
    | elu alpha => obtain ⟨Y, hY⟩ := ih hc _; exact ⟨Y, _, fun _ _ => rfl, hY⟩
    | sigmoid => obtain ⟨Y, hY⟩ := ih hc _; exact ⟨Y, _, fun _ _ => rfl, hY⟩

/-- `Linear`, ReLU, `Linear` with two numbers in each layer and all weights 1. -/
def small : Chain 2 2 :=
  .cons (k := 2) (.linear (fun _ _ => 1) fun _ => 0) (.cons .relu (.cons (k := 2) (.linear (fun _ _ => 1) fun _ => 0) .nil))

theorem small_plain : Plain 2 2 0 small 2 := by
  have hN : rowNorm (fun (_ : Fin 2) (_ : Fin 2) => (1 : Flt)) ≤ 2 := by simp [rowNorm, val_one]
  have hβ : biasNorm (fun _ : Fin 2 => (0 : Flt)) ≤ 0 := by simp [biasNorm, val_zero]
  exact .linear le_rfl (fun _ _ => finite_one) (fun _ => finite_zero) hN hβ
    (.relu (.linear le_rfl (fun _ _ => finite_one) (fun _ => finite_zero) hN hβ .nil))

theorem gam_two : gam 2 ≤ 1 / 10 ^ 6 := by unfold gam u; norm_num

/-- The inputs 1 and 1: the outputs are 4 up to the bound. -/
example : ∃ Y : Fin 1 → Fin 2 → Flt, small.Forward binary32 libm sqrtLib (fun _ _ => 1) Y ∧ ∀ i j, (Y i j).Finite ∧ |(Y i j).val - 4| ≤ 1 / 10 ^ 4 := by
  obtain ⟨Y, hY⟩ := forward_exists (B := 1) libm sqrtLib small ⟨by norm_num, by norm_num, trivial⟩ fun _ _ => 1
  refine ⟨Y, hY, fun i j => ?_⟩
  have hu := u_small
  have hg := gam_two
  have hg0 := gam_nonneg 2
  have ht0 := tiny_nonneg 2
  have ht : tiny 2 ≤ 1 / 10 ^ 6 := by unfold tiny u η; norm_num
  have hd : ((1 + gam 2) ^ 2 - 1) * (2 ^ 2 * (1 + ((2 : ℕ) : ℝ) * 0)) + ((2 : ℕ) : ℝ) * tiny 2 * ((1 + gam 2) * 2) ^ 2 ≤ 1 / 10 ^ 4 := by
    have e1 : (1 + gam 2) ^ 2 ≤ 1 + 3 / 10 ^ 6 := by
      have h1 := mul_le_mul hg hg hg0 (by norm_num)
      have h2 : (1 + gam 2) ^ 2 = 1 + 2 * gam 2 + gam 2 * gam 2 := by ring
      linarith
    have e2 : 0 ≤ (1 + gam 2) ^ 2 := by positivity
    have e3 : tiny 2 * (1 + gam 2) ^ 2 ≤ 1 / 10 ^ 6 * (1 + gam 2) ^ 2 := mul_le_mul_of_nonneg_right ht e2
    have e4 : ((2 : ℕ) : ℝ) * tiny 2 * ((1 + gam 2) * 2) ^ 2 = 8 * (tiny 2 * (1 + gam 2) ^ 2) := by push_cast; ring
    rw [e4]
    linarith
  have key := deep_relu (n := 2) (m := 2) ⟨libm_full, u_pos.le, hu.trans (by norm_num), sqrtLib_near, u_pos.le, hu.trans (by norm_num)⟩ (A := 1) (by norm_num) le_rfl zero_le_one small_plain
    (X := fun _ _ => 1) (fun _ _ => finite_one) (fun _ _ => ?_) (fun _ _ => by rw [val_one, abs_one]) hY ?_ i j
  · refine ⟨key.1, (le_of_eq ?_).trans (key.2.trans hd)⟩
    have e : chain small (fun (_ : Fin 1) (_ : Fin 2) => (1 : Flt).val) i j = 4 := by
      simp only [small, chain, layer, Spec.linear, Spec.relu, val_one, val_zero, Fin.sum_univ_two]
      norm_num
    rw [e]
  · have := binary32.exact 1 0 (by norm_num) (by norm_num)
    rw [pow_zero, mul_one, Nat.cast_one] at this
    exact this
  · have h1 : (plain 2 2 0 1 2).A = 4 := by simp [plain]; norm_num
    have h2 : (plain 2 2 0 1 2).d ≤ 1 / 10 ^ 4 := hd
    rw [h1]
    refine le_trans (add_le_add le_rfl h2) ?_
    unfold big
    norm_num

/-- `BatchNorm1D` with mean 0 and variance 1 and a sigmoid. -/
example : FitsAll u u (.cons (.batchNorm (fun _ : Fin 2 => 0) (fun _ => 1) (fun _ => 1) (fun _ => 0) 1) (.cons .sigmoid .nil)) ⟨1, 0⟩ := by
  have hC : factorNorm (fun _ : Fin 2 => (1 : Flt)) (fun _ => 1) 1 ≤ 1 := by
    have : 1 ≤ √((1 : ℝ) + 1) := Real.le_sqrt_of_sq_le (by norm_num)
    simp only [factorNorm, val_one, ciSup_const]
    rw [abs_of_nonneg (by positivity), div_le_one (by linarith)]
    exact this
  have hC0 := factorNorm_nonneg (fun _ : Fin 2 => (1 : Flt)) (fun _ => 1) 1
  have hβ : biasNorm (fun _ : Fin 2 => (0 : Flt)) = 0 := by simp [biasNorm, val_zero]
  have usable : Usable 1 1 1 := ⟨⟨⟨1, rfl⟩, finite_one, by rw [val_one]; norm_num⟩, ⟨finite_one, by rw [val_one]; norm_num⟩,
    ⟨⟨1, rfl⟩, finite_one, by rw [val_one]; norm_num, by rw [val_one]⟩⟩
  refine ⟨⟨fun _ => usable, fun _ => finite_zero, fun _ => finite_zero, ?_, hC.trans (by norm_num), ?_⟩, trivial, trivial⟩
  · rw [hβ]; norm_num
  · rw [hβ]
    refine le_trans ?_ (by norm_num : (1 : ℝ) ≤ 2 ^ 120)
    linarith

end

end DW.Props.FloatNetP
