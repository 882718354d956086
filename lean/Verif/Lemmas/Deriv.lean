import Verif.Lemmas.Matrix
import Verif.Spec.Layers
import Mathlib.Analysis.Calculus.Deriv.Basic
import Mathlib.Analysis.Calculus.Deriv.Add
import Mathlib.Analysis.Calculus.Deriv.Mul
import Mathlib.Analysis.Calculus.Deriv.Inv
import Mathlib.Analysis.Calculus.Deriv.Comp
import Mathlib.Analysis.Calculus.TangentCone.Real
import Mathlib.Analysis.SpecialFunctions.ExpDeriv
import Mathlib.Tactic.FieldSimp
import Mathlib.Tactic.Linarith
/-! Lemmas about gradients of the layer functions. -/

set_option autoImplicit false

namespace DW.DerivL

open DW.Spec DW.MatL

variable {ι κ : Type} [Fintype ι] [Fintype κ]

/-- The gradient of an affine function. -/
theorem backprop_affine {f : (ι → ℝ) → (κ → ℝ)} {x : ι → ℝ} {bwd : (κ → ℝ) → (ι → ℝ)}
    (L : (ι → ℝ) → (κ → ℝ)) (c : κ → ℝ)
    (hadd : ∀ y z k, L (y + z) k = L y k + L z k) (hsmul : ∀ (a : ℝ) y k, L (a • y) k = a * L y k)
    (hf : ∀ y k, f y k = L y k + c k)
    (hb : ∀ (g : κ → ℝ) (v : ι → ℝ), ∑ k, g k * L v k = ∑ i, bwd g i * v i) : Backprop f x bwd := by
  let L' : (ι → ℝ) →ₗ[ℝ] (κ → ℝ) :=
    { toFun := L, map_add' := fun y z => funext fun k => hadd y z k,
      map_smul' := fun a y => funext fun k => hsmul a y k }
  obtain ⟨J, hJ, hJ'⟩ := backprop_of_linear L' x hb
  refine ⟨J, ?_, hJ'⟩
  have : f = fun y => L' y + c := funext fun y => funext fun k => hf y k
  rw [this]
  exact hJ.add_const c

/-- The gradient of an element-wise function. -/
theorem backprop_map {f : ℝ → ℝ} {d : ι → ℝ} {x : ι → ℝ} (h : ∀ i, HasDerivAt f (d i) (x i)) :
    Backprop (fun y i => f (y i)) x (fun g i => g i * d i) := by
  refine backprop_of_coords (fun i => (d i) • (ContinuousLinearMap.proj i : (ι → ℝ) →L[ℝ] ℝ)) (fun i => ?_)
    (fun g v => ?_)
  · exact (h i).comp_hasFDerivAt x (ContinuousLinearMap.proj (R := ℝ) (φ := fun _ : ι => ℝ) i).hasFDerivAt
  · simp [mul_assoc]

/-- `f` agrees with a function of known derivative to the right of `x`. -/
theorem deriv_of_right {f h : ℝ → ℝ} {d e x : ℝ} (hf : HasDerivAt f d x) (hh : HasDerivAt h e x)
    (heq : ∀ y, x ≤ y → f y = h y) : d = e :=
  (uniqueDiffWithinAt_Ici x).eq_deriv _ hf.hasDerivWithinAt
    (hh.hasDerivWithinAt.congr (fun y hy => heq y hy) (heq x le_rfl))

theorem deriv_of_left {f h : ℝ → ℝ} {d e x : ℝ} (hf : HasDerivAt f d x) (hh : HasDerivAt h e x)
    (heq : ∀ y, y ≤ x → f y = h y) : d = e :=
  (uniqueDiffWithinAt_Iic x).eq_deriv _ hf.hasDerivWithinAt
    (hh.hasDerivWithinAt.congr (fun y hy => heq y hy) (heq x le_rfl))

open Classical in
/-- Wherever ReLU is differentiable its derivative is 1 above 0 and 0 elsewhere. -/
theorem relu_deriv {x d : ℝ} (h : HasDerivAt relu d x) : d = if 0 < x then 1 else 0 := by
  split
  · next hx => exact deriv_of_right h (hasDerivAt_id x) fun y hy => by simp [relu]; linarith
  · next hx =>
    push Not at hx
    exact deriv_of_left h (hasDerivAt_const x 0) fun y hy => by simp [relu]; linarith

open Classical in
theorem leakyRelu_deriv {a x d : ℝ} (h : HasDerivAt (leakyRelu a) d x) : d = if x < 0 then a else 1 := by
  split
  · next hx =>
    have h2 : HasDerivAt (fun y => a * y) (a * 1) x := (hasDerivAt_id x).const_mul a
    rw [mul_one] at h2
    exact deriv_of_left h h2 fun y hy => by rw [leakyRelu, if_neg (by linarith)]
  · next hx =>
    push Not at hx
    exact deriv_of_right h (hasDerivAt_id x) fun y hy => by rw [leakyRelu, if_pos (by linarith)]; rfl

open Classical in
theorem elu_deriv {a x d : ℝ} (h : HasDerivAt (elu a) d x) : d = if x < 0 then Real.exp x * a else 1 := by
  split
  · next hx =>
    have h2 : HasDerivAt (fun y => a * (Real.exp y - 1)) (a * Real.exp x) x :=
      ((Real.hasDerivAt_exp x).sub_const 1).const_mul a
    rw [mul_comm]
    exact deriv_of_left h h2 fun y hy => by rw [elu, if_neg (by linarith)]
  · next hx =>
    push Not at hx
    exact deriv_of_right h (hasDerivAt_id x) fun y hy => by rw [elu, if_pos (by linarith)]; rfl

theorem sigmoid_deriv (x : ℝ) : HasDerivAt sigmoid (sigmoid x * (1 - sigmoid x)) x := by
  have hpos : (1 + Real.exp (-x)) ≠ 0 := by positivity
  have h1 : HasDerivAt (fun y => 1 + Real.exp (-y)) (Real.exp (-x) * -1) x :=
    (((hasDerivAt_id x).neg).exp).const_add 1
  have h2 := h1.inv hpos
  have : sigmoid = fun y => (1 + Real.exp (-y))⁻¹ := by funext y; simp [sigmoid]
  rw [this]
  refine h2.congr_deriv ?_
  simp only [sigmoid]
  field_simp
  ring

variable {B n u : Nat}

theorem softmax_pos (X : Fin B → Fin n → ℝ) (i : Fin B) (j : Fin n) : 0 < ∑ k, Real.exp (X i k) :=
  Finset.sum_pos (fun k _ => Real.exp_pos _) ⟨j, Finset.mem_univ _⟩

theorem softmax_backprop (x : Fin B × Fin n → ℝ) :
    Backprop (fun y : Fin B × Fin n → ℝ => Function.uncurry (softmax (Function.curry y))) x
      (fun g p => softmax (Function.curry x) p.1 p.2 *
        (g p - ∑ k, g (p.1, k) * softmax (Function.curry x) p.1 k)) := by
  let s : Fin B → Fin n → ℝ := softmax (Function.curry x)
  let pr : Fin B × Fin n → (Fin B × Fin n → ℝ) →L[ℝ] ℝ := fun p => ContinuousLinearMap.proj p
  refine backprop_of_coords (fun p => (s p.1 p.2) • (pr p - ∑ k, (s p.1 k) • pr (p.1, k))) (fun p => ?_)
    (fun g v => ?_)
  · obtain ⟨i, j⟩ := p
    have hp : ∀ q, HasFDerivAt (fun y : Fin B × Fin n → ℝ => y q) (pr q) x := fun q => (pr q).hasFDerivAt
    have he : ∀ q, HasFDerivAt (fun y : Fin B × Fin n → ℝ => Real.exp (y q)) (Real.exp (x q) • pr q) x :=
      fun q => (hp q).exp
    have hS : HasFDerivAt (fun y : Fin B × Fin n → ℝ => ∑ k, Real.exp (y (i, k)))
        (∑ k, Real.exp (x (i, k)) • pr (i, k)) x := HasFDerivAt.fun_sum fun k _ => he (i, k)
    have hne : (∑ k, Real.exp (x (i, k))) ≠ 0 := (softmax_pos (Function.curry x) i j).ne'
    have hI := (hasDerivAt_inv hne).comp_hasFDerivAt x hS
    have hm := (he (i, j)).mul hI
    have hfun : (fun y : Fin B × Fin n → ℝ => Function.uncurry (softmax (Function.curry y)) (i, j)) =
        fun y => Real.exp (y (i, j)) * (Inv.inv ∘ fun y : Fin B × Fin n → ℝ => ∑ k, Real.exp (y (i, k))) y := by
      funext y
      simp [softmax, Function.uncurry, Function.curry, div_eq_mul_inv]
    rw [hfun]
    refine hm.congr_fderiv ?_
    ext v
    symm
    simp only [s, softmax, Function.curry, Function.comp]
    simp only [ContinuousLinearMap.smul_apply, ContinuousLinearMap.sub_apply, ContinuousLinearMap.add_apply,
      ContinuousLinearMap.sum_apply, smul_eq_mul]
    have : ∀ w : Fin n → ℝ, ∑ k, Real.exp (x (i, k)) / (∑ k, Real.exp (x (i, k))) * w k =
        (∑ k, Real.exp (x (i, k)) * w k) / ∑ k, Real.exp (x (i, k)) := fun w => by
      rw [div_eq_mul_inv, Finset.sum_mul]; exact Finset.sum_congr rfl fun k _ => by ring
    rw [this fun k => pr (i, k) v]
    field_simp
    ring
  · simp only [ContinuousLinearMap.smul_apply, ContinuousLinearMap.sub_apply, ContinuousLinearMap.sum_apply,
      smul_eq_mul, pr, ContinuousLinearMap.proj_apply]
    change ∑ p : Fin B × Fin n, g p * (s p.1 p.2 * (v p - ∑ k, s p.1 k * v (p.1, k))) =
      ∑ p : Fin B × Fin n, s p.1 p.2 * (g p - ∑ k, g (p.1, k) * s p.1 k) * v p
    rw [Fintype.sum_prod_type, Fintype.sum_prod_type]
    refine Finset.sum_congr rfl fun i _ => ?_
    simp only
    have e1 : ∑ j, g (i, j) * (s i j * (v (i, j) - ∑ k, s i k * v (i, k))) =
        ∑ j, g (i, j) * s i j * v (i, j) - (∑ j, g (i, j) * s i j) * ∑ k, s i k * v (i, k) := by
      rw [Finset.sum_mul, ← Finset.sum_sub_distrib]
      exact Finset.sum_congr rfl fun j _ => by ring
    have e2 : ∑ j, s i j * (g (i, j) - ∑ k, g (i, k) * s i k) * v (i, j) =
        ∑ j, g (i, j) * s i j * v (i, j) - (∑ j, g (i, j) * s i j) * ∑ k, s i k * v (i, k) := by
      rw [Finset.mul_sum, ← Finset.sum_sub_distrib]
      exact Finset.sum_congr rfl fun j _ => by ring
    rw [e1, e2]

/-! ### Linear -/

theorem linear_backprop_input (W : Fin u → Fin n → ℝ) (b : Fin u → ℝ) (x : Fin B × Fin n → ℝ) :
    Backprop (fun y : Fin B × Fin n → ℝ => Function.uncurry (linear (Function.curry y) W b)) x
      (fun g p => ∑ k, g (p.1, k) * W k p.2) := by
  refine backprop_affine (fun y p => ∑ j, y (p.1, j) * W p.2 j) (fun p => b p.2) (fun y z p => ?_)
    (fun a y p => ?_) (fun y p => rfl) (fun g v => ?_)
  · simp only [Pi.add_apply, add_mul, Finset.sum_add_distrib]
  · simp only [Pi.smul_apply, smul_eq_mul, Finset.mul_sum, mul_assoc]
  · rw [Fintype.sum_prod_type, Fintype.sum_prod_type]
    refine Finset.sum_congr rfl fun i _ => ?_
    simp only [Finset.mul_sum, Finset.sum_mul]
    rw [Finset.sum_comm]
    exact Finset.sum_congr rfl fun j _ => Finset.sum_congr rfl fun k _ => by ring

theorem linear_backprop_weight (X : Fin B → Fin n → ℝ) (b : Fin u → ℝ) (w : Fin u × Fin n → ℝ) :
    Backprop (fun y : Fin u × Fin n → ℝ => Function.uncurry (linear X (Function.curry y) b)) w
      (fun g p => ∑ i, g (i, p.1) * X i p.2) := by
  refine backprop_affine (fun y p => ∑ j, X p.1 j * y (p.2, j)) (fun p => b p.2) (fun y z p => ?_)
    (fun a y p => ?_) (fun y p => rfl) (fun g v => ?_)
  · simp only [Pi.add_apply, mul_add, Finset.sum_add_distrib]
  · simp only [Pi.smul_apply, smul_eq_mul, Finset.mul_sum]
    exact Finset.sum_congr rfl fun j _ => by ring
  · rw [Fintype.sum_prod_type, Fintype.sum_prod_type]
    simp only [Finset.mul_sum, Finset.sum_mul]
    rw [Finset.sum_comm]
    refine Finset.sum_congr rfl fun k _ => ?_
    rw [Finset.sum_comm]
    exact Finset.sum_congr rfl fun j _ => Finset.sum_congr rfl fun i _ => by ring

theorem linear_backprop_bias (X : Fin B → Fin n → ℝ) (W : Fin u → Fin n → ℝ) (b : Fin u → ℝ) :
    Backprop (fun y : Fin u → ℝ => Function.uncurry (linear X W y)) b (fun g k => ∑ i, g (i, k)) := by
  refine backprop_affine (fun y p => y p.2) (fun p => ∑ j, X p.1 j * W p.2 j) (fun y z p => rfl)
    (fun a y p => rfl) (fun y p => by simp only [Function.uncurry, linear]; ring) (fun g v => ?_)
  rw [Fintype.sum_prod_type, Finset.sum_comm]
  simp only [Finset.sum_mul]

end DW.DerivL
