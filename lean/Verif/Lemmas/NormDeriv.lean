import Verif.Spec.Norm
import Verif.Lemmas.Deriv
/-! The derivative of batch normalisation and of averages. -/

set_option autoImplicit false

namespace DW.NormL

open DW.Spec DW.MatL DW.DerivL

noncomputable section

variable {ι κ ι' κ' : Type} [Fintype ι] [Fintype κ] [Fintype ι'] [Fintype κ']

theorem mean_equiv (e : ι' ≃ ι) (f : ι → ℝ) : mean (fun i => f (e i)) = mean f := by
  unfold mean
  rw [Fintype.card_congr e, Equiv.sum_comp e]

theorem variance_equiv (e : ι' ≃ ι) (f : ι → ℝ) : variance (fun i => f (e i)) = variance f := by
  unfold variance
  rw [mean_equiv e f, mean_equiv e fun i => (f i - mean f) ^ 2]

theorem variance_nonneg (f : ι → ℝ) : 0 ≤ variance f := by
  unfold variance mean
  positivity

/-- Renaming inputs and outputs. -/
theorem backprop_reindex {f : (ι → ℝ) → (κ → ℝ)} {x : ι → ℝ} {bwd : (κ → ℝ) → (ι → ℝ)} (h : Backprop f x bwd)
    (e : ι' ≃ ι) (e' : κ' ≃ κ) :
    Backprop (fun (y : ι' → ℝ) (k : κ') => f (fun i => y (e.symm i)) (e' k)) (fun i => x (e i))
      (fun g i => bwd (fun k => g (e'.symm k)) (e i)) := by
  have h1 : Backprop (fun (y : ι' → ℝ) (i : ι) => y (e.symm i)) (fun i => x (e i)) (fun g i => g (e i)) := by
    refine backprop_affine (fun y i => y (e.symm i)) 0 (by simp) (by simp) (by simp) fun g v => ?_
    rw [← Equiv.sum_comp e]; simp
  have h2 : Backprop (fun (y : κ → ℝ) (k : κ') => y (e' k)) (f x) (fun g k => g (e'.symm k)) := by
    refine backprop_affine (fun y k => y (e' k)) 0 (by simp) (by simp) (by simp) fun g v => ?_
    rw [← Equiv.sum_comp e']; simp
  have hx : (fun i => (fun i => x (e i)) (e.symm i)) = x := by funext i; simp
  have h12 := backprop_comp h1 (b2 := bwd) (h := f) (by rw [hx]; exact h)
  have := backprop_comp h12 (h := fun y k => y (e' k)) (b2 := fun g k => g (e'.symm k)) (by rw [hx]; exact h2)
  exact this

/-- The input gradient of batch normalisation as `CPUBatchNorm1DInputGrad` computes it. -/
def gxc (c : ι → κ → ℝ) (s gamma : κ → ℝ) (g : ι → κ → ℝ) (i : ι) (j : κ) : ℝ :=
  g i j * gamma j / s j +
    c i j * ((∑ k, c k j * (g k j * gamma j) / s j ^ 2) * -1 / (s j * 2)) * (2 / (Fintype.card ι : ℝ))

def bnGrad (c : ι → κ → ℝ) (s gamma : κ → ℝ) (g : ι → κ → ℝ) (i : ι) (j : κ) : ℝ :=
  gxc c s gamma g i j - (∑ k, gxc c s gamma g k j) / (Fintype.card ι : ℝ)

theorem gxc_equiv (e : ι' ≃ ι) (c : ι → κ → ℝ) (s gamma : κ → ℝ) (g : ι → κ → ℝ) (i : ι') (j : κ) :
    gxc (fun i j => c (e i) j) s gamma (fun i j => g (e i) j) i j = gxc c s gamma g (e i) j := by
  unfold gxc
  rw [Fintype.card_congr e, Equiv.sum_comp e fun k => c k j * (g k j * gamma j) / s j ^ 2]

theorem bnGrad_equiv (e : ι' ≃ ι) (c : ι → κ → ℝ) (s gamma : κ → ℝ) (g : ι → κ → ℝ) (i : ι') (j : κ) :
    bnGrad (fun i j => c (e i) j) s gamma (fun i j => g (e i) j) i j = bnGrad c s gamma g (e i) j := by
  unfold bnGrad
  simp only [gxc_equiv]
  rw [Fintype.card_congr e, Equiv.sum_comp e fun k => gxc c s gamma g k j]

/-- The linear functional "mean of column `j`". -/
def meanCLM (j : κ) : (ι × κ → ℝ) →L[ℝ] ℝ :=
  ((Fintype.card ι : ℝ)⁻¹) • ∑ i, (ContinuousLinearMap.proj (i, j) : (ι × κ → ℝ) →L[ℝ] ℝ)

theorem meanCLM_apply (j : κ) (v : ι × κ → ℝ) : meanCLM j v = mean fun i => v (i, j) := by
  simp [meanCLM, mean, div_eq_inv_mul]

theorem mean_hasFDerivAt (j : κ) (x : ι × κ → ℝ) :
    HasFDerivAt (fun y : ι × κ → ℝ => mean fun i => y (i, j)) (meanCLM j) x := by
  have : (fun y : ι × κ → ℝ => mean fun i => y (i, j)) = fun y => meanCLM j y := by
    funext y; rw [meanCLM_apply]
  rw [this]
  exact (meanCLM j).hasFDerivAt

def cenCLM (i : ι) (j : κ) : (ι × κ → ℝ) →L[ℝ] ℝ := ContinuousLinearMap.proj (i, j) - meanCLM j

theorem cenCLM_apply (i : ι) (j : κ) (v : ι × κ → ℝ) : cenCLM i j v = v (i, j) - mean fun i => v (i, j) := by
  simp [cenCLM, meanCLM_apply]

theorem cen_hasFDerivAt (i : ι) (j : κ) (x : ι × κ → ℝ) :
    HasFDerivAt (fun y : ι × κ → ℝ => y (i, j) - mean fun i => y (i, j)) (cenCLM i j) x :=
  (ContinuousLinearMap.proj (R := ℝ) (φ := fun _ : ι × κ => ℝ) (i, j)).hasFDerivAt.sub (mean_hasFDerivAt j x)

/-- The derivative of the variance of column `j`. -/
def varCLM (x : ι × κ → ℝ) (j : κ) : (ι × κ → ℝ) →L[ℝ] ℝ :=
  ((Fintype.card ι : ℝ)⁻¹) • ∑ i, (2 * (x (i, j) - mean fun i => x (i, j))) • cenCLM i j

theorem var_hasFDerivAt (j : κ) (x : ι × κ → ℝ) :
    HasFDerivAt (fun y : ι × κ → ℝ => variance fun i => y (i, j)) (varCLM x j) x := by
  have h : ∀ i ∈ Finset.univ, HasFDerivAt (fun y : ι × κ → ℝ => (y (i, j) - mean fun i => y (i, j)) ^ 2)
      ((2 * (x (i, j) - mean fun i => x (i, j))) • cenCLM i j) x := fun i _ =>
    ((cen_hasFDerivAt i j x).pow 2).congr_fderiv (by simp)
  have h2 := (HasFDerivAt.fun_sum h).const_mul ((Fintype.card ι : ℝ)⁻¹)
  refine (h2.congr_fderiv rfl).congr_of_eventuallyEq (Filter.Eventually.of_forall fun y => ?_)
  simp only [variance]
  rw [mean, div_eq_inv_mul]

variable (eps : ℝ) (gamma beta : κ → ℝ)

theorem batchNorm_backprop (heps : 0 < eps) (x : ι × κ → ℝ) :
    Backprop (fun y : ι × κ → ℝ => Function.uncurry (batchNorm eps gamma beta (Function.curry y))) x
      (fun g => Function.uncurry (bnGrad (fun i j => x (i, j) - mean fun i => x (i, j))
        (fun j => Real.sqrt ((variance fun i => x (i, j)) + eps)) gamma (Function.curry g))) := by
  have hpos : ∀ j, 0 < (variance fun i => x (i, j)) + eps := fun j => by
    have := variance_nonneg (fun i => x (i, j)); linarith
  have hs : ∀ j, 0 < Real.sqrt ((variance fun i => x (i, j)) + eps) := fun j => Real.sqrt_pos.2 (hpos j)
  -- derivative of the square root of the variance
  have hsq : ∀ j, HasFDerivAt (fun y : ι × κ → ℝ => Real.sqrt ((variance fun i => y (i, j)) + eps))
      ((1 / (2 * Real.sqrt ((variance fun i => x (i, j)) + eps))) • varCLM x j) x := fun j =>
    ((var_hasFDerivAt j x).add_const eps).sqrt (hpos j).ne'
  refine backprop_of_coords (fun p => gamma p.2 •
    ((Real.sqrt ((variance fun i => x (i, p.2)) + eps))⁻¹ • cenCLM p.1 p.2 -
      ((x (p.1, p.2) - mean fun i => x (i, p.2)) / Real.sqrt ((variance fun i => x (i, p.2)) + eps) ^ 2) •
        ((1 / (2 * Real.sqrt ((variance fun i => x (i, p.2)) + eps))) • varCLM x p.2))) (fun p => ?_) (fun g v => ?_)
  · obtain ⟨i, j⟩ := p
    simp only [Function.uncurry_apply_pair, batchNorm, normalise, Function.curry_apply]
    have hinv := (hasDerivAt_inv (hs j).ne').comp_hasFDerivAt x (hsq j)
    have := (((cen_hasFDerivAt i j x).mul hinv).const_mul (gamma j)).add_const (beta j)
    refine (this.congr_fderiv ?_).congr_of_eventuallyEq (Filter.Eventually.of_forall fun y => ?_)
    · ext v
      simp only [Function.comp, ContinuousLinearMap.smul_apply, ContinuousLinearMap.add_apply,
        ContinuousLinearMap.sub_apply, smul_eq_mul]
      ring
    · simp only [Function.comp, Pi.mul_apply, div_eq_mul_inv]
  · rw [Fintype.sum_prod_type_right, Fintype.sum_prod_type_right]
    refine Finset.sum_congr rfl fun j _ => ?_
    have hsj := hs j
    generalize hS : Real.sqrt ((variance fun i => x (i, j)) + eps) = S at hsj
    set D : ℝ := mean fun i => (x (i, j) - mean fun i => x (i, j)) * (v (i, j) - mean fun i => v (i, j)) with hD
    have hvar : varCLM x j v = 2 * D := by
      simp only [varCLM, ContinuousLinearMap.smul_apply, ContinuousLinearMap.sum_apply, cenCLM_apply,
        smul_eq_mul, hD, mean, div_eq_inv_mul, Finset.mul_sum]
      refine Finset.sum_congr rfl fun i _ => ?_
      ring
    simp only [ContinuousLinearMap.smul_apply, ContinuousLinearMap.sub_apply, cenCLM_apply, smul_eq_mul, hvar,
      Function.uncurry_apply_pair, bnGrad, hS]
    -- move the mean from the gradient to the direction
    have hmove : ∀ q : ι → ℝ, ∑ i, (q i - (∑ k, q k) / (Fintype.card ι : ℝ)) * v (i, j) =
        ∑ i, q i * (v (i, j) - mean fun i => v (i, j)) := fun q => by
      simp only [sub_mul, mul_sub, Finset.sum_sub_distrib, ← Finset.mul_sum, ← Finset.sum_mul, mean]
      ring
    rw [hmove fun i => gxc (fun i j => x (i, j) - mean fun i => x (i, j)) (fun j => Real.sqrt ((variance fun i => x (i, j)) + eps)) gamma (Function.curry g) i j]
    simp only [gxc, Function.curry_apply, hS, add_mul, Finset.sum_add_distrib]
    set E : ℝ := ∑ k, (x (k, j) - mean fun i => x (i, j)) * (g (k, j) * gamma j) / S ^ 2 with hE
    have h2 : ∑ i, (x (i, j) - mean fun i => x (i, j)) * (E * -1 / (S * 2)) * (2 / (Fintype.card ι : ℝ)) *
        (v (i, j) - mean fun i => v (i, j)) = -(E * D / S) := by
      have : D = (∑ i, (x (i, j) - mean fun i => x (i, j)) * (v (i, j) - mean fun i => v (i, j))) /
          (Fintype.card ι : ℝ) := hD
      rw [this]
      simp only [div_eq_mul_inv, Finset.sum_mul, Finset.mul_sum, ← Finset.sum_neg_distrib]
      refine Finset.sum_congr rfl fun i _ => ?_
      field_simp
    rw [h2, hE]
    simp only [mul_sub, Finset.sum_sub_distrib, div_eq_mul_inv, Finset.sum_mul]
    rw [sub_eq_add_neg]
    congr 1
    · congr 1 <;> exact Finset.sum_congr rfl fun i _ => by ring
    · congr 1
      refine Finset.sum_congr rfl fun i _ => ?_
      field_simp

end

end DW.NormL
