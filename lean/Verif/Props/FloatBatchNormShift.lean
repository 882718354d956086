import Verif.Props.FloatBatchNorm
import Verif.Lemmas.NormDeriv
import Mathlib.Algebra.Order.Chebyshev
/-!
# The gradient of batch normalization for slightly different columns

The kernels use the centred column and the deviation that `forward` stored, and these have errors. Here is how much the gradient changes with them, in exact arithmetic,
and how large these errors are.
-/

set_option autoImplicit false

namespace DW.Props.FloatBatchNormP

open DW.Float DW.Props.FloatSoftmaxP DW.Props.FloatLossP DW.Props.FloatDotP DW.Props.FloatGradP DW.Props.FloatActP DW.Props.FloatAccuracyP DW.Props.FloatNormP
  DW.Props.FloatMomentumP DW.Props.FloatTrainP DW.Props.FloatAdamP DW.Props.FloatAdamStepP DW.NormL
open scoped ENNReal

noncomputable section

variable {R : Rounding} {q : Sqrt} {ρ : ℝ} {B : ℕ}

/-! ## Means -/

theorem mean_sub (f g : Fin B → ℝ) : Spec.mean f - Spec.mean g = Spec.mean fun i => f i - g i := by
  unfold Spec.mean
  rw [← sub_div, Finset.sum_sub_distrib]

theorem abs_mean (f : Fin B → ℝ) : |Spec.mean f| ≤ Spec.mean fun i => |f i| := by
  unfold Spec.mean
  rw [abs_div, Nat.abs_cast]
  exact div_le_div_of_nonneg_right (Finset.abs_sum_le_sum_abs _ _) (Nat.cast_nonneg _)

theorem mean_mono {f g : Fin B → ℝ} (h : ∀ i, f i ≤ g i) : Spec.mean f ≤ Spec.mean g :=
  div_le_div_of_nonneg_right (Finset.sum_le_sum fun i _ => h i) (Nat.cast_nonneg _)

theorem mean_mul_const (f : Fin B → ℝ) (a : ℝ) : (Spec.mean fun i => f i * a) = Spec.mean f * a := by
  unfold Spec.mean
  rw [← Finset.sum_mul]
  ring

theorem mean_const_add (hB : 0 < B) (f : Fin B → ℝ) (a : ℝ) : (Spec.mean fun i => a + f i) = a + Spec.mean f := by
  have hN : (B : ℝ) ≠ 0 := by exact_mod_cast hB.ne'
  unfold Spec.mean
  rw [Finset.sum_add_distrib, Finset.sum_const, Finset.card_univ, Fintype.card_fin, nsmul_eq_mul]
  field_simp

/-- The mean of the magnitudes is at most the root of the mean square. -/
theorem mean_abs_le (a : Fin B → ℝ) : (Spec.mean fun i => |a i|) ≤ √(Spec.mean fun i => a i ^ 2) := by
  refine Real.le_sqrt_of_sq_le ?_
  unfold Spec.mean
  rw [Fintype.card_fin, div_pow]
  rcases Nat.eq_zero_or_pos B with rfl | hB
  · simp
  have hN : (0 : ℝ) < B := by exact_mod_cast hB
  rw [div_le_div_iff₀ (by positivity) hN]
  have h := sq_sum_le_card_mul_sum_sq (s := Finset.univ) (f := fun i => |a i|)
  rw [Finset.card_univ, Fintype.card_fin] at h
  simp only [sq_abs] at h
  have h' := mul_le_mul_of_nonneg_right h hN.le
  linarith [show (B : ℝ) * (∑ i, a i ^ 2) * B = (∑ i, a i ^ 2) * B ^ 2 by ring]

/-! ## The gradient as a function of the centred column and the deviation -/

/-- The gradient with respect to the centred column. -/
def centredGrad (γ S : ℝ) (C g : Fin B → ℝ) (i : Fin B) : ℝ := γ / S * (g i - C i / S * Spec.mean fun j => C j / S * g j)

/-- The gradient with respect to the column. -/
def columnGrad (γ S : ℝ) (C g : Fin B → ℝ) (i : Fin B) : ℝ := centredGrad γ S C g i - Spec.mean (centredGrad γ S C g)

/-- These are the formulas of the exact layer. -/
theorem columnGrad_eq {n : ℕ} (c : Fin B → Fin n → ℝ) (s γ : Fin n → ℝ) (g : Fin B → Fin n → ℝ) (hs : ∀ j, s j ≠ 0) (i : Fin B) (j : Fin n) :
    bnGrad c s γ g i j = columnGrad (γ j) (s j) (fun i => c i j) (fun i => g i j) i := by
  have hz : ∀ i, gxc c s γ g i j = centredGrad (γ j) (s j) (fun i => c i j) (fun i => g i j) i := by
    intro i
    have hN : (B : ℝ) ≠ 0 := by exact_mod_cast i.pos.ne'
    have h0 := hs j
    unfold gxc centredGrad Spec.mean
    rw [Fintype.card_fin]
    have e : ∑ k, c k j * (g k j * γ j) / s j ^ 2 = (∑ k, c k j / s j * g k j) * (γ j / s j) := by
      rw [Finset.sum_mul]
      refine Finset.sum_congr rfl fun k _ => ?_
      field_simp
    rw [e]
    field_simp
    ring
  unfold bnGrad columnGrad Spec.mean
  rw [hz]
  simp only [hz]

theorem unit_bound {S r : ℝ} {C : Fin B → ℝ} (hS : 0 < S) (hC : √(Spec.mean fun i => C i ^ 2) ≤ r * S) :
    (Spec.mean fun j => |C j / S|) ≤ r ∧ ∀ i, |C i / S| ≤ √B * r := by
  constructor
  · have e : (Spec.mean fun j => |C j / S|) = (Spec.mean fun j => |C j|) * S⁻¹ := by
      rw [← mean_mul_const]
      refine congrArg Spec.mean (funext fun j => ?_)
      rw [abs_div, abs_of_pos hS, div_eq_mul_inv]
    rw [e, ← div_eq_mul_inv, div_le_iff₀ hS]
    exact (mean_abs_le C).trans hC
  · intro i
    rw [abs_div, abs_of_pos hS, div_le_iff₀ hS, mul_assoc]
    exact (element_le C i).trans (mul_le_mul_of_nonneg_left hC (Real.sqrt_nonneg _))

theorem weighted {a g : Fin B → ℝ} {G r : ℝ} (hG : 0 ≤ G) (hg : ∀ j, |g j| ≤ G) (ha : (Spec.mean fun j => |a j|) ≤ r) : |Spec.mean fun j => a j * g j| ≤ r * G := by
  refine (abs_mean _).trans (le_trans ?_ (mul_le_mul_of_nonneg_right ha hG))
  rw [← mean_mul_const]
  refine mean_mono fun j => ?_
  rw [abs_mul]
  exact mul_le_mul_of_nonneg_left (hg j) (abs_nonneg _)

theorem centredGrad_le {γ S G r : ℝ} {C g : Fin B → ℝ} (hS : 0 < S) (hC : √(Spec.mean fun i => C i ^ 2) ≤ r * S) (hG : 0 ≤ G) (hg : ∀ j, |g j| ≤ G) (i : Fin B) :
    |centredGrad γ S C g i| ≤ |γ| * G / S * (1 + √B * r * r) := by
  obtain ⟨m1, m2⟩ := unit_bound hS hC
  have h := weighted hG hg m1
  unfold centredGrad
  rw [abs_mul, abs_div, abs_of_pos hS]
  have e1 := abs_sub (g i) (C i / S * Spec.mean fun j => C j / S * g j)
  rw [abs_mul] at e1
  have e2 := mul_le_mul (m2 i) h (abs_nonneg _) ((abs_nonneg _).trans (m2 i))
  have e3 : |γ| / S * |g i - C i / S * Spec.mean fun j => C j / S * g j| ≤ |γ| / S * (G + √B * r * (r * G)) :=
    mul_le_mul_of_nonneg_left (by linarith [hg i]) (by positivity)
  refine e3.trans (le_of_eq ?_)
  ring

/-- How much the gradient changes. -/
theorem centredGrad_change {γ S σ G e : ℝ} {C c g : Fin B → ℝ} (hS : 0 < S) (hσ : 0 < σ) (he : 0 ≤ e) (hCc : ∀ j, |C j - c j| ≤ e * S) (h1 : |σ - S| ≤ e * S)
    (h2 : |σ - S| ≤ e * σ) (hc : √(Spec.mean fun i => c i ^ 2) ≤ 1 * σ) (hC : √(Spec.mean fun i => C i ^ 2) ≤ 1.2 * S) (hG : 0 ≤ G) (hg : ∀ j, |g j| ≤ G) (i : Fin B) :
    |centredGrad γ S C g i - centredGrad γ σ c g i| ≤ 6.4 * e * √B * (|γ| * G / S) ∧ (Spec.mean fun j => |C j / S - c j / σ|) ≤ 2 * e := by
  have hB : 0 < B := i.pos
  have hN1 : (1 : ℝ) ≤ B := by exact_mod_cast hB
  have r1 : 1 ≤ √(B : ℝ) := Real.one_le_sqrt.2 hN1
  obtain ⟨x1, x2⟩ := unit_bound hσ hc
  obtain ⟨y1, y2⟩ := unit_bound hS hC
  have hx := weighted hG hg x1
  have hy := weighted hG hg y1
  have hd : ∀ j, |C j / S - c j / σ| ≤ e + |c j / σ| * e := by
    intro j
    have a1 : C j / S - c j / σ = (C j - c j) / S + c j / σ * ((σ - S) / S) := by
      field_simp
      ring
    rw [a1]
    refine (abs_add_le _ _).trans ?_
    have a2 : |(C j - c j) / S| ≤ e := by
      rw [abs_div, abs_of_pos hS, div_le_iff₀ hS]
      exact hCc j
    have a3 : |(σ - S) / S| ≤ e := by
      rw [abs_div, abs_of_pos hS, div_le_iff₀ hS]
      exact h1
    rw [abs_mul]
    exact add_le_add a2 (mul_le_mul_of_nonneg_left a3 (abs_nonneg _))
  have hm : (Spec.mean fun j => |C j / S - c j / σ|) ≤ 2 * e := by
    refine (mean_mono hd).trans ?_
    rw [mean_const_add hB, mean_mul_const]
    have := mul_le_mul_of_nonneg_right x1 he
    linarith
  refine ⟨?_, hm⟩
  have hh : |(Spec.mean fun j => C j / S * g j) - Spec.mean fun j => c j / σ * g j| ≤ 2 * e * G := by
    rw [mean_sub]
    have : (fun j => C j / S * g j - c j / σ * g j) = fun j => (C j / S - c j / σ) * g j := funext fun j => by ring
    rw [this]
    exact weighted hG hg hm
  unfold centredGrad
  set h' := Spec.mean fun j => C j / S * g j
  set h := Spec.mean fun j => c j / σ * g j
  set b := √(B : ℝ)
  have a1 : γ / S * (g i - C i / S * h') - γ / σ * (g i - c i / σ * h) =
      γ / S * ((σ - S) / σ * (g i - c i / σ * h)) + γ / S * (c i / σ * (h - h') - (C i / S - c i / σ) * h') := by
    field_simp
    ring
  rw [a1]
  have x2i := x2 i
  have b1 : |(σ - S) / σ * (g i - c i / σ * h)| ≤ 2 * e * b * G := by
    rw [abs_mul, abs_div, abs_of_pos hσ]
    have c1 : |σ - S| / σ ≤ e := by
      rw [div_le_iff₀ hσ]
      exact h2
    have c2 : |g i - c i / σ * h| ≤ 2 * b * G := by
      have d1 := abs_sub (g i) (c i / σ * h)
      rw [abs_mul] at d1
      have d2 := mul_le_mul x2i hx (abs_nonneg _) (by positivity)
      have d3 := mul_le_mul_of_nonneg_right r1 hG
      linarith [hg i]
    have c3 := mul_le_mul c1 c2 (abs_nonneg _) he
    linarith
  have b2 : |c i / σ * (h - h') - (C i / S - c i / σ) * h'| ≤ 4.4 * e * b * G := by
    have d1 := abs_sub (c i / σ * (h - h')) ((C i / S - c i / σ) * h')
    rw [abs_mul, abs_mul] at d1
    rw [abs_sub_comm] at hh
    have d2 := mul_le_mul x2i hh (abs_nonneg _) (by positivity)
    have d3 : |C i / S - c i / σ| ≤ 2 * b * e := by
      have := mul_le_mul_of_nonneg_right x2i he
      have := mul_le_mul_of_nonneg_right r1 he
      linarith [hd i]
    have d4 := mul_le_mul d3 hy (abs_nonneg _) (by positivity)
    linarith
  have b3 : |γ / S| = |γ| / S := by rw [abs_div, abs_of_pos hS]
  refine (abs_add_le _ _).trans ?_
  rw [abs_mul (γ / S), abs_mul (γ / S), b3, ← mul_add]
  have := mul_le_mul_of_nonneg_left (add_le_add b1 b2) (by positivity : 0 ≤ |γ| / S)
  refine this.trans (le_of_eq ?_)
  ring

theorem columnGrad_change {γ S σ E : ℝ} {C c g : Fin B → ℝ} (h : ∀ i, |centredGrad γ S C g i - centredGrad γ σ c g i| ≤ E) (hE : 0 ≤ E) (i : Fin B) :
    |columnGrad γ S C g i - columnGrad γ σ c g i| ≤ 2 * E := by
  unfold columnGrad
  have e1 : |Spec.mean (centredGrad γ S C g) - Spec.mean (centredGrad γ σ c g)| ≤ E := by
    rw [mean_sub]
    exact mean_le hE h
  have e2 := abs_sub (centredGrad γ S C g i - centredGrad γ σ c g i) (Spec.mean (centredGrad γ S C g) - Spec.mean (centredGrad γ σ c g))
  rw [sub_sub_sub_comm]
  linarith [h i]

/-! ## The errors of what `forward` stored -/

/-- The deviation with its rounding errors. -/
theorem root_error (hq : SqrtNear q ρ) (hρ : 0 ≤ ρ) (hρ' : ρ ≤ 1 / 2 ^ 10) {v eps : Flt} (vn : Nonneg v) (vf : v.Finite) (vb : v.val ≤ 2 ^ 120) (en : Nonneg eps)
    (ef : eps.Finite) (e1 : 1 / 2 ^ 40 ≤ eps.val) (e2 : eps.val ≤ 1) :
    (q.fn (add R v eps)).Finite ∧ |(q.fn (add R v eps)).val - √(v.val + eps.val)| ≤ (1.01 * ρ + 1.01 * u) * √(v.val + eps.val) := by
  have hu := u_pos
  have hη := η_pos
  have hus := u_small
  have v0 := vn.val_nonneg
  have s40 : (0 : ℝ) < 1 / 2 ^ 40 := by positivity
  have hV : 0 ≤ v.val + eps.val := by linarith
  have n1 := near_addWith (R := R) vf ef (by rw [abs_of_nonneg hV]; unfold big; linarith)
  obtain ⟨x, hxm⟩ := nonneg_addWith (rd := R.rd) vn en
  have hx : x ≤ maxFloat := by
    have hf := n1.1
    obtain ⟨a, rfl⟩ := vn
    obtain ⟨b, rfl⟩ := en
    have e : addWith R.rd (.num false a) (.num false b) = .num false (R.rd (a + b)) := by simp [addWith]
    rw [e] at hf hxm
    obtain rfl : R.rd (a + b) = x := by simpa using hxm
    exact R.largest _ hf
  obtain ⟨y, hyb, hqy⟩ := q.finite x hx
  have hr := hq x hx
  have hn := n1.2
  have hxv : (addWith R.rd v eps).val = x.toReal := by rw [hxm]; simp [Flt.val]
  have hyf : (q.fn (add R v eps)).Finite := by
    show (q.fn (addWith R.rd v eps)).Finite
    rw [hxm, hqy]
    exact ne_top_of_le_ne_top (by simp) hyb
  have hrv : (q.fn (add R v eps)).val = (q.fn (.num false x)).val := by
    show (q.fn (addWith R.rd v eps)).val = _
    rw [hxm]
  refine ⟨hyf, ?_⟩
  rw [← hrv] at hr
  rw [hxv, abs_of_nonneg hV] at hn
  set r := (q.fn (add R v eps)).val with hrd
  set S := √(v.val + eps.val) with hS
  have h1 := sqrt_perturb ENNReal.toReal_nonneg hV hn
  rw [← hS] at h1
  have hS20 : 1 / 2 ^ 20 ≤ S := by
    rw [hS]
    refine Real.le_sqrt_of_sq_le ?_
    have : ((1 : ℝ) / 2 ^ 20) ^ 2 = 1 / 2 ^ 40 := by norm_num
    linarith
  have hS0 : 0 < S := lt_of_lt_of_le (by positivity) hS20
  have h75 : (1 : ℝ) / 2 ^ 75 ≤ u / 1000 * (1 / 2 ^ 20) := by unfold u; norm_num
  have hηs : η ≤ 1 / 2 ^ 75 * (1 / 2 ^ 20) := by unfold η; norm_num
  have k1 : √x.toReal ≤ S + (u * S + 1 / 2 ^ 75) := by linarith [(abs_le.1 h1).2]
  have k2 := mul_le_mul_of_nonneg_left k1 hρ
  have k3 := abs_sub_le r (√x.toReal) S
  have k4 : ρ * (u * S) ≤ ρ * (1 / 10 ^ 7 * S) := mul_le_mul_of_nonneg_left (mul_le_mul_of_nonneg_right hus hS0.le) hρ
  have k5 := mul_le_mul_of_nonneg_right hρ' (by positivity : (0 : ℝ) ≤ 1 / 2 ^ 75)
  have k6 : 0 ≤ ρ * S := by positivity
  have k7 : u / 1000 * (1 / 2 ^ 20) ≤ u / 1000 * S := mul_le_mul_of_nonneg_left hS20 (by positivity)
  have k8 : 0 ≤ u * S := by positivity
  linarith

/-- The relative error of the centred column and the deviation. -/
def storedError (B : ℕ) (A eps ρ : ℝ) : ℝ := 3.5 * (B + 3) * u * (1 + A / √eps) + 1.2 * ρ

/-- What is known of a stored column `C` and a stored deviation `S` of the column `X`. -/
structure Stored (eps : ℝ) (X C : Fin B → Flt) (S : Flt) (e : ℝ) : Prop where
  finite : S.Finite
  lower : 0.99 * √eps ≤ S.val
  upper : S.val ≤ 2 ^ 54
  below : |√((Spec.variance fun i => (X i).val) + eps) - S.val| ≤ e * S.val
  above : |√((Spec.variance fun i => (X i).val) + eps) - S.val| ≤ e * √((Spec.variance fun i => (X i).val) + eps)
  square : √(Spec.mean fun i => (C i).val ^ 2) ≤ 1.2 * S.val
  column : ∀ i, (C i).Finite ∧ |(C i).val| ≤ 2 ^ 52 ∧ |(C i).val - ((X i).val - Spec.mean fun i => (X i).val)| ≤ e * S.val

theorem below_calc {T S S₁ S₂ D κ ρ σ E : ℝ} (hκ : 0 ≤ κ) (hρ : 0 ≤ ρ) (hS₁ : 0 < S₁) (hσ : 0 < σ) (hσS : σ ≤ S₁) (hD : 0 ≤ D)
    (d1 : |S₁ - S₂| ≤ κ * S₂) (d2 : |T - S₂| ≤ D) (k1 : S₂ ≤ 1.195 * S₁) (r : |S - S₁| ≤ (1.01 * ρ + 1.01 * u) * S₁) (r0 : 0.998 * S₁ ≤ S)
    (hE : 1.0021 * (D / σ) + 3.12 / 2.6 * κ + 1.03 * ρ + 1.03 * u ≤ E) : |T - S| ≤ E * S ∧ D ≤ E * S := by
  have hu := u_pos
  have S0 : 0 < S := lt_of_lt_of_le (by linarith) r0
  have q1 : D / σ * σ = D := by field_simp
  have hDσ : 0 ≤ D / σ := by positivity
  have q2 : D ≤ D / σ * (S / 0.998) := by
    have := mul_le_mul_of_nonneg_left (by rw [le_div_iff₀ (by norm_num)]; linarith : σ ≤ S / 0.998) hDσ
    linarith
  have q3 := mul_le_mul_of_nonneg_left k1 hκ
  have q4 := abs_sub_le T S₂ S₁
  have q5 := abs_sub_le T S₁ S
  rw [abs_sub_comm S₂] at q4
  rw [abs_sub_comm S₁ S] at q5
  have q6 := mul_le_mul_of_nonneg_right hE S0.le
  have q7 : (1.195 * κ + 1.01 * ρ + 1.01 * u) * (0.998 * S₁) ≤ (1.195 * κ + 1.01 * ρ + 1.01 * u) * S := mul_le_mul_of_nonneg_left r0 (by positivity)
  have p1 : 0 ≤ D / σ * S := by positivity
  generalize D / σ = x at *
  have q8 : x * (S / 0.998) ≤ 1.0021 * (x * S) := by
    have e : x * (S / 0.998) = 1 / 0.998 * (x * S) := by ring
    rw [e]
    exact mul_le_mul_of_nonneg_right (by norm_num) p1
  have p2 : 0 ≤ κ * S := by positivity
  have p3 : 0 ≤ ρ * S := by positivity
  have p4 : 0 ≤ u * S := by positivity
  have e1 : (1.0021 * x + 3.12 / 2.6 * κ + 1.03 * ρ + 1.03 * u) * S = 1.0021 * (x * S) + 3.12 / 2.6 * (κ * S) + 1.03 * (ρ * S) + 1.03 * (u * S) := by ring
  rw [e1] at q6
  constructor
  · linarith
  · linarith

theorem above_calc {T S S₁ S₂ D κ ρ σ E : ℝ} (hκ : 0 ≤ κ) (hκ1 : κ ≤ 0.163) (hρ : 0 ≤ ρ) (hρ1 : ρ ≤ 1 / 2 ^ 10) (hσ : 0 < σ) (hσT : σ ≤ T) (hD : 0 ≤ D)
    (hS₂ : 0 ≤ S₂) (d1 : |S₁ - S₂| ≤ κ * S₂) (d2 : |T - S₂| ≤ D) (r : |S - S₁| ≤ (1.01 * ρ + 1.01 * u) * S₁)
    (hE : 1.17 * (D / σ) + 3.12 / 2.6 * κ + 1.18 * ρ + 1.2 * u ≤ E) : |T - S| ≤ E * T := by
  have hu := u_pos
  have hus := u_small
  have q1 : D / σ * σ = D := by field_simp
  have hT : 0 < T := lt_of_lt_of_le hσ hσT
  have q2 : D ≤ D / σ * T := by
    have := mul_le_mul_of_nonneg_left hσT (by positivity : 0 ≤ D / σ)
    linarith
  have q3 : S₂ ≤ T + D := by linarith [(abs_le.1 d2).1]
  have q4 := abs_sub_le T S₂ S₁
  have q5 := abs_sub_le T S₁ S
  rw [abs_sub_comm S₂] at q4
  rw [abs_sub_comm S₁ S] at q5
  have q6 := mul_le_mul_of_nonneg_right hE hT.le
  have q7 : κ * S₂ ≤ κ * (T + D) := mul_le_mul_of_nonneg_left q3 hκ
  have q8 : κ * D ≤ 0.163 * D := mul_le_mul_of_nonneg_right hκ1 hD
  have q9 : S₁ ≤ 1.163 * (T + D) := by
    have := mul_le_mul_of_nonneg_right hκ1 hS₂
    have := (abs_le.1 d1).2
    linarith
  have q10 : (1.01 * ρ + 1.01 * u) * S₁ ≤ (1.01 * ρ + 1.01 * u) * (1.163 * (T + D)) := mul_le_mul_of_nonneg_left q9 (by positivity)
  have q11 : ρ * D ≤ 1 / 2 ^ 10 * D := mul_le_mul_of_nonneg_right hρ1 hD
  have q12 : u * D ≤ 1 / 10 ^ 7 * D := mul_le_mul_of_nonneg_right hus hD
  have p2 : 0 ≤ κ * T := by positivity
  have p3 : 0 ≤ ρ * T := by positivity
  have p4 : 0 ≤ u * T := by positivity
  linarith

/-- What a pass of the layer stores. -/
theorem forward_stored {gamma beta eps : Flt} {X C Y : Fin B → Flt} {S : Flt} {A : ℝ} (hq : SqrtNear q ρ) (hρ : 0 ≤ ρ) (hρ' : ρ ≤ 1 / 2 ^ 10)
    (hs : Setting gamma beta eps X A) (hB : 0 < B) (h : BatchNormTrain R q gamma beta eps X C S Y) : Stored eps.val X C S (storedError B A eps.val ρ) := by
  have hu := u_pos
  have hη := η_pos
  have hus := u_small
  have hηs : η ≤ 1 / 2 ^ 149 := by unfold η; norm_num
  have hA0 : 0 ≤ A := (abs_nonneg _).trans (hs.size ⟨0, hB⟩)
  obtain ⟨en, ef, e1, e2⟩ := hs.eps
  have hN1 : (1 : ℝ) ≤ B := by exact_mod_cast hB
  have hN2 : (B : ℝ) ≤ 2 ^ 20 := by exact_mod_cast hs.rows
  have hBu : (B : ℝ) * u ≤ 0.0625 := by
    have := mul_le_mul_of_nonneg_right hN2 hu.le
    have h2 : (2 : ℝ) ^ 20 * u ≤ 0.0625 := by unfold u; norm_num
    linarith
  choose mm hmm hCc using h.centered
  have hc := fun j => center_error hs hB (hmm j) (hCc j)
  obtain ⟨v, hv, hS⟩ := h.deviation
  obtain ⟨vn, vf, ve⟩ := square_error hv hB hs.rows (fun j => (hc j).2.1) le_rfl fun j => (hc j).2.2.2.2.2
  have v0 := vn.val_nonneg
  have hV'0 : 0 ≤ Spec.mean fun i => (C i).val ^ 2 := div_nonneg (Finset.sum_nonneg fun i _ => sq_nonneg _) (Nat.cast_nonneg _)
  have hV'1 : |Spec.mean fun i => (C i).val ^ 2| ≤ 2 ^ 104 := mean_le (by norm_num) fun j => by
    rw [abs_pow]
    refine (pow_le_pow_left₀ (abs_nonneg _) (hc j).2.2.2.2.2 2).trans ?_
    norm_num
  rw [abs_of_nonneg hV'0] at hV'1
  set μ := Spec.mean fun i => (X i).val with hμ
  set V := Spec.variance fun i => (X i).val with hV
  have hVe : V = Spec.mean fun i => ((X i).val - μ) ^ 2 := rfl
  set D := centerError B A with hD
  have hD0 : 0 ≤ D := by rw [hD]; unfold centerError; positivity
  set V' := Spec.mean fun i => (C i).val ^ 2 with hV'
  have hs1 : 0 < eps.val := lt_of_lt_of_le (by positivity) e1
  set κ := 2.6 * (B + 1) * u with hκ
  have hκ0 : 0 ≤ κ := by positivity
  have hκ1 : κ ≤ 0.163 := by rw [hκ]; linarith
  have d1 : |√(v.val + eps.val) - √(V' + eps.val)| ≤ κ * √(V' + eps.val) := by
    refine root_change (by linarith) (by linarith) ?_
    rw [add_sub_add_right_eq_sub]
    refine ve.trans ?_
    have k1 : 0 ≤ u * V' := by positivity
    have k2 : 0 ≤ B * u * V' := by positivity
    have k3 : 5 * η ≤ 0.1 * u * eps.val := by
      have : 0.1 * u * (1 / 2 ^ 40) ≤ 0.1 * u * eps.val := mul_le_mul_of_nonneg_left e1 (by positivity)
      have k4 : 5 * (1 / 2 ^ 149) ≤ 0.1 * u * (1 / 2 ^ 40) := by unfold u; norm_num
      linarith
    have k5 : 0 ≤ B * u * eps.val := by positivity
    have k6 : 0 ≤ u * eps.val := by positivity
    rw [hκ]
    linarith
  have d2 : √(V' + eps.val) ≤ √(V + eps.val) + D := by
    rw [hVe]
    exact deviation_change hB hs1.le fun j => (hc j).2.2.2.2.1
  have d3 : √(V + eps.val) ≤ √(V' + eps.val) + D := by
    rw [hVe]
    refine deviation_change hB hs1.le fun j => ?_
    rw [abs_sub_comm]
    exact (hc j).2.2.2.2.1
  have v1 : v.val ≤ 2 ^ 105 := by
    have k1 := (abs_le.1 ve).2
    have k2 : 2.5 * (B + 1) * u * V' ≤ 0.2 * V' := mul_le_mul_of_nonneg_right (by linarith) hV'0
    linarith
  have sS1 : √(v.val + eps.val) ≤ 2 ^ 53 := by
    rw [Real.sqrt_le_left (by positivity)]
    linarith
  have sσ : √eps.val ≤ √(v.val + eps.val) := Real.sqrt_le_sqrt (by linarith)
  have sσ0 : 1 / 2 ^ 20 ≤ √eps.val := by
    refine Real.le_sqrt_of_sq_le ?_
    have : ((1 : ℝ) / 2 ^ 20) ^ 2 = 1 / 2 ^ 40 := by norm_num
    linarith
  have hVn : 0 ≤ V := by
    rw [hVe]
    exact div_nonneg (Finset.sum_nonneg fun i _ => sq_nonneg _) (Nat.cast_nonneg _)
  have sT : √eps.val ≤ √(V + eps.val) := Real.sqrt_le_sqrt (by linarith)
  have c2 : √V' ≤ √(V' + eps.val) := Real.sqrt_le_sqrt (by linarith)
  obtain ⟨sf, se⟩ := root_error (R := R) hq hρ hρ' vn vf (by linarith) en ef e1 e2
  rw [← hS] at sf se
  set S₁ := √(v.val + eps.val) with hS₁
  set S₂ := √(V' + eps.val) with hS₂
  set T := √(V + eps.val) with hT
  set σ := √eps.val with hσ
  have hσp : 0 < σ := lt_of_lt_of_le (by positivity) sσ0
  have hS₁p : 0 < S₁ := lt_of_lt_of_le hσp sσ
  have hS₂n : 0 ≤ S₂ := Real.sqrt_nonneg _
  have k1 : S₂ ≤ 1.195 * S₁ := by
    have := (abs_le.1 d1).1
    have := mul_le_mul_of_nonneg_right hκ1 hS₂n
    linarith
  have k2 : (1.01 * ρ + 1.01 * u) * S₁ ≤ 0.002 * S₁ := mul_le_mul_of_nonneg_right (by linarith) hS₁p.le
  have r0 : 0.998 * S₁ ≤ S.val := by linarith [(abs_le.1 se).1]
  have hTS : |T - S₂| ≤ D := abs_le.2 ⟨by linarith, by linarith⟩
  have p1 : D / σ = 1.3 * ((B + 3) * u * (A / σ)) + 6 * (η / σ) := by
    rw [hD]
    unfold centerError
    field_simp
  have p2 : η / σ ≤ 1 / 10 ^ 3 * u := by
    rw [div_le_iff₀ hσp]
    have : 1 / 10 ^ 3 * u * (1 / 2 ^ 20) ≤ 1 / 10 ^ 3 * u * σ := mul_le_mul_of_nonneg_left sσ0 (by positivity)
    have e : (1 : ℝ) / 2 ^ 149 ≤ 1 / 10 ^ 3 * u * (1 / 2 ^ 20) := by unfold u; norm_num
    linarith
  have p3 : 0 ≤ (B + 3) * u * (A / σ) := by positivity
  have p4 : 0 ≤ B * u := by positivity
  have hE1 : 1.0021 * (D / σ) + 3.12 / 2.6 * κ + 1.03 * ρ + 1.03 * u ≤ storedError B A eps.val ρ := by
    unfold storedError
    rw [← hσ, p1, hκ]
    linarith
  have hE2 : 1.17 * (D / σ) + 3.12 / 2.6 * κ + 1.18 * ρ + 1.2 * u ≤ storedError B A eps.val ρ := by
    unfold storedError
    rw [← hσ, p1, hκ]
    linarith
  obtain ⟨b1, b2⟩ := below_calc hκ0 hρ hS₁p hσp sσ hD0 d1 hTS k1 se r0 hE1
  exact ⟨sf, by linarith, by linarith [(abs_le.1 se).2], b1, above_calc hκ0 hκ1 hρ hρ' hσp sT hD0 hS₂n d1 hTS se hE2, by linarith,
    fun j => ⟨(hc j).2.1, (hc j).2.2.2.2.2, ((hc j).2.2.2.2.1).trans b2⟩⟩

end

end DW.Props.FloatBatchNormP
