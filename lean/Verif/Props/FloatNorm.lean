import Verif.Model.FloatNet
import Verif.Props.FloatAdamStep
import Verif.Spec.Norm
/-!
# `BatchNorm1D` in evaluation mode, in `float` (for C114)
-/

set_option autoImplicit false

namespace DW.Props.FloatNormP

open DW.Float DW.Props.FloatSoftmaxP DW.Props.FloatDotP DW.Props.FloatGradP DW.Props.FloatActP DW.Props.FloatMomentumP DW.Props.FloatAdamP
  DW.Props.FloatAdamStepP
open scoped ENNReal

noncomputable section

variable {R : Rounding} {q : Sqrt} {ρ : ℝ}

/-- `a * b + c`, fused or not. -/
theorem mulAdd_error {a b c r : Flt} (h : MulAdd R a b c r) (ha : a.Finite) (hb : b.Finite) (hc : c.Finite) {P Q : ℝ} (hP : |a.val * b.val| ≤ P)
    (hQ : |c.val| ≤ Q) (hPQ : P + Q ≤ 2 ^ 126) : r.Finite ∧ |r.val - (a.val * b.val + c.val)| ≤ 2.1 * u * (P + Q) + 3 * η := by
  have hu := u_pos
  have hη := η_pos
  have hus := u_small
  have hηs : η ≤ 1 := by unfold η; norm_num
  have hP0 : 0 ≤ P := (abs_nonneg _).trans hP
  have hQ0 : 0 ≤ Q := (abs_nonneg _).trans hQ
  have huP : u * P ≤ 1 / 10 ^ 7 * P := mul_le_mul_of_nonneg_right hus hP0
  have huQ : 0 ≤ u * Q := by positivity
  have huP0 : 0 ≤ u * P := by positivity
  rcases h with rfl | rfl
  · have n1 := near_mul (R := R) ha hb (hP.trans (by unfold big; linarith))
    have e1 : u * |a.val * b.val| ≤ u * P := mul_le_mul_of_nonneg_left hP hu.le
    have e2 : |(mul R a b).val| ≤ P + (u * P + η) := by
      have := abs_sub_le (mul R a b).val (a.val * b.val) 0
      rw [sub_zero, sub_zero] at this
      linarith [n1.2]
    have e3 : |c.val + (mul R a b).val| ≤ Q + (P + (u * P + η)) := (abs_add_le _ _).trans (by linarith)
    have n2 := near_addWith (R := R) hc n1.1 (e3.trans (by unfold big; linarith))
    refine ⟨n2.1, ?_⟩
    have e4 := mul_le_mul_of_nonneg_left e3 hu.le
    have e5 := abs_sub_le (add R c (mul R a b)).val (c.val + (mul R a b).val) (a.val * b.val + c.val)
    rw [show c.val + (mul R a b).val - (a.val * b.val + c.val) = (mul R a b).val - a.val * b.val by ring] at e5
    have e6 : |(add R c (mul R a b)).val - (c.val + (mul R a b).val)| ≤ _ := n2.2
    have e7 : u * (u * P) ≤ 1 / 10 ^ 7 * (u * P) := mul_le_mul_of_nonneg_right hus huP0
    have e8 : u * η ≤ 1 / 10 ^ 7 * η := mul_le_mul_of_nonneg_right hus hη.le
    have e9 := n1.2
    linarith
  · have e3 : |a.val * b.val + c.val| ≤ P + Q := (abs_add_le _ _).trans (by linarith)
    have n := near_fma (R := R) ha hb hc (e3.trans (by unfold big; linarith))
    have e4 := mul_le_mul_of_nonneg_left e3 hu.le
    exact ⟨n.1, by linarith [n.2]⟩

/-- The layer in exact arithmetic. -/
def scaled (mean var gamma beta eps x : ℝ) : ℝ := (x - mean) * (gamma / √(var + eps)) + beta

theorem normalise_eq (mean var gamma beta eps x : ℝ) : Spec.normalise mean var eps gamma beta x = scaled mean var gamma beta eps x := by
  unfold Spec.normalise scaled
  ring

/-- The parameters are usable: finite, a variance that is not negative, and `eps` not too small. -/
structure Usable (var gamma eps : Flt) : Prop where
  var : Nonneg var ∧ var.Finite ∧ var.val ≤ 2 ^ 120
  gamma : gamma.Finite ∧ |gamma.val| ≤ 2 ^ 90
  eps : Nonneg eps ∧ eps.Finite ∧ 1 / 2 ^ 40 ≤ eps.val ∧ eps.val ≤ 1

/-- The factor of the layer, rounded. -/
theorem factor_error (hq : SqrtNear q ρ) (hρ : 0 ≤ ρ) (hρ' : ρ ≤ 1 / 2 ^ 10) {var gamma eps : Flt} (h : Usable var gamma eps) :
    (div R gamma (q.fn (add R var eps))).Finite ∧
    |(div R gamma (q.fn (add R var eps))).val - gamma.val / √(var.val + eps.val)| ≤
      (4.1 * u + 1.1 * ρ) * |gamma.val / √(var.val + eps.val)| + η := by
  have hu := u_pos
  have hη := η_pos
  have hus := u_small
  obtain ⟨vn, vf, vb⟩ := h.var
  obtain ⟨gf, gb⟩ := h.gamma
  obtain ⟨en, ef, e1, e2⟩ := h.eps
  have v0 := vn.val_nonneg
  have s40 : (0 : ℝ) < 1 / 2 ^ 40 := by positivity
  have hV : 0 ≤ var.val + eps.val := by linarith
  have n1 := near_addWith (R := R) vf ef (by rw [abs_of_nonneg hV]; unfold big; linarith)
  obtain ⟨x, hxm⟩ := nonneg_addWith (rd := R.rd) vn en
  have hx : x ≤ maxFloat := by
    have hf := n1.1
    obtain ⟨a, rfl⟩ := vn
    obtain ⟨b, rfl⟩ := en
    have e : addWith R.rd (.num false a) (.num false b) = .num false (R.rd (a + b)) := by simp [addWith]
    rw [e] at hf hxm
    obtain rfl : R.rd (a + b) = x := by simpa using hxm
    exact R.largest _ hf
  obtain ⟨y, hyb, hqy⟩ := q.finite x hx
  have hr := hq x hx
  have hn := n1.2
  have hxv : (addWith R.rd var eps).val = x.toReal := by rw [hxm]; simp [Flt.val]
  have hyf : (q.fn (add R var eps)).Finite := by
    show (q.fn (addWith R.rd var eps)).Finite
    rw [hxm, hqy]
    exact ne_top_of_le_ne_top (by simp) hyb
  have hrv : (q.fn (add R var eps)).val = (q.fn (.num false x)).val := by
    show (q.fn (addWith R.rd var eps)).val = _
    rw [hxm]
  rw [← hrv] at hr
  rw [hxv, abs_of_nonneg hV] at hn
  set r := (q.fn (add R var eps)).val with hrd
  set S := √(var.val + eps.val) with hS
  have h1 := sqrt_perturb ENNReal.toReal_nonneg hV hn
  rw [← hS] at h1
  have hS20 : 1 / 2 ^ 20 ≤ S := by
    rw [hS]
    refine Real.le_sqrt_of_sq_le ?_
    have : ((1 : ℝ) / 2 ^ 20) ^ 2 = 1 / 2 ^ 40 := by norm_num
    linarith
  have hS0 : 0 < S := lt_of_lt_of_le (by positivity) hS20
  have h75 : (1 : ℝ) / 2 ^ 75 ≤ u / 1000 * (1 / 2 ^ 20) := by unfold u; norm_num
  have hηs : η ≤ 1 / 2 ^ 75 * (1 / 2 ^ 20) := by unfold η; norm_num
  have hk : |r - S| ≤ (1.01 * ρ + 1.01 * u) * S := by
    have k1 : √x.toReal ≤ S + (u * S + 1 / 2 ^ 75) := by linarith [(abs_le.1 h1).2]
    have k2 := mul_le_mul_of_nonneg_left k1 hρ
    have k3 := abs_sub_le r (√x.toReal) S
    have k4 : ρ * (u * S) ≤ ρ * (1 / 10 ^ 7 * S) := mul_le_mul_of_nonneg_left (mul_le_mul_of_nonneg_right hus hS0.le) hρ
    have k5 := mul_le_mul_of_nonneg_right hρ' (by positivity : (0 : ℝ) ≤ 1 / 2 ^ 75)
    have k6 : 0 ≤ ρ * S := by positivity
    have k7 : u / 1000 * (1 / 2 ^ 20) ≤ u / 1000 * S := mul_le_mul_of_nonneg_left hS20 (by positivity)
    have k8 : 0 ≤ u * S := by positivity
    linarith
  have hκ : 1.01 * ρ + 1.01 * u ≤ 1 / 500 := by linarith
  have hr1 : 0.998 * S ≤ r := by
    have k1 := (abs_le.1 hk).1
    have k2 := mul_le_mul_of_nonneg_right hκ hS0.le
    linarith
  have hr0 : 0 < r := lt_of_lt_of_le (by linarith) hr1
  have n2 := near_div (R := R) gf hyf hr0.ne' (by
    rw [abs_div, abs_of_pos hr0, div_le_iff₀ hr0]
    have : big * (0.998 * (1 / 2 ^ 20)) ≤ big * r := mul_le_mul_of_nonneg_left (by linarith) (by unfold big; positivity)
    refine le_trans gb (le_trans ?_ this)
    unfold big
    norm_num)
  refine ⟨n2.1, ?_⟩
  have k := FloatAdamStepP.quotient_error (p := gamma.val) (P := gamma.val) (τ := 0) (by rw [sub_self, abs_zero]; positivity) hk
    (le_trans (by norm_num) hS20) (by positivity) hκ le_rfl n2.2
  have k6 : 0 ≤ |gamma.val / S| := abs_nonneg _
  have k7 : 0 ≤ u * |gamma.val / S| := by positivity
  have k8 : 0 ≤ ρ * |gamma.val / S| := by positivity
  linarith

/-- One element: `M` bounds what is left of the input without the mean, `C` the factor. -/
theorem batchNorm_error (hq : SqrtNear q ρ) (hρ : 0 ≤ ρ) (hρ' : ρ ≤ 1 / 2 ^ 10) {mean var gamma beta eps x y : Flt} (hu' : Usable var gamma eps)
    (hm : mean.Finite) (hb : beta.Finite) (hx : x.Finite) (h : BatchNormEval R q mean var gamma beta eps x y) {M C β : ℝ}
    (hM : |x.val - mean.val| ≤ M) (hC : |gamma.val / √(var.val + eps.val)| ≤ C) (hβ : |beta.val| ≤ β) (hM' : M ≤ 2 ^ 120) (hC' : C ≤ 2 ^ 120)
    (hCM : C * M + β ≤ 2 ^ 120) :
    y.Finite ∧ |y.val - scaled mean.val var.val gamma.val beta.val eps.val x.val| ≤ (8 * u + 1.2 * ρ) * (C * M + β) + 2 * η * (M + C + 3) := by
  have hu := u_pos
  have hη := η_pos
  have hus := u_small
  have hηs : η * 2 ^ 122 ≤ 1 / 10 ^ 5 := by unfold η; norm_num
  obtain ⟨cf, ce⟩ := factor_error (R := R) hq hρ hρ' hu'
  set c := div R gamma (q.fn (add R var eps)) with hc
  set C₀ := gamma.val / √(var.val + eps.val) with hC₀
  have M0 : 0 ≤ M := (abs_nonneg _).trans hM
  have C0 : 0 ≤ C := (abs_nonneg _).trans hC
  have β0 : 0 ≤ β := (abs_nonneg _).trans hβ
  have nm := neg_finite hm
  have n1 := near_addWith (R := R) hx nm.1 (by
    rw [nm.2, ← sub_eq_add_neg]
    refine hM.trans (hM'.trans ?_)
    unfold big
    norm_num)
  rw [nm.2, ← sub_eq_add_neg] at n1
  have t1 : |(sub R x mean).val - (x.val - mean.val)| ≤ u * M + η := n1.2.trans (by linarith [mul_le_mul_of_nonneg_left hM hu.le])
  set t := sub R x mean with ht
  have tb : |t.val| ≤ M + (u * M + η) := by
    have := abs_sub_le t.val (x.val - mean.val) 0
    rw [sub_zero, sub_zero] at this
    linarith
  have ce' : |c.val - C₀| ≤ (4.1 * u + 1.1 * ρ) * C + η := ce.trans (by linarith [mul_le_mul_of_nonneg_left hC (by positivity : 0 ≤ 4.1 * u + 1.1 * ρ)])
  have P0 : 0 ≤ C * M := by positivity
  -- the product
  have key : |t.val * c.val - (x.val - mean.val) * C₀| ≤ (5.2 * u + 1.11 * ρ) * (C * M) + 1.01 * η * (M + C + 1) := by
    have e : t.val * c.val - (x.val - mean.val) * C₀ = t.val * (c.val - C₀) + (t.val - (x.val - mean.val)) * C₀ := by ring
    rw [e]
    refine (abs_add_le _ _).trans ?_
    rw [abs_mul, abs_mul]
    have e1 := mul_le_mul tb ce' (abs_nonneg _) (by positivity)
    have e2 := mul_le_mul t1 hC (abs_nonneg _) (by positivity)
    have f1 : (M + (u * M + η)) * ((4.1 * u + 1.1 * ρ) * C + η) = (4.1 * u + 1.1 * ρ) * (C * M) + u * ((4.1 * u + 1.1 * ρ) * (C * M)) +
      (4.1 * u + 1.1 * ρ) * (η * C) + η * M + u * (η * M) + η * η := by ring
    have f2 : (u * M + η) * C = u * (C * M) + η * C := by ring
    have g1 : u * ((4.1 * u + 1.1 * ρ) * (C * M)) ≤ 1 / 10 ^ 7 * ((4.1 * u + 1.1 * ρ) * (C * M)) := mul_le_mul_of_nonneg_right hus (by positivity)
    have g2 : (4.1 * u + 1.1 * ρ) * (η * C) ≤ 1 / 500 * (η * C) := mul_le_mul_of_nonneg_right (by linarith) (by positivity)
    have g3 : u * (η * M) ≤ 1 / 10 ^ 7 * (η * M) := mul_le_mul_of_nonneg_right hus (by positivity)
    have g4 : η * η ≤ 1 / 10 ^ 5 * η := mul_le_mul_of_nonneg_right (by linarith) hη.le
    have g5 : 0 ≤ u * (C * M) := by positivity
    have g6 : 0 ≤ ρ * (C * M) := by positivity
    have g7 : 0 ≤ η * C := by positivity
    have g8 : 0 ≤ η * M := by positivity
    linarith
  have pb : |t.val * c.val| ≤ 1.002 * (C * M) + 1.01 * η * (M + C + 1) := by
    have e1 := abs_sub_le (t.val * c.val) ((x.val - mean.val) * C₀) 0
    rw [sub_zero, sub_zero, abs_mul (x.val - mean.val)] at e1
    have e2 := mul_le_mul hM hC (abs_nonneg _) M0
    have e3 : (5.2 * u + 1.11 * ρ) * (C * M) ≤ 0.0015 * (C * M) := mul_le_mul_of_nonneg_right (by linarith) P0
    linarith
  have small : η * (M + C + 1) ≤ η * 2 ^ 122 := mul_le_mul_of_nonneg_left (by linarith) hη.le
  obtain ⟨yf, ye⟩ := mulAdd_error h n1.1 cf hb pb hβ (by linarith)
  refine ⟨yf, ?_⟩
  have e1 := abs_sub_le y.val (t.val * c.val + beta.val) (scaled mean.val var.val gamma.val beta.val eps.val x.val)
  rw [show scaled mean.val var.val gamma.val beta.val eps.val x.val = (x.val - mean.val) * C₀ + beta.val from rfl, add_sub_add_right_eq_sub] at e1
  have g5 : 0 ≤ u * (C * M) := by positivity
  have g6 : 0 ≤ ρ * (C * M) := by positivity
  have g7 : 0 ≤ u * β := by positivity
  have g8 : 0 ≤ ρ * β := by positivity
  have g9 : u * (η * (M + C + 1)) ≤ 1 / 10 ^ 7 * (η * (M + C + 1)) := mul_le_mul_of_nonneg_right hus (by positivity)
  have g10 : 0 ≤ η * (M + C + 1) := by positivity
  show |y.val - ((x.val - mean.val) * C₀ + beta.val)| ≤ _
  have f3 : 2 * η * (M + C + 3) = 2 * (η * (M + C + 1)) + 4 * η := by ring
  rw [f3]
  linarith

end

end DW.Props.FloatNormP
