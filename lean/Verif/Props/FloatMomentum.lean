import Verif.Model.FloatOptim
import Verif.Props.FloatAct
/-!
# C109: momentum in `float`

The velocity is a geometric sum over all steps so far. Rounding errors are damped in the same way as old gradients, so that they do not
accumulate: the bounds do not depend on the number of steps.
-/

set_option autoImplicit false

namespace DW.Props.FloatMomentumP

open DW.Float DW.Props.FloatSoftmaxP DW.Props.FloatDotP DW.Props.FloatGradP DW.Props.FloatActP
open scoped ENNReal

noncomputable section

variable {R : Rounding}

theorem neg_finite {a : Flt} (h : a.Finite) : a.neg.Finite ∧ a.neg.val = -a.val := by
  rcases a with _ | ⟨s, a⟩
  · exact h.elim
  · exact ⟨h, by cases s <;> simp [Flt.neg, Flt.val]⟩

/-- The error of `a * b + c * d`. -/
theorem mulAddMul_error {a b c d r : Flt} (h : MulAddMul R a b c d r) (ha : a.Finite) (hb : b.Finite) (hc : c.Finite) (hd : d.Finite)
    {P Q : ℝ} (hP : |a.val * b.val| ≤ P) (hQ : |c.val * d.val| ≤ Q) (hPQ : P + Q ≤ 2 ^ 126) :
    r.Finite ∧ |r.val - (a.val * b.val + c.val * d.val)| ≤ 2.1 * u * (P + Q) + 4 * η := by
  have hu := u_pos
  have hη := η_pos
  have hus := u_small
  have hηs : η ≤ 1 := by unfold η; norm_num
  have hP0 : 0 ≤ P := (abs_nonneg _).trans hP
  have hQ0 : 0 ≤ Q := (abs_nonneg _).trans hQ
  have one : ∀ {a b : Flt} {P : ℝ}, a.Finite → b.Finite → |a.val * b.val| ≤ P → P ≤ 2 ^ 126 →
      (mul R a b).Finite ∧ |(mul R a b).val - a.val * b.val| ≤ u * P + η ∧ |(mul R a b).val| ≤ 1.001 * P + η := by
    intro a b P ha hb hP hPb
    have n := near_mul (R := R) ha hb (hP.trans (by unfold big; linarith))
    have h1 := mul_le_mul_of_nonneg_left hP hu.le
    have h2 := n.2
    have h3 := abs_sub_le (mul R a b).val (a.val * b.val) 0
    rw [sub_zero, sub_zero] at h3
    have h4 : u * P ≤ 1 / 10 ^ 7 * P := mul_le_mul_of_nonneg_right hus ((abs_nonneg _).trans hP)
    have h5 : 0 ≤ P := (abs_nonneg _).trans hP
    exact ⟨n.1, by linarith, by linarith⟩
  obtain ⟨f1, e1, b1⟩ := one ha hb hP (by linarith)
  obtain ⟨f2, e2, b2⟩ := one hc hd hQ (by linarith)
  have k : u * (P + Q) ≤ 1 / 10 ^ 7 * (P + Q) := mul_le_mul_of_nonneg_right hus (by linarith)
  have kη : u * η ≤ 1 / 10 ^ 7 * η := mul_le_mul_of_nonneg_right hus hη.le
  have ku : 0 ≤ u * P := by positivity
  have kv : 0 ≤ u * Q := by positivity
  rcases h with rfl | rfl | rfl
  · set x := mul R a b
    set y := mul R c d
    have hxy : |x.val + y.val| ≤ 1.001 * (P + Q) + 2 * η := by
      have := abs_add_le x.val y.val
      linarith
    have n := near_addWith (R := R) f1 f2 (hxy.trans (by unfold big; linarith))
    refine ⟨n.1, ?_⟩
    have n2 := n.2
    have h1 := mul_le_mul_of_nonneg_left hxy hu.le
    have h2 := abs_sub_le (addWith R.rd x y).val (x.val + y.val) (a.val * b.val + c.val * d.val)
    have h3 : |x.val + y.val - (a.val * b.val + c.val * d.val)| ≤ |x.val - a.val * b.val| + |y.val - c.val * d.val| := by
      rw [show x.val + y.val - (a.val * b.val + c.val * d.val) = (x.val - a.val * b.val) + (y.val - c.val * d.val) by ring]
      exact abs_add_le _ _
    show |(addWith R.rd x y).val - _| ≤ _
    linarith
  · set y := mul R c d
    have hxy : |a.val * b.val + y.val| ≤ 1.001 * (P + Q) + η := by
      have := abs_add_le (a.val * b.val) y.val
      linarith
    have n := near_fma (R := R) ha hb f2 (hxy.trans (by unfold big; linarith))
    refine ⟨n.1, ?_⟩
    have n2 := n.2
    have h1 := mul_le_mul_of_nonneg_left hxy hu.le
    have h2 := abs_sub_le (fma R a b y).val (a.val * b.val + y.val) (a.val * b.val + c.val * d.val)
    rw [show a.val * b.val + y.val - (a.val * b.val + c.val * d.val) = y.val - c.val * d.val by ring] at h2
    linarith
  · set x := mul R a b
    have hxy : |c.val * d.val + x.val| ≤ 1.001 * (P + Q) + η := by
      have := abs_add_le (c.val * d.val) x.val
      linarith
    have n := near_fma (R := R) hc hd f1 (hxy.trans (by unfold big; linarith))
    refine ⟨n.1, ?_⟩
    have n2 := n.2
    have h1 := mul_le_mul_of_nonneg_left hxy hu.le
    have h2 := abs_sub_le (fma R c d x).val (c.val * d.val + x.val) (a.val * b.val + c.val * d.val)
    rw [show c.val * d.val + x.val - (a.val * b.val + c.val * d.val) = x.val - a.val * b.val by ring] at h2
    linarith

/-- Momentum with exact arithmetic: velocity and weight after `t` steps with the gradients `g`. -/
def exactRun (gamma lr w₀ : ℝ) (g : ℕ → ℝ) : ℕ → ℝ × ℝ
  | 0 => (0, w₀)
  | t + 1 =>
    let v := gamma * (exactRun gamma lr w₀ g t).1 + lr * g t
    (v, (exactRun gamma lr w₀ g t).2 - v)

/-- The bound for velocities. -/
def Vmax (gamma A : ℝ) : ℝ := 1.01 * (A + 4 * η) / (1 - gamma)

/-- The bound for their errors. -/
def Verr (gamma A : ℝ) : ℝ := (2.1 * u * Vmax gamma A + 4 * η) / (1 - gamma)

theorem vmax_ok {γ A : ℝ} (hγ0 : 0 ≤ γ) (hγ : γ ≤ 1 - 1 / 2 ^ 10) (hA : 0 ≤ A) :
    (1 + 2.1 * u) * (γ * Vmax γ A + A) + 4 * η ≤ Vmax γ A ∧ 0 ≤ Vmax γ A ∧ Vmax γ A ≤ 1035 * (A + 4 * η) := by
  have hu := u_pos
  have hη := η_pos
  have hus := u_small
  have h1 : 0 < 1 - γ := by linarith
  have e : Vmax γ A * (1 - γ) = 1.01 * (A + 4 * η) := by unfold Vmax; field_simp
  have h0 : 0 ≤ Vmax γ A := by unfold Vmax; positivity
  have h2 : Vmax γ A * (1 / 2 ^ 10) ≤ Vmax γ A * (1 - γ) := mul_le_mul_of_nonneg_left (by linarith) h0
  have h3 : Vmax γ A ≤ 1035 * (A + 4 * η) := by linarith
  have h4 : γ * Vmax γ A ≤ 1 * Vmax γ A := mul_le_mul_of_nonneg_right (by linarith) h0
  have h5 : u * (γ * Vmax γ A) ≤ 1 / 10 ^ 7 * (1035 * (A + 4 * η)) :=
    mul_le_mul hus (by linarith) (by positivity) (by positivity)
  have h6 : u * A ≤ 1 / 10 ^ 7 * A := mul_le_mul_of_nonneg_right hus hA
  exact ⟨by linarith, h0, h3⟩

theorem verr_ok {γ A : ℝ} (hγ : γ ≤ 1 - 1 / 2 ^ 10) : 2.1 * u * Vmax γ A + 4 * η + γ * Verr γ A ≤ Verr γ A := by
  have h1 : 0 < 1 - γ := by linarith
  have e : Verr γ A * (1 - γ) = 2.1 * u * Vmax γ A + 4 * η := by unfold Verr; field_simp
  linarith

variable {gamma lr : Flt} {g v w : ℕ → Flt} {A : ℝ}

/-- **C109**: for every number of steps the velocity is finite, bounded by `1.01 A / (1 - gamma)` if `A` bounds `|lr * gradient|`, and differs
from the exact velocity for the same gradients by at most `2.2 u A / (1 - gamma) ^ 2`, apart from tiny numbers. -/
theorem velocity_error (hγ : gamma.Finite) (hγ0 : 0 ≤ gamma.val) (hγ1 : gamma.val ≤ 1 - 1 / 2 ^ 10) (hlr : lr.Finite)
    (hg : ∀ t, (g t).Finite) (hA : ∀ t, |lr.val * (g t).val| ≤ A) (hAb : A ≤ 2 ^ 110) (h0 : v 0 = 0)
    (hstep : ∀ t, MomentumStep R gamma lr (g t) (v t) (w t) (v (t + 1)) (w (t + 1))) (w₀ : ℝ) (t : ℕ) :
    (v t).Finite ∧ |(v t).val| ≤ Vmax gamma.val A ∧
      |(v t).val - (exactRun gamma.val lr.val w₀ (fun t => (g t).val) t).1| ≤ Verr gamma.val A := by
  have hu := u_pos
  have hη := η_pos
  have hηs : η ≤ 1 := by unfold η; norm_num
  have hA0 : 0 ≤ A := (abs_nonneg _).trans (hA 0)
  obtain ⟨hV, hV0, hVb⟩ := vmax_ok hγ0 hγ1 hA0
  have hE := verr_ok (A := A) hγ1
  induction t with
  | zero =>
    rw [h0]
    refine ⟨finite_zero, by rw [val_zero, abs_zero]; exact hV0, ?_⟩
    rw [val_zero, exactRun, sub_zero, abs_zero]
    unfold Verr
    have : 0 < 1 - gamma.val := by linarith
    positivity
  | succ t ih =>
    obtain ⟨hf, hb, he⟩ := ih
    have p1 : |gamma.val * (v t).val| ≤ gamma.val * Vmax gamma.val A := by
      rw [abs_mul, abs_of_nonneg hγ0]
      exact mul_le_mul_of_nonneg_left hb hγ0
    have p2 : gamma.val * Vmax gamma.val A ≤ 1 * Vmax gamma.val A := mul_le_mul_of_nonneg_right (by linarith) hV0
    obtain ⟨hf', hr⟩ := mulAddMul_error (hstep t).1 hγ hf hlr (hg t) p1 (hA t) (by linarith)
    refine ⟨hf', ?_, ?_⟩
    · have h1 := abs_sub_le (v (t + 1)).val (gamma.val * (v t).val + lr.val * (g t).val) 0
      rw [sub_zero, sub_zero] at h1
      have h2 := abs_add_le (gamma.val * (v t).val) (lr.val * (g t).val)
      have h3 := hA t
      linarith
    · rw [exactRun]
      set ve := (exactRun gamma.val lr.val w₀ (fun t => (g t).val) t).1
      have h1 := abs_sub_le (v (t + 1)).val (gamma.val * (v t).val + lr.val * (g t).val) (gamma.val * ve + lr.val * (g t).val)
      have h2 : |gamma.val * (v t).val + lr.val * (g t).val - (gamma.val * ve + lr.val * (g t).val)| ≤ gamma.val * Verr gamma.val A := by
        rw [show gamma.val * (v t).val + lr.val * (g t).val - (gamma.val * ve + lr.val * (g t).val) = gamma.val * ((v t).val - ve) by ring,
          abs_mul, abs_of_nonneg hγ0]
        exact mul_le_mul_of_nonneg_left he hγ0
      have h3 : gamma.val * Vmax gamma.val A + A ≤ Vmax gamma.val A := by
        have : 0 ≤ gamma.val * Vmax gamma.val A := by positivity
        have : 0 ≤ u * (gamma.val * Vmax gamma.val A + A) := by positivity
        linarith
      have h4 := mul_le_mul_of_nonneg_left h3 hu.le
      linarith

/-- **C109**: as long as the exact weights for the same gradients are bounded by `M`, the weight after `t` steps is finite and differs from
the exact one by at most `t` times the error of one step, which does not depend on `t`. -/
theorem weight_error (hγ : gamma.Finite) (hγ0 : 0 ≤ gamma.val) (hγ1 : gamma.val ≤ 1 - 1 / 2 ^ 10) (hlr : lr.Finite)
    (hg : ∀ t, (g t).Finite) (hA : ∀ t, |lr.val * (g t).val| ≤ A) (hAb : A ≤ 2 ^ 110) (h0 : v 0 = 0) (hw : (w 0).Finite)
    (hstep : ∀ t, MomentumStep R gamma lr (g t) (v t) (w t) (v (t + 1)) (w (t + 1))) {M δ : ℝ} (hMb : M ≤ 2 ^ 120)
    (hδ : δ = Verr gamma.val A + u * (2 * M + Vmax gamma.val A) + η) {T : ℕ}
    (hM : ∀ t ≤ T, |(exactRun gamma.val lr.val (w 0).val (fun t => (g t).val) t).2| ≤ M) (hT : T * δ ≤ M) {t : ℕ} (ht : t ≤ T) :
    (w t).Finite ∧ |(w t).val - (exactRun gamma.val lr.val (w 0).val (fun t => (g t).val) t).2| ≤ t * δ := by
  have hu := u_pos
  have hη := η_pos
  have hηs : η ≤ 1 := by unfold η; norm_num
  have hA0 : 0 ≤ A := (abs_nonneg _).trans (hA 0)
  obtain ⟨hV, hV0, hVb⟩ := vmax_ok hγ0 hγ1 hA0
  have hM0 : 0 ≤ M := (abs_nonneg _).trans (hM 0 (Nat.zero_le _))
  have hδ0 : 0 ≤ δ := by
    have : 0 ≤ Verr gamma.val A := by
      unfold Verr
      have : 0 < 1 - gamma.val := by linarith
      positivity
    rw [hδ]
    positivity
  induction t with
  | zero =>
    refine ⟨hw, ?_⟩
    rw [exactRun]
    simp
  | succ t ih =>
    obtain ⟨hf, he⟩ := ih (by omega)
    obtain ⟨hvf, hvb, hve⟩ := velocity_error hγ hγ0 hγ1 hlr hg hA hAb h0 hstep (w 0).val (t + 1)
    have hwt : |(w t).val| ≤ 2 * M := by
      have h1 := abs_sub_le (w t).val (exactRun gamma.val lr.val (w 0).val (fun t => (g t).val) t).2 0
      rw [sub_zero, sub_zero] at h1
      have h2 := hM t (by omega)
      have h3 : (t : ℝ) * δ ≤ T * δ := mul_le_mul_of_nonneg_right (by exact_mod_cast (by omega : t ≤ T)) hδ0
      linarith
    have hneg := neg_finite hvf
    have hsum : |(w t).val + (v (t + 1)).neg.val| ≤ 2 * M + Vmax gamma.val A := by
      rw [hneg.2]
      have := abs_add_le (w t).val (-(v (t + 1)).val)
      rw [abs_neg] at this
      linarith
    have n := near_addWith (R := R) hf hneg.1 (hsum.trans (by unfold big; linarith))
    rw [(hstep t).2]
    refine ⟨n.1, ?_⟩
    have n2 := n.2
    have h1 := mul_le_mul_of_nonneg_left hsum hu.le
    rw [exactRun]
    set we := (exactRun gamma.val lr.val (w 0).val (fun t => (g t).val) t).2
    have hv1 : (exactRun gamma.val lr.val (w 0).val (fun t => (g t).val) (t + 1)).1 =
      gamma.val * (exactRun gamma.val lr.val (w 0).val (fun t => (g t).val) t).1 + lr.val * (g t).val := rfl
    rw [hv1] at hve
    set ve := gamma.val * (exactRun gamma.val lr.val (w 0).val (fun t => (g t).val) t).1 + lr.val * (g t).val
    have h2 := abs_sub_le (sub R (w t) (v (t + 1))).val ((w t).val + (v (t + 1)).neg.val) (we - ve)
    have h3 : |(w t).val + (v (t + 1)).neg.val - (we - ve)| ≤ |(w t).val - we| + |(v (t + 1)).val - ve| := by
      rw [hneg.2, show (w t).val + -(v (t + 1)).val - (we - ve) = ((w t).val - we) - ((v (t + 1)).val - ve) by ring]
      exact abs_sub _ _
    have n3 : |(sub R (w t) (v (t + 1))).val - ((w t).val + (v (t + 1)).neg.val)| ≤ u * |(w t).val + (v (t + 1)).neg.val| + η := n2
    push_cast
    show |(sub R (w t) (v (t + 1))).val - (we - ve)| ≤ _
    linarith

/-- There are such runs. -/
theorem run_exists (R : Rounding) (gamma lr w₀ : Flt) (g : ℕ → Flt) : ∃ v w : ℕ → Flt, v 0 = 0 ∧ w 0 = w₀ ∧
    ∀ t, MomentumStep R gamma lr (g t) (v t) (w t) (v (t + 1)) (w (t + 1)) := by
  let run : ℕ → Flt × Flt := fun t => Nat.rec (0, w₀) (fun t p =>
    let v := add R (mul R gamma p.1) (mul R lr (g t))
    (v, sub R p.2 v)) t
  exact ⟨fun t => (run t).1, fun t => (run t).2, rfl, rfl, fun t => ⟨.inl rfl, rfl⟩⟩

/-- The hypotheses of `velocity_error` hold for `gamma = 1 / 2`, `lr = 1` and the gradient 1 in every step. -/
example : ∃ (gamma : Flt) (v w : ℕ → Flt), gamma.Finite ∧ 0 ≤ gamma.val ∧ gamma.val ≤ 1 - 1 / 2 ^ 10 ∧ v 0 = 0 ∧ w 0 = 1 ∧
    (∀ t, MomentumStep binary32 gamma 1 1 (v t) (w t) (v (t + 1)) (w (t + 1))) ∧ |(1 : Flt).val * (1 : Flt).val| ≤ 1 := by
  have h : (Flt.num false 2⁻¹).val = 1 / 2 := by simp [Flt.val]
  obtain ⟨v, w, h1, h2, h3⟩ := run_exists binary32 (.num false 2⁻¹) 1 1 fun _ => 1
  exact ⟨.num false 2⁻¹, v, w, by simp [Flt.Finite], by rw [h]; norm_num, by rw [h]; norm_num, h1, h2, h3, by rw [val_one]; norm_num⟩

end

end DW.Props.FloatMomentumP
