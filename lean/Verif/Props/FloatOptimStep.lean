import Verif.Props.FloatAdamStep
/-!
# C124: one update of a parameter for a gradient with an error

`x` is the exact gradient, the program's gradient `g` is within `d` of it. What momentum and Adam store is compared with their formulas for `x`.
-/

set_option autoImplicit false

namespace DW.Props.FloatOptimStepP

open DW.Float DW.Props.FloatSoftmaxP DW.Props.FloatDotP DW.Props.FloatGradP DW.Props.FloatActP DW.Props.FloatMomentumP DW.Props.FloatAdamP
  DW.Props.FloatAdamStepP
open scoped ENNReal

noncomputable section

variable {R : Rounding} {q : Sqrt} {x d : ℝ}

/-! ## Momentum -/

/-- The error of the velocity. -/
def velocityError (gamma lr v x d : ℝ) : ℝ := |lr| * d + 2.1 * u * (|gamma * v| + |lr| * (|x| + d)) + 4 * η

/-- The error of the weight. -/
def momentumError (gamma lr w v x d : ℝ) : ℝ := 1.01 * velocityError gamma lr v x d + u * (|w| + |gamma * v| + |lr * x|) + η

theorem momentum_once {gamma lr g v w v' w' : Flt} (h : MomentumStep R gamma lr g v w v' w') (hγ : gamma.Finite) (hl : lr.Finite) (hg : g.Finite)
    (he : |g.val - x| ≤ d) (hv : v.Finite) (hw : w.Finite) (hvb : |gamma.val * v.val| ≤ 2 ^ 124) (hxb : |lr.val| * (|x| + d) ≤ 2 ^ 124)
    (hwb : |w.val| ≤ 2 ^ 125) :
    (v'.Finite ∧ |v'.val - (gamma.val * v.val + lr.val * x)| ≤ velocityError gamma.val lr.val v.val x d) ∧
    w'.Finite ∧ |w'.val - (w.val - (gamma.val * v.val + lr.val * x))| ≤ momentumError gamma.val lr.val w.val v.val x d := by
  have hu := u_pos
  have hus := u_small
  have hη := η_pos
  have hηs : η ≤ 1 := by unfold η; norm_num
  have hd : 0 ≤ d := (abs_nonneg _).trans he
  have h0 := abs_nonneg lr.val
  have h1 : |g.val| ≤ |x| + d := by linarith [abs_sub_abs_le_abs_sub g.val x]
  have h2 : |lr.val * g.val| ≤ |lr.val| * (|x| + d) := by rw [abs_mul]; exact mul_le_mul_of_nonneg_left h1 h0
  obtain ⟨f1, e1⟩ := mulAddMul_error h.1 hγ hv hl hg le_rfl h2 (by linarith)
  have e2 : |gamma.val * v.val + lr.val * g.val - (gamma.val * v.val + lr.val * x)| ≤ |lr.val| * d := by
    rw [add_sub_add_left_eq_sub, ← mul_sub, abs_mul]
    exact mul_le_mul_of_nonneg_left he h0
  have e3 := abs_sub_le v'.val (gamma.val * v.val + lr.val * g.val) (gamma.val * v.val + lr.val * x)
  have hV : |v'.val - (gamma.val * v.val + lr.val * x)| ≤ velocityError gamma.val lr.val v.val x d := by unfold velocityError; linarith
  refine ⟨⟨f1, hV⟩, ?_⟩
  have hE : 0 ≤ velocityError gamma.val lr.val v.val x d := (abs_nonneg _).trans hV
  have hn := neg_finite f1
  have b1 := abs_add_le (gamma.val * v.val) (lr.val * x)
  have b2 : |lr.val * x| ≤ |lr.val| * (|x| + d) := by rw [abs_mul]; exact mul_le_mul_of_nonneg_left (by linarith) h0
  have b3 := abs_sub_abs_le_abs_sub v'.val (gamma.val * v.val + lr.val * x)
  have b4 : |w.val + v'.neg.val| ≤ |w.val| + (|gamma.val * v.val| + |lr.val * x| + velocityError gamma.val lr.val v.val x d) := by
    rw [hn.2]
    have := abs_add_le w.val (-v'.val)
    rw [abs_neg] at this
    linarith
  have hEb : velocityError gamma.val lr.val v.val x d ≤ 1.5 * 2 ^ 124 := by
    have k1 : |lr.val| * d ≤ |lr.val| * (|x| + d) := mul_le_mul_of_nonneg_left (by linarith [abs_nonneg x]) h0
    have k2 : u * (|gamma.val * v.val| + |lr.val| * (|x| + d)) ≤ 1 / 10 ^ 7 * (2 ^ 124 + 2 ^ 124) :=
      mul_le_mul hus (by linarith) (add_nonneg (abs_nonneg _) (mul_nonneg h0 (add_nonneg (abs_nonneg _) hd))) (by norm_num)
    unfold velocityError
    linarith
  have n := near_addWith (R := R) hw hn.1 (b4.trans (by unfold big; linarith))
  have hw' : w' = addWith R.rd w v'.neg := h.2
  rw [← hw'] at n
  refine ⟨n.1, ?_⟩
  have n2 := n.2
  rw [hn.2] at n2 b4
  have k := mul_le_mul_of_nonneg_left b4 hu.le
  have k2 : u * velocityError gamma.val lr.val v.val x d ≤ 1 / 10 ^ 7 * velocityError gamma.val lr.val v.val x d := mul_le_mul_of_nonneg_right hus hE
  have e4 := abs_sub_le w'.val (w.val + -v'.val) (w.val - (gamma.val * v.val + lr.val * x))
  rw [show w.val + -v'.val - (w.val - (gamma.val * v.val + lr.val * x)) = -(v'.val - (gamma.val * v.val + lr.val * x)) by ring, abs_neg] at e4
  unfold momentumError
  linarith

/-! ## Adam -/

/-- How much a square root changes. -/
theorem sqrt_change {a b δ : ℝ} (ha : 0 ≤ a) (hb : 0 ≤ b) (h : |a - b| ≤ δ) : |√a - √b| ≤ 1.5 * δ / √(b + δ) := by
  have hδ : 0 ≤ δ := (abs_nonneg _).trans h
  obtain ⟨h1, h2⟩ := abs_le.1 h
  rcases hδ.eq_or_lt with rfl | hδ
  · have : a = b := by linarith
    rw [this, sub_self, abs_zero]
    positivity
  have hs : 0 < √(b + δ) := Real.sqrt_pos.2 (by linarith)
  rw [le_div_iff₀ hs]
  set p := √a with hp
  set r := √b with hr
  set s := √(b + δ) with hs'
  have p0 : 0 ≤ p := Real.sqrt_nonneg a
  have r0 : 0 ≤ r := Real.sqrt_nonneg b
  have p2 : p ^ 2 = a := Real.sq_sqrt ha
  have r2 : r ^ 2 = b := Real.sq_sqrt hb
  have s2 : s ^ 2 = b + δ := Real.sq_sqrt (by linarith)
  have rs : r ≤ s := Real.sqrt_le_sqrt (by linarith)
  have ps : p ≤ s := Real.sqrt_le_sqrt (by linarith)
  rcases le_total r p with hle | hle
  · rw [abs_of_nonneg (by linarith)]
    have k1 : (p - r) * s ≤ (s - r) * s := mul_le_mul_of_nonneg_right (by linarith) hs.le
    have k2 : r * r ≤ r * s := mul_le_mul_of_nonneg_left rs r0
    linarith
  · rw [abs_of_nonpos (by linarith), neg_sub]
    rcases le_total b δ with hb' | hb'
    · have k1 : (r - p) * s ≤ r * s := mul_le_mul_of_nonneg_right (by linarith) hs.le
      have k2 : (r * s) ^ 2 ≤ (1.5 * δ) ^ 2 := by
        rw [mul_pow, r2, s2]
        have k3 : b * (b + δ) ≤ δ * (δ + δ) := mul_le_mul hb' (by linarith) (by linarith) hδ.le
        have : 0 ≤ δ * δ := by positivity
        linarith
      exact k1.trans (abs_le_of_sq_le_sq' k2 (by linarith)).2
    · have k1 : s ≤ 1.5 * r := by
        refine (abs_le_of_sq_le_sq' ?_ (by linarith)).2
        rw [mul_pow, r2, s2]
        linarith
      have k2 : (r - p) * s ≤ (r - p) * (1.5 * r) := mul_le_mul_of_nonneg_left k1 (by linarith)
      have k3 : 0 ≤ (r - p) * p := mul_nonneg (by linarith) p0
      linarith

/-- How much a step of Adam changes with the mean and the variance. -/
theorem step_change {lr ε c₁ c₂ m v m₀ v₀ δ γ κ : ℝ} (hε : 0 < ε) (hc₁ : 0 < c₁) (hc₂ : 0 < c₂) (hv : 0 ≤ v) (hv₀ : 0 ≤ v₀) (hm : |m - m₀| ≤ δ)
    (hvv : |v - v₀| ≤ γ) (hκ : κ = 1.5 * (γ / c₂) / √(v₀ / c₂ + γ / c₂)) :
    |exactStep lr ε c₁ c₂ m v - exactStep lr ε c₁ c₂ m₀ v₀| ≤
      |lr| / c₁ * ((δ + |m₀| * κ / (√(v₀ / c₂) + ε)) / max ε (√(v₀ / c₂) + ε - κ)) := by
  have hk : |√(v / c₂) - √(v₀ / c₂)| ≤ κ := by
    rw [hκ]
    refine sqrt_change (div_nonneg hv hc₂.le) (div_nonneg hv₀ hc₂.le) ?_
    rw [← sub_div, abs_div, abs_of_pos hc₂]
    exact div_le_div_of_nonneg_right hvv hc₂.le
  have hδ : 0 ≤ δ := (abs_nonneg _).trans hm
  have hκ0 : 0 ≤ κ := (abs_nonneg _).trans hk
  have a0 := Real.sqrt_nonneg (v / c₂)
  have b0 := Real.sqrt_nonneg (v₀ / c₂)
  obtain ⟨Q, hQ⟩ : ∃ Q, Q = √(v / c₂) + ε := ⟨_, rfl⟩
  obtain ⟨Q₀, hQ₀⟩ : ∃ Q₀, Q₀ = √(v₀ / c₂) + ε := ⟨_, rfl⟩
  have hQp : 0 < Q := by linarith
  have hQ₀p : 0 < Q₀ := by linarith
  have hQd : |Q - Q₀| ≤ κ := by rw [hQ, hQ₀, add_sub_add_right_eq_sub]; exact hk
  have hM : max ε (Q₀ - κ) ≤ Q := max_le (by linarith) (by linarith [(abs_le.1 hQd).1])
  have hMp : 0 < max ε (Q₀ - κ) := lt_of_lt_of_le hε (le_max_left _ _)
  unfold exactStep
  rw [← hQ, ← hQ₀]
  have e : lr * (m / c₁) / Q - lr * (m₀ / c₁) / Q₀ = lr / c₁ * (((m - m₀) - m₀ * (Q - Q₀) / Q₀) / Q) := by field_simp; ring
  rw [e, abs_mul, abs_div, abs_of_pos hc₁]
  refine mul_le_mul_of_nonneg_left ?_ (div_nonneg (abs_nonneg _) hc₁.le)
  rw [abs_div, abs_of_pos hQp]
  have k1 : |m - m₀ - m₀ * (Q - Q₀) / Q₀| ≤ δ + |m₀| * κ / Q₀ := by
    refine (abs_sub _ _).trans (add_le_add hm ?_)
    rw [abs_div, abs_mul, abs_of_pos hQ₀p]
    exact div_le_div_of_nonneg_right (mul_le_mul_of_nonneg_left hQd (abs_nonneg _)) hQ₀p.le
  exact div_le_div₀ (add_nonneg hδ (div_nonneg (mul_nonneg (abs_nonneg _) hκ0) hQ₀p.le)) k1 hMp hM

/-- The error of the moving mean. -/
def meanError (beta m x d : ℝ) : ℝ := (1 - beta) * d + 4 * u * (beta * |m| + (1 - beta) * (|x| + d)) + 5 * η

/-- The error of the moving variance. -/
def varianceError (beta v x d : ℝ) : ℝ := (1 - beta) * (d * (2 * |x| + d)) + 5 * u * (beta * v + (1 - beta) * (|x| + d) ^ 2) + 6 * η

/-- The error of the square root of the variance `v` with the error `γ`, both divided by `c`. -/
def rootError (c v γ : ℝ) : ℝ := 1.5 * (γ / c) / √(v / c + γ / c)

/-- The error of a step with the exact mean `m` and variance `v` whose errors are `δ` and `γ`. -/
def changeError (lr ε c₁ c₂ m v δ γ : ℝ) : ℝ :=
  |lr| / c₁ * ((δ + |m| * rootError c₂ v γ / (√(v / c₂) + ε)) / max ε (√(v / c₂) + ε - rootError c₂ v γ))

/-- The formulas of Adam for the gradient `x`: the new mean and variance. -/
def newMean (s : AdamSettings) (m x : ℝ) : ℝ := s.beta1.val * m + (1 - s.beta1.val) * x

@[inherit_doc newMean]
def newVariance (s : AdamSettings) (v x : ℝ) : ℝ := s.beta2.val * v + (1 - s.beta2.val) * x ^ 2

/-- The error of the weight. -/
def adamError (s : AdamSettings) (ρ c₁ c₂ w m v x d : ℝ) : ℝ :=
  u * |w| + (6.5 * u + 1.1 * ρ) * |exactStep s.lr.val s.epsilon.val c₁ c₂ (newMean s m x) (newVariance s v x)| +
    1.01 * changeError s.lr.val s.epsilon.val c₁ c₂ (newMean s m x) (newVariance s v x) (meanError s.beta1.val m x d) (varianceError s.beta2.val v x d) +
    1 / 2 ^ 96

theorem adam_error_once {s : AdamSettings} {c₁ c₂ : Flt} {ρ : ℝ} (hs : Usual s (fun _ => c₁) fun _ => c₂) (hq : SqrtNear q ρ) (hρ : 0 ≤ ρ)
    (hρ' : ρ ≤ 1 / 2 ^ 10) {g m v w m' v' w' : Flt} (h : AdamStep R q s c₁ c₂ g m v w m' v' w') (hg : g.Finite) (he : |g.val - x| ≤ d)
    (hx : |x| + d ≤ 2 ^ 55) (mf : m.Finite) (mb : |m.val| ≤ 1.02 * 2 ^ 55) (vf : v.Finite) (vn : Nonneg v) (vb : v.val ≤ 1.04 * 2 ^ 110) (hw : w.Finite)
    (hwb : |w.val| ≤ 2 ^ 126) :
    (m'.Finite ∧ |m'.val - newMean s m.val x| ≤ meanError s.beta1.val m.val x d) ∧
    (v'.Finite ∧ Nonneg v' ∧ |v'.val - newVariance s v.val x| ≤ varianceError s.beta2.val v.val x d) ∧
    w'.Finite ∧ |w'.val - (w.val - exactStep s.lr.val s.epsilon.val c₁.val c₂.val (newMean s m.val x) (newVariance s v.val x))| ≤
      adamError s ρ c₁.val c₂.val w.val m.val v.val x d := by
  have hu := u_pos
  have hus := u_small
  have hd : 0 ≤ d := (abs_nonneg _).trans he
  have hgb : |g.val| ≤ |x| + d := by linarith [abs_sub_abs_le_abs_sub g.val x]
  obtain ⟨⟨mf', me⟩, ⟨vf', vn', ve⟩, hW⟩ := adam_once (t := 0) hs hq hρ hρ' hg (hgb.trans hx) mf mb vf vn vb h
  obtain ⟨wf, we⟩ := hW hw hwb
  obtain ⟨-, b10, b11⟩ := hs.beta1
  obtain ⟨b2n, -, b21⟩ := hs.beta2
  have b20 := b2n.val_nonneg
  have s14 : (0 : ℝ) ≤ 1 / 2 ^ 14 := by positivity
  have hb1 : 0 ≤ 1 - s.beta1.val := by linarith
  have hb2 : 0 ≤ 1 - s.beta2.val := by linarith
  have hm : |m'.val - newMean s m.val x| ≤ meanError s.beta1.val m.val x d := by
    have e1 := abs_sub_le m'.val (s.beta1.val * m.val + (1 - s.beta1.val) * g.val) (newMean s m.val x)
    have e2 : |s.beta1.val * m.val + (1 - s.beta1.val) * g.val - newMean s m.val x| ≤ (1 - s.beta1.val) * d := by
      unfold newMean
      rw [add_sub_add_left_eq_sub, ← mul_sub, abs_mul, abs_of_nonneg hb1]
      exact mul_le_mul_of_nonneg_left he hb1
    have e3 := mul_le_mul_of_nonneg_left (mul_le_mul_of_nonneg_left hgb hb1) hu.le
    unfold meanError
    linarith
  have hsq : |g.val ^ 2 - x ^ 2| ≤ d * (2 * |x| + d) := by
    rw [sq_sub_sq, abs_mul, mul_comm]
    have := abs_add_le g.val x
    exact mul_le_mul he (by linarith) (abs_nonneg _) hd
  have hgs : g.val ^ 2 ≤ (|x| + d) ^ 2 := by
    rw [← sq_abs]
    exact pow_le_pow_left₀ (abs_nonneg _) hgb 2
  have hv : |v'.val - newVariance s v.val x| ≤ varianceError s.beta2.val v.val x d := by
    have e1 := abs_sub_le v'.val (s.beta2.val * v.val + (1 - s.beta2.val) * g.val ^ 2) (newVariance s v.val x)
    have e2 : |s.beta2.val * v.val + (1 - s.beta2.val) * g.val ^ 2 - newVariance s v.val x| ≤ (1 - s.beta2.val) * (d * (2 * |x| + d)) := by
      unfold newVariance
      rw [add_sub_add_left_eq_sub, ← mul_sub, abs_mul, abs_of_nonneg hb2]
      exact mul_le_mul_of_nonneg_left hsq hb2
    have e3 := mul_le_mul_of_nonneg_left (mul_le_mul_of_nonneg_left hgs hb2) hu.le
    unfold varianceError
    linarith
  refine ⟨⟨mf', hm⟩, ⟨vf', vn', hv⟩, wf, ?_⟩
  have hε : 0 < s.epsilon.val := lt_of_lt_of_le (by positivity) hs.epsilon.2.2.1
  have hc₁ : 0 < c₁.val := lt_of_lt_of_le (by positivity) (hs.first 0).2
  have hc₂ : 0 < c₂.val := lt_of_lt_of_le (by positivity) (hs.second 0).2.2
  have hv₀ : 0 ≤ newVariance s v.val x := add_nonneg (mul_nonneg b20 vn.val_nonneg) (mul_nonneg hb2 (sq_nonneg _))
  have hc := step_change (lr := s.lr.val) hε hc₁ hc₂ vn'.val_nonneg hv₀ hm hv rfl
  change _ ≤ changeError s.lr.val s.epsilon.val c₁.val c₂.val (newMean s m.val x) (newVariance s v.val x) (meanError s.beta1.val m.val x d)
    (varianceError s.beta2.val v.val x d) at hc
  unfold adamError
  obtain ⟨E, hE⟩ : ∃ E, E = exactStep s.lr.val s.epsilon.val c₁.val c₂.val m'.val v'.val := ⟨_, rfl⟩
  rw [← hE] at we hc
  generalize exactStep s.lr.val s.epsilon.val c₁.val c₂.val (newMean s m.val x) (newVariance s v.val x) = E₀ at hc ⊢
  generalize changeError s.lr.val s.epsilon.val c₁.val c₂.val (newMean s m.val x) (newVariance s v.val x) (meanError s.beta1.val m.val x d)
    (varianceError s.beta2.val v.val x d) = Δ at hc ⊢
  have hΔ : 0 ≤ Δ := (abs_nonneg _).trans hc
  have k1 : |E| ≤ |E₀| + Δ := by linarith [abs_sub_abs_le_abs_sub E E₀]
  have k2 := mul_le_mul_of_nonneg_left k1 (by linarith : 0 ≤ 6.5 * u + 1.1 * ρ)
  have k3 : (6.5 * u + 1.1 * ρ) * Δ ≤ 0.01 * Δ := mul_le_mul_of_nonneg_right (by linarith) hΔ
  have k4 := abs_sub_le w'.val (w.val - E) (w.val - E₀)
  rw [show w.val - E - (w.val - E₀) = -(E - E₀) by ring, abs_neg] at k4
  linarith

end

end DW.Props.FloatOptimStepP
