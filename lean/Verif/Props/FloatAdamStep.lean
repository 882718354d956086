import Verif.Props.FloatAdam
/-!
# C113: one update of Adam in `float` follows the formula
-/

set_option autoImplicit false

namespace DW.Props.FloatAdamStepP

open DW.Float DW.Props.FloatSoftmaxP DW.Props.FloatDotP DW.Props.FloatGradP DW.Props.FloatActP DW.Props.FloatMomentumP DW.Props.FloatAdamP
open scoped ENNReal

noncomputable section

variable {R : Rounding} {q : Sqrt} {s : AdamSettings}

/-- The error of the square root: `ρ` is `2⁻²⁴` when it is correctly rounded. -/
def SqrtNear (q : Sqrt) (ρ : ℝ) : Prop := ∀ x ≤ maxFloat, |(q.fn (.num false x)).val - √x.toReal| ≤ ρ * √x.toReal + η

theorem num_error {a A p lr : ℝ} (hA : |a - A| ≤ u * |A| + η) (hp : |p - lr * a| ≤ u * |lr * a| + η) (hl : |lr| ≤ 2 ^ 10) :
    |p - lr * A| ≤ 2.001 * u * |lr * A| + 2 ^ 11 * η := by
  have hu := u_pos
  have hη := η_pos
  have hus := u_small
  have h1 : |lr * a - lr * A| ≤ u * |lr * A| + 2 ^ 10 * η := by
    rw [← mul_sub, abs_mul, abs_mul]
    have h2 := mul_le_mul_of_nonneg_left hA (abs_nonneg lr)
    have h3 := mul_le_mul_of_nonneg_right hl hη.le
    linarith
  have h2 := abs_sub_le p (lr * a) (lr * A)
  have h3 : |lr * a| ≤ |lr * A| + (u * |lr * A| + 2 ^ 10 * η) := by
    have := abs_sub_le (lr * a) (lr * A) 0
    rw [sub_zero, sub_zero] at this
    linarith
  have h4 := mul_le_mul_of_nonneg_left h3 hu.le
  have h5 := abs_nonneg (lr * A)
  have h6 : u * (u * |lr * A|) ≤ 1 / 10 ^ 7 * (u * |lr * A|) := mul_le_mul_of_nonneg_right hus (by positivity)
  have h7 : u * (2 ^ 10 * η) ≤ 1 / 10 ^ 7 * (2 ^ 10 * η) := mul_le_mul_of_nonneg_right hus (by positivity)
  have e4 : u * (|lr * A| + (u * |lr * A| + 2 ^ 10 * η)) = u * |lr * A| + u * (u * |lr * A|) + u * (2 ^ 10 * η) := by ring
  have h8 : 0 ≤ u * |lr * A| := by positivity
  linarith

theorem sqrt_add_le {a b : ℝ} (ha : 0 ≤ a) (hb : 0 ≤ b) : √(a + b) ≤ √a + √b := by
  refine Real.sqrt_le_iff.2 ⟨by positivity, ?_⟩
  have h1 := Real.sq_sqrt ha
  have h2 := Real.sq_sqrt hb
  have h3 : 0 ≤ √a * √b := by positivity
  have h4 : (√a + √b) ^ 2 = √a ^ 2 + √b ^ 2 + 2 * (√a * √b) := by ring
  linarith

theorem sqrt_perturb {x V : ℝ} (hx : 0 ≤ x) (hV : 0 ≤ V) (h : |x - V| ≤ u * V + η) : |√x - √V| ≤ u * √V + 1 / 2 ^ 75 := by
  have hu := u_pos
  have hus := u_small
  have hη := η_pos
  have e : √η = 1 / 2 ^ 75 := by
    rw [show η = (1 / 2 ^ 75) ^ 2 by unfold η; norm_num]
    exact Real.sqrt_sq (by positivity)
  have hs := Real.sqrt_nonneg V
  have hsV := Real.mul_self_sqrt hV
  obtain ⟨h1, h2⟩ := abs_le.1 h
  refine abs_le.2 ⟨?_, ?_⟩
  · have k1 : √V * (1 - u) ≤ √(x + η) := by
      refine Real.le_sqrt_of_sq_le ?_
      have : (√V * (1 - u)) ^ 2 = V * (1 - u) - V * (1 - u) * u := by rw [mul_pow, sq, hsV]; ring
      have : 0 ≤ V * (1 - u) * u := mul_nonneg (mul_nonneg hV (by linarith)) hu.le
      linarith
    have k2 := sqrt_add_le hx hη.le
    rw [e] at k2
    linarith
  · have k1 : √x ≤ √(V * (1 + u) ^ 2 + η) := by
      refine Real.sqrt_le_sqrt ?_
      have : V * (1 + u) ^ 2 = V + u * V + u * V * (1 + u) := by ring
      have : 0 ≤ u * V * (1 + u) := by positivity
      linarith
    have k2 := sqrt_add_le (a := V * (1 + u) ^ 2) (by positivity) hη.le
    rw [e, Real.sqrt_mul hV, Real.sqrt_sq (by linarith)] at k2
    linarith

theorem den_error {x V r ε k ρ : ℝ} (hx : 0 ≤ x) (hV : 0 ≤ V) (h : |x - V| ≤ u * V + η) (hr : |r - √x| ≤ ρ * √x + η)
    (hk : |k - (r + ε)| ≤ u * |r + ε| + η) (hε : 1 / 2 ^ 40 ≤ ε) (hρ : 0 ≤ ρ) (hρ' : ρ ≤ 1 / 2 ^ 10) :
    |k - (√V + ε)| ≤ (1.01 * ρ + 2.01 * u) * (√V + ε) := by
  have hu := u_pos
  have hus := u_small
  have hηs : η ≤ 1 / 2 ^ 75 * (1 / 2 ^ 20) := by unfold η; norm_num
  have h75 : (1 : ℝ) / 2 ^ 75 ≤ u / 1000 * (1 / 2 ^ 40) := by unfold u; norm_num
  have hs := Real.sqrt_nonneg V
  have h1 := sqrt_perturb hx hV h
  have h2 : √x ≤ √V + (u * √V + 1 / 2 ^ 75) := by linarith [(abs_le.1 h1).2]
  have h3 : ρ * √x ≤ 1.001 * ρ * √V + 1 / 2 ^ 10 * (1 / 2 ^ 75) := by
    have e1 := mul_le_mul_of_nonneg_left h2 hρ
    have e2 : ρ * (u * √V) ≤ ρ * (1 / 10 ^ 7 * √V) := mul_le_mul_of_nonneg_left (mul_le_mul_of_nonneg_right hus hs) hρ
    have e3 := mul_le_mul_of_nonneg_right hρ' (by positivity : (0 : ℝ) ≤ 1 / 2 ^ 75)
    have e4 : 0 ≤ ρ * √V := by positivity
    linarith
  have h4 := abs_sub_le r (√x) (√V)
  have h5 : |r - √V| ≤ (1.001 * ρ + u) * √V + 1.01 * (1 / 2 ^ 75) := by linarith
  have hQ : 0 ≤ √V + ε := by linarith
  have h6 : |r + ε - (√V + ε)| ≤ (1.001 * ρ + u) * √V + 1.01 * (1 / 2 ^ 75) := by rw [add_sub_add_right_eq_sub]; exact h5
  have h7 : |r + ε| ≤ √V + ε + ((1.001 * ρ + u) * √V + 1.01 * (1 / 2 ^ 75)) := by
    have := abs_sub_le (r + ε) (√V + ε) 0
    rw [sub_zero, sub_zero, abs_of_nonneg hQ] at this
    linarith
  have h8 := abs_sub_le k (r + ε) (√V + ε)
  have h9 := mul_le_mul_of_nonneg_left h7 hu.le
  have e1 : 0 ≤ ρ * √V := by positivity
  have e2 : 0 ≤ u * √V := by positivity
  have e3 : u * (ρ * √V) ≤ 1 / 10 ^ 7 * (ρ * √V) := mul_le_mul_of_nonneg_right hus e1
  have e4 : u * (u * √V) ≤ 1 / 10 ^ 7 * (u * √V) := mul_le_mul_of_nonneg_right hus e2
  have e5 : u * (1 / 2 ^ 75) ≤ 1 / 10 ^ 7 * (1 / 2 ^ 75) := mul_le_mul_of_nonneg_right hus (by positivity)
  have e6 : u / 1000 * (1 / 2 ^ 40) ≤ u / 1000 * ε := mul_le_mul_of_nonneg_left hε (by positivity)
  have e7 : 0 ≤ ρ * ε := mul_nonneg hρ (by linarith [show (0:ℝ) ≤ 1 / 2 ^ 40 by positivity])
  have e8 : 0 ≤ u * ε := mul_nonneg hu.le (by linarith [show (0:ℝ) ≤ 1 / 2 ^ 40 by positivity])
  have e9 : u * (√V + ε + ((1.001 * ρ + u) * √V + 1.01 * (1 / 2 ^ 75))) =
    u * √V + u * ε + 1.001 * (u * (ρ * √V)) + u * (u * √V) + 1.01 * (u * (1 / 2 ^ 75)) := by ring
  have e10 : (1.01 * ρ + 2.01 * u) * (√V + ε) = 1.01 * (ρ * √V) + 1.01 * (ρ * ε) + 2.01 * (u * √V) + 2.01 * (u * ε) := by ring
  have e11 : (1.001 * ρ + u) * √V = 1.001 * (ρ * √V) + u * √V := by ring
  rw [e9] at h9
  rw [e10]
  rw [e11] at h6
  linarith

/-- The step of one element, in exact arithmetic, for given averages. -/
def exactStep (lr ε c₁ c₂ m v : ℝ) : ℝ := lr * (m / c₁) / (√(v / c₂) + ε)

theorem quotient_error {p P k Q d κ τ : ℝ} (hp : |p - P| ≤ 2.001 * u * |P| + τ) (hk : |k - Q| ≤ κ * Q) (hQ : 1 / 2 ^ 40 ≤ Q) (hκ : 0 ≤ κ)
    (hκ' : κ ≤ 1 / 500) (hτ : 0 ≤ τ) (hd : |d - p / k| ≤ u * |p / k| + η) :
    |d - P / Q| ≤ (3.02 * u + 1.01 * κ) * |P / Q| + 1.01 * 2 ^ 40 * τ + η := by
  have hu := u_pos
  have hus := u_small
  have hη := η_pos
  have hQ0 : 0 < Q := lt_of_lt_of_le (by positivity) hQ
  have hk1 : 0.998 * Q ≤ k := by
    have := (abs_le.1 hk).1
    have := mul_le_mul_of_nonneg_right hκ' hQ0.le
    linarith
  have hk0 : 0 < k := lt_of_lt_of_le (by linarith) hk1
  set D := |P / Q| with hD
  have hPD : |P| = D * Q := by rw [hD, abs_div, abs_of_pos hQ0, div_mul_cancel₀ _ hQ0.ne']
  have hD0 : 0 ≤ D := abs_nonneg _
  -- the quotient without the last rounding
  have h1 : |p / k - P / Q| ≤ (2.006 * u + 1.003 * κ) * D + 1.003 * 2 ^ 40 * τ := by
    have e : p / k - P / Q = ((p - P) - P / Q * (k - Q)) / k := by
      field_simp
      ring
    rw [e, abs_div, abs_of_pos hk0, div_le_iff₀ hk0]
    have e1 := abs_sub (p - P) (P / Q * (k - Q))
    rw [abs_mul, ← hD] at e1
    have e2 := mul_le_mul_of_nonneg_left hk hD0
    rw [hPD] at hp
    have e3 : (2.006 * u + 1.003 * κ) * D * (0.998 * Q) ≤ (2.006 * u + 1.003 * κ) * D * k := mul_le_mul_of_nonneg_left hk1 (by positivity)
    have e4 : 1.003 * 2 ^ 40 * τ * (0.998 * Q) ≤ 1.003 * 2 ^ 40 * τ * k := mul_le_mul_of_nonneg_left hk1 (by positivity)
    have e5 : 1.003 * 2 ^ 40 * τ * (0.998 * (1 / 2 ^ 40)) ≤ 1.003 * 2 ^ 40 * τ * (0.998 * Q) :=
      mul_le_mul_of_nonneg_left (by linarith) (by positivity)
    have e6 : 0 ≤ u * (D * Q) := by positivity
    have e7 : 0 ≤ κ * (D * Q) := by positivity
    linarith
  have h2 : |p / k| ≤ D + ((2.006 * u + 1.003 * κ) * D + 1.003 * 2 ^ 40 * τ) := by
    have := abs_sub_le (p / k) (P / Q) 0
    rw [sub_zero, sub_zero] at this
    linarith
  have h3 := mul_le_mul_of_nonneg_left h2 hu.le
  have h4 := abs_sub_le d (p / k) (P / Q)
  have e1 : u * (u * D) ≤ 1 / 10 ^ 7 * (u * D) := mul_le_mul_of_nonneg_right hus (by positivity)
  have e2 : u * (κ * D) ≤ 1 / 10 ^ 7 * (κ * D) := mul_le_mul_of_nonneg_right hus (by positivity)
  have e3 : u * τ ≤ 1 / 10 ^ 7 * τ := mul_le_mul_of_nonneg_right hus hτ
  have e4 : 0 ≤ u * D := by positivity
  have e5 : 0 ≤ κ * D := by positivity
  linarith

variable {ρ : ℝ} {c₁ c₂ : ℕ → Flt}

/-- **C113** (the step of a weight): for the averages `m` and `v` it is that of the formula, up to a few roundings. -/
theorem adam_update_near (hs : Usual s c₁ c₂) (hq : SqrtNear q ρ) (hρ : 0 ≤ ρ) (hρ' : ρ ≤ 1 / 2 ^ 10) {t : ℕ} {m v w w' : Flt} (hm : m.Finite)
    (hmb : |m.val| ≤ 2 ^ 56) (hv : Nonneg v) (hvf : v.Finite) (hvb : v.val ≤ 2 ^ 112) (hw : w.Finite) (hwb : |w.val| ≤ 2 ^ 126)
    (h : w' = sub R w (div R (mul R s.lr (div R m (c₁ t))) (add R (q.fn (div R v (c₂ t))) s.epsilon))) :
    w'.Finite ∧ |w'.val - (w.val - exactStep s.lr.val s.epsilon.val (c₁ t).val (c₂ t).val m.val v.val)| ≤
      u * |w.val| + (6.5 * u + 1.1 * ρ) * |exactStep s.lr.val s.epsilon.val (c₁ t).val (c₂ t).val m.val v.val| + 1 / 2 ^ 96 := by
  have hu := u_pos
  have hη := η_pos
  have hus := u_small
  have hηs : η = 1 / 2 ^ 150 := rfl
  have grow : ∀ {a : Flt} {x B : ℝ}, Near a x → |x| ≤ B → |a.val| ≤ 1.001 * B + η := by
    intro a x B h hx
    have h1 := h.2
    have h2 := abs_sub_le a.val x 0
    rw [sub_zero, sub_zero] at h2
    have h3 : u * |x| ≤ 1 / 10 ^ 7 * |x| := mul_le_mul_of_nonneg_right hus (abs_nonneg _)
    have h4 := abs_nonneg x
    linarith
  obtain ⟨hc1, hc1'⟩ := hs.first t
  have hc1p : 0 < (c₁ t).val := lt_of_lt_of_le (by positivity) hc1'
  have d1 : |m.val / (c₁ t).val| ≤ 2 ^ 70 := by
    rw [abs_div, abs_of_pos hc1p, div_le_iff₀ hc1p]
    have := mul_le_mul_of_nonneg_left hc1' (by positivity : (0 : ℝ) ≤ 2 ^ 70)
    linarith
  have n1 := near_div (R := R) hm hc1 hc1p.ne' (d1.trans (by unfold big; norm_num))
  have b1 := grow n1 d1
  have d2 : |s.lr.val * (div R m (c₁ t)).val| ≤ 2 ^ 10 * 2 ^ 71 := by
    rw [abs_mul]
    exact mul_le_mul hs.lr.2 (b1.trans (by linarith)) (abs_nonneg _) (by positivity)
  have n2 := near_mul (R := R) hs.lr.1 n1.1 (d2.trans (by unfold big; norm_num))
  have b2 := grow n2 d2
  obtain ⟨hc2n, hc2, hc2'⟩ := hs.second t
  have hc2p : 0 < (c₂ t).val := lt_of_lt_of_le (by positivity) hc2'
  have hV0 : 0 ≤ v.val / (c₂ t).val := div_nonneg hv.val_nonneg hc2p.le
  have dv : |v.val / (c₂ t).val| ≤ 2 ^ 126 := by
    rw [abs_of_nonneg hV0, div_le_iff₀ hc2p]
    have := mul_le_mul_of_nonneg_left hc2' (by positivity : (0 : ℝ) ≤ 2 ^ 126)
    linarith
  have n3 := near_div (R := R) hvf hc2 hc2p.ne' (dv.trans (by unfold big; norm_num))
  obtain ⟨x, hx, hxm⟩ : ∃ x ≤ maxFloat, div R v (c₂ t) = .num false x := by
    have hf := n3.1
    obtain ⟨a, rfl⟩ := hv
    obtain ⟨c, hc⟩ := hc2n
    rw [hc] at hc2p hf ⊢
    have hc0 : c ≠ 0 := by rintro rfl; simp [Flt.val] at hc2p
    simp only [Flt.Finite] at hvf
    have e : div R (.num false a) (.num false c) = .num false (R.rd (a / c)) := by simp [div, divWith, hc0, hvf]
    rw [e] at hf
    exact ⟨R.rd (a / c), R.largest _ hf, e⟩
  have hxn : Nonneg (div R v (c₂ t)) := ⟨x, hxm⟩
  obtain ⟨y, hyb, hqy⟩ := q.finite x hx
  rw [← hxm] at hqy
  have hyt : y ≠ ⊤ := ne_top_of_le_ne_top (by simp) hyb
  have hr := hq x hx
  rw [show x.toReal = (Flt.num false x).val by simp [Flt.val], ← hxm] at hr
  have hy0 : 0 ≤ (q.fn (div R v (c₂ t))).val := by rw [hqy]; exact Nonneg.val_nonneg ⟨y, rfl⟩
  have hyb' : (q.fn (div R v (c₂ t))).val ≤ 2 ^ 64 := by
    rw [hqy]
    have := ENNReal.toReal_mono (by simp) hyb
    simpa [Flt.val] using this
  have hyf : (q.fn (div R v (c₂ t))).Finite := by rw [hqy]; exact hyt
  obtain ⟨hen, hef, he1, he2⟩ := hs.epsilon
  have n4 := near_addWith (R := R) hyf hef (by
    rw [abs_of_nonneg (by linarith [show (0 : ℝ) ≤ 1 / 2 ^ 40 by positivity])]
    unfold big
    linarith)
  have hk := den_error hxn.val_nonneg hV0 (by have := n3.2; rwa [abs_of_nonneg hV0] at this) hr n4.2 he1 hρ hρ'
  have hnum := num_error n1.2 n2.2 hs.lr.2
  have hsq := Real.sqrt_nonneg (v.val / (c₂ t).val)
  have hQ : 1 / 2 ^ 40 ≤ √(v.val / (c₂ t).val) + s.epsilon.val := by linarith
  have hQ0 : 0 < √(v.val / (c₂ t).val) + s.epsilon.val := lt_of_lt_of_le (by positivity) hQ
  have hκ : 1.01 * ρ + 2.01 * u ≤ 1 / 500 := by linarith
  have hk1 : 0.998 * (1 / 2 ^ 40) ≤ (addWith R.rd (q.fn (div R v (c₂ t))) s.epsilon).val := by
    have h1 := (abs_le.1 hk).1
    have h2 := mul_le_mul_of_nonneg_right hκ hQ0.le
    linarith
  have hk0 : 0 < (addWith R.rd (q.fn (div R v (c₂ t))) s.epsilon).val := lt_of_lt_of_le (by positivity) hk1
  have d5 : |(mul R s.lr (div R m (c₁ t))).val / (addWith R.rd (q.fn (div R v (c₂ t))) s.epsilon).val| ≤ 1.01 * 2 ^ 121 := by
    rw [abs_div, abs_of_pos hk0, div_le_iff₀ hk0]
    have := mul_le_mul_of_nonneg_left hk1 (by positivity : (0 : ℝ) ≤ 1.01 * 2 ^ 121)
    linarith
  have n5 := near_div (R := R) n2.1 n4.1 hk0.ne' (d5.trans (by unfold big; norm_num))
  have hstep := quotient_error hnum hk hQ (by positivity) hκ (by positivity) n5.2
  have b5 := grow n5 d5
  have hneg := neg_finite n5.1
  have n6 := near_addWith (R := R) hw hneg.1 (by
    rw [hneg.2]
    have := abs_sub w.val (div R (mul R s.lr (div R m (c₁ t))) (addWith R.rd (q.fn (div R v (c₂ t))) s.epsilon)).val
    rw [← sub_eq_add_neg]
    unfold big
    linarith)
  rw [hneg.2, ← sub_eq_add_neg] at n6
  subst h
  refine ⟨n6.1, ?_⟩
  have h6 := n6.2
  show |(addWith R.rd w (div R (mul R s.lr (div R m (c₁ t))) (addWith R.rd (q.fn (div R v (c₂ t))) s.epsilon)).neg).val - _| ≤ _
  unfold exactStep
  generalize (addWith R.rd w (div R (mul R s.lr (div R m (c₁ t))) (addWith R.rd (q.fn (div R v (c₂ t))) s.epsilon)).neg).val = W at h6 ⊢
  generalize (div R (mul R s.lr (div R m (c₁ t))) (addWith R.rd (q.fn (div R v (c₂ t))) s.epsilon)).val = d at h6 hstep
  generalize s.lr.val * (m.val / (c₁ t).val) / (√(v.val / (c₂ t).val) + s.epsilon.val) = D at hstep ⊢
  have k1 : |w.val - d| ≤ |w.val| + |D| + |d - D| := by
    have k2 := abs_sub w.val d
    have k3 := abs_sub_le d D 0
    rw [sub_zero, sub_zero] at k3
    linarith
  have k4 := mul_le_mul_of_nonneg_left k1 hu.le
  have k5 := abs_sub_le W (w.val - d) (w.val - D)
  rw [show w.val - d - (w.val - D) = -(d - D) by ring, abs_neg] at k5
  have k6 : u * |d - D| ≤ 1 / 10 ^ 7 * |d - D| := mul_le_mul_of_nonneg_right hus (abs_nonneg _)
  have k7 := abs_nonneg D
  have k8 : 0 ≤ u * |D| := by positivity
  have k9 : 0 ≤ ρ * |D| := by positivity
  rw [hηs] at h6 hstep
  linarith

/-- **C113** (one step): from any mean and variance of the sizes that Adam reaches, the mean, the variance and the weight after a step are those of the
formulas, up to a few roundings. -/
theorem adam_once (hs : Usual s c₁ c₂) (hq : SqrtNear q ρ) (hρ : 0 ≤ ρ) (hρ' : ρ ≤ 1 / 2 ^ 10) {t : ℕ} {g m v w m' v' w' : Flt} (gf : g.Finite)
    (gb : |g.val| ≤ 2 ^ 55) (mf : m.Finite) (mb : |m.val| ≤ 1.02 * 2 ^ 55) (vf : v.Finite) (vn : Nonneg v) (vb : v.val ≤ 1.04 * 2 ^ 110)
    (hstep : AdamStep R q s (c₁ t) (c₂ t) g m v w m' v' w') :
    (m'.Finite ∧ |m'.val - (s.beta1.val * m.val + (1 - s.beta1.val) * g.val)| ≤
      4 * u * (s.beta1.val * |m.val| + (1 - s.beta1.val) * |g.val|) + 5 * η) ∧
    (v'.Finite ∧ Nonneg v' ∧ |v'.val - (s.beta2.val * v.val + (1 - s.beta2.val) * g.val ^ 2)| ≤
      5 * u * (s.beta2.val * v.val + (1 - s.beta2.val) * g.val ^ 2) + 6 * η) ∧
    (w.Finite → |w.val| ≤ 2 ^ 126 → w'.Finite ∧
      |w'.val - (w.val - exactStep s.lr.val s.epsilon.val (c₁ t).val (c₂ t).val m'.val v'.val)| ≤
        u * |w.val| + (6.5 * u + 1.1 * ρ) * |exactStep s.lr.val s.epsilon.val (c₁ t).val (c₂ t).val m'.val v'.val| + 1 / 2 ^ 96) := by
  have hu := u_pos
  have hη := η_pos
  have hus := u_small
  have hηs : η ≤ 1 / 2 ^ 120 := by unfold η; norm_num
  obtain ⟨b1f, b10, b11⟩ := hs.beta1
  obtain ⟨b2n, b2f, b21⟩ := hs.beta2
  have b20 := b2n.val_nonneg
  have v0 := vn.val_nonneg
  obtain ⟨e1, e2, e3⟩ := hstep
  -- products with `1 - beta`
  have prod : ∀ {β x : Flt}, β.Finite → 0 ≤ β.val → β.val ≤ 1 - 1 / 2 ^ 14 →
      |(sub R 1 β).val * x.val - (1 - β.val) * x.val| ≤ 1.001 * u * ((1 - β.val) * |x.val|) ∧
      |(sub R 1 β).val * x.val| ≤ 1.001 * ((1 - β.val) * |x.val|) := by
    intro β x hf h0 h1
    obtain ⟨-, h2⟩ := one_sub (R := R) hf h0 h1
    have h3 := mul_le_mul_of_nonneg_right h2 (abs_nonneg x.val)
    rw [← abs_mul, sub_mul] at h3
    have h4 : 0 ≤ (1 - β.val) * |x.val| := mul_nonneg (by linarith [show (0 : ℝ) ≤ 1 / 2 ^ 14 by positivity]) (abs_nonneg _)
    have h5 : u * ((1 - β.val) * |x.val|) ≤ 1 / 10 ^ 7 * ((1 - β.val) * |x.val|) := mul_le_mul_of_nonneg_right hus h4
    have h6 := abs_sub_le ((sub R 1 β).val * x.val) ((1 - β.val) * x.val) 0
    rw [sub_zero, sub_zero, abs_mul (1 - β.val), abs_of_nonneg (by linarith [show (0 : ℝ) ≤ 1 / 2 ^ 14 by positivity] : 0 ≤ 1 - β.val)] at h6
    exact ⟨by linarith, by linarith⟩
  have s14 : (0 : ℝ) ≤ 1 / 2 ^ 14 := by positivity
  have first : m'.Finite ∧ |m'.val - (s.beta1.val * m.val + (1 - s.beta1.val) * g.val)| ≤
      4 * u * (s.beta1.val * |m.val| + (1 - s.beta1.val) * |g.val|) + 5 * η ∧ |m'.val| ≤ 2 ^ 56 := by
    obtain ⟨p1, p2⟩ := prod (x := g) b1f b10 b11
    have hP : |s.beta1.val * m.val| ≤ s.beta1.val * |m.val| := by rw [abs_mul, abs_of_nonneg b10]
    have k0 : 0 ≤ s.beta1.val * |m.val| := by positivity
    have k1 : s.beta1.val * |m.val| ≤ 1 * |m.val| := mul_le_mul_of_nonneg_right (by linarith) (abs_nonneg _)
    have k2 : (1 - s.beta1.val) * |g.val| ≤ 1 * |g.val| := mul_le_mul_of_nonneg_right (by linarith) (abs_nonneg _)
    have k3 : 0 ≤ (1 - s.beta1.val) * |g.val| := mul_nonneg (by linarith) (abs_nonneg _)
    obtain ⟨r1, r2⟩ := mulAddMul_error e1 b1f mf (one_sub (R := R) b1f b10 b11).1 gf hP p2 (by linarith)
    have r3 := abs_sub_le m'.val (s.beta1.val * m.val + (sub R 1 s.beta1).val * g.val)
      (s.beta1.val * m.val + (1 - s.beta1.val) * g.val)
    rw [add_sub_add_left_eq_sub] at r3
    have k4 : 0 ≤ u * (s.beta1.val * |m.val|) := by positivity
    have k5 : 0 ≤ u * ((1 - s.beta1.val) * |g.val|) := mul_nonneg hu.le k3
    have b : s.beta1.val * |m.val| + (1 - s.beta1.val) * |g.val| ≤ 1.02 * 2 ^ 55 := by
      have q1 := mul_le_mul_of_nonneg_left mb b10
      have q2 := mul_le_mul_of_nonneg_left gb (by linarith : 0 ≤ 1 - s.beta1.val)
      linarith
    have b' := mul_le_mul_of_nonneg_left b hu.le
    have b3 := abs_sub_le m'.val (s.beta1.val * m.val + (1 - s.beta1.val) * g.val) 0
    have b4 := abs_add_le (s.beta1.val * m.val) ((1 - s.beta1.val) * g.val)
    rw [sub_zero, sub_zero] at b3
    rw [abs_mul, abs_mul, abs_of_nonneg b10, abs_of_nonneg (by linarith : 0 ≤ 1 - s.beta1.val)] at b4
    have main : |m'.val - (s.beta1.val * m.val + (1 - s.beta1.val) * g.val)| ≤
        4 * u * (s.beta1.val * |m.val| + (1 - s.beta1.val) * |g.val|) + 5 * η := by linarith
    exact ⟨r1, main, by linarith⟩
  have second : v'.Finite ∧ Nonneg v' ∧ |v'.val - (s.beta2.val * v.val + (1 - s.beta2.val) * g.val ^ 2)| ≤
      5 * u * (s.beta2.val * v.val + (1 - s.beta2.val) * g.val ^ 2) + 6 * η ∧ v'.val ≤ 2 ^ 112 := by
    have gg : |g.val * g.val| ≤ (2 ^ 55 : ℝ) ^ 2 := by
      rw [abs_mul, ← sq]
      exact pow_le_pow_left₀ (abs_nonneg _) gb 2
    have n := near_mul (R := R) gf gf (gg.trans (by unfold big; linarith))
    have hsq : |g.val * g.val| = g.val ^ 2 := by rw [abs_mul_self, sq]
    have n2 := n.2
    rw [hsq] at n2 gg
    rw [← sq] at n2
    have hsq0 : 0 ≤ g.val ^ 2 := sq_nonneg _
    have nb : |(mul R g g).val| ≤ (1 + u) * g.val ^ 2 + η := by
      have := abs_sub_le (mul R g g).val (g.val ^ 2) 0
      rw [sub_zero, sub_zero, abs_of_nonneg hsq0] at this
      linarith
    obtain ⟨p1, p2⟩ := prod (x := mul R g g) b2f b20 b21
    have hb : 0 ≤ 1 - s.beta2.val := by linarith
    have hP : |s.beta2.val * v.val| ≤ s.beta2.val * v.val := by rw [abs_of_nonneg (mul_nonneg b20 v0)]
    have k0 : 0 ≤ s.beta2.val * v.val := mul_nonneg b20 v0
    have k1 : s.beta2.val * v.val ≤ 1 * v.val := mul_le_mul_of_nonneg_right (by linarith) v0
    set K := (1 - s.beta2.val) * g.val ^ 2 with hK
    have hK0 : 0 ≤ K := mul_nonneg hb hsq0
    have hK1 : K ≤ 1 * g.val ^ 2 := mul_le_mul_of_nonneg_right (by linarith) hsq0
    have nb' : (1 - s.beta2.val) * |(mul R g g).val| ≤ (1 + u) * K + η := by
      have h1 := mul_le_mul_of_nonneg_left nb hb
      have h2 : (1 - s.beta2.val) * η ≤ 1 * η := mul_le_mul_of_nonneg_right (by linarith) hη.le
      have h3 : (1 - s.beta2.val) * ((1 + u) * g.val ^ 2 + η) = (1 + u) * K + (1 - s.beta2.val) * η := by rw [hK]; ring
      linarith
    have n3 : |(1 - s.beta2.val) * (mul R g g).val - K| ≤ u * K + η := by
      rw [hK, ← mul_sub, abs_mul, abs_of_nonneg hb]
      have h1 := mul_le_mul_of_nonneg_left n2 hb
      have h2 : (1 - s.beta2.val) * η ≤ 1 * η := mul_le_mul_of_nonneg_right (by linarith) hη.le
      have h3 : (1 - s.beta2.val) * (u * g.val ^ 2 + η) = u * ((1 - s.beta2.val) * g.val ^ 2) + (1 - s.beta2.val) * η := by ring
      linarith
    have k6 : u * K ≤ 1 / 10 ^ 7 * K := mul_le_mul_of_nonneg_right hus hK0
    have p2' : |(sub R 1 s.beta2).val * (mul R g g).val| ≤ 1.002 * K + 1.1 * η := by linarith
    obtain ⟨r1, r2⟩ := mulAddMul_error e2 b2f vf (one_sub (R := R) b2f b20 b21).1 n.1 hP p2' (by linarith)
    have r3 := abs_sub_le v'.val (s.beta2.val * v.val + (sub R 1 s.beta2).val * (mul R g g).val)
      (s.beta2.val * v.val + K)
    rw [add_sub_add_left_eq_sub] at r3
    have r4 := abs_sub_le ((sub R 1 s.beta2).val * (mul R g g).val) ((1 - s.beta2.val) * (mul R g g).val) K
    have p3 := mul_le_mul_of_nonneg_left nb' (by positivity : 0 ≤ 1.001 * u)
    have k7 : 0 ≤ u * K := by positivity
    have k8 : u * (u * K) ≤ 1 / 10 ^ 7 * (u * K) := mul_le_mul_of_nonneg_right hus k7
    have k9 : u * η ≤ 1 / 10 ^ 7 * η := mul_le_mul_of_nonneg_right hus hη.le
    have k10 : 0 ≤ u * (s.beta2.val * v.val) := mul_nonneg hu.le k0
    have main : |v'.val - (s.beta2.val * v.val + K)| ≤ 5 * u * (s.beta2.val * v.val + K) + 6 * η := by linarith
    have b3 := (abs_le.1 main).2
    have b4 : u * (s.beta2.val * v.val + K) ≤ 1 / 10 ^ 7 * (s.beta2.val * v.val + K) := mul_le_mul_of_nonneg_right hus (by linarith)
    exact ⟨r1, nonneg_mulAddMul e2 b2n vn (nonneg_one_sub b2n b2f (by linarith)) (nonneg_square n.1) b2f vf (one_sub b2f b20 b21).1 n.1, main, by linarith⟩
  obtain ⟨f1, f2, f3⟩ := first
  obtain ⟨h1, h2, h3, h4⟩ := second
  exact ⟨⟨f1, f2⟩, ⟨h1, h2, h3⟩, fun hwf hwb => adam_update_near hs hq hρ hρ' f1 f3 h2 h1 h4 hwf hwb e3⟩

variable {g m v w : ℕ → Flt} {G : ℝ}

/-- **C113**. With gradients up to `2 ^ 55`, in every step of a run of any length the mean, the variance and the weight are those of the
formulas of Adam for the numbers before the step, up to a few roundings; that of the variance is relative to the variance itself. -/
theorem adam_step_near (hs : Usual s c₁ c₂) (hq : SqrtNear q ρ) (hρ : 0 ≤ ρ) (hρ' : ρ ≤ 1 / 2 ^ 10) (hg : ∀ t, (g t).Finite ∧ |(g t).val| ≤ G)
    (hG : G ≤ 2 ^ 55) (hm : m 0 = 0) (hv : v 0 = 0)
    (hstep : ∀ t, AdamStep R q s (c₁ t) (c₂ t) (g t) (m t) (v t) (w t) (m (t + 1)) (v (t + 1)) (w (t + 1))) (t : ℕ) :
    |(m (t + 1)).val - (s.beta1.val * (m t).val + (1 - s.beta1.val) * (g t).val)| ≤
      4 * u * (s.beta1.val * |(m t).val| + (1 - s.beta1.val) * |(g t).val|) + 5 * η ∧
    |(v (t + 1)).val - (s.beta2.val * (v t).val + (1 - s.beta2.val) * (g t).val ^ 2)| ≤
      5 * u * (s.beta2.val * (v t).val + (1 - s.beta2.val) * (g t).val ^ 2) + 6 * η ∧
    ((w t).Finite → |(w t).val| ≤ 2 ^ 126 → (w (t + 1)).Finite ∧
      |(w (t + 1)).val - ((w t).val - exactStep s.lr.val s.epsilon.val (c₁ t).val (c₂ t).val (m (t + 1)).val (v (t + 1)).val)| ≤
        u * |(w t).val| + (6.5 * u + 1.1 * ρ) * |exactStep s.lr.val s.epsilon.val (c₁ t).val (c₂ t).val (m (t + 1)).val (v (t + 1)).val| +
          1 / 2 ^ 96) := by
  have hG0 : 0 ≤ G := (abs_nonneg _).trans (hg 0).2
  have hG2 : G ^ 2 ≤ (2 ^ 55) ^ 2 := pow_le_pow_left₀ hG0 hG 2
  obtain ⟨⟨mf, mb⟩, ⟨vf, v0, vb⟩, -⟩ := adam_finite_partial hs hg hG hm hv hstep t
  have hN := (variance_bounded hs hg (hG.trans (by norm_num)) hv hstep t).2.1
  obtain ⟨h1, h2, h3⟩ := adam_once hs hq hρ hρ' (hg t).1 ((hg t).2.trans hG) mf (by linarith) vf hN (by linarith) (hstep t)
  exact ⟨h1.2, h2.2.2, h3⟩

/-- **C113** (direction): when the weight has room for it, it moves against the mean: it does not increase if the mean is positive, up to
one rounding of the weight and the smallest numbers. -/
theorem adam_direction (hs : Usual s c₁ c₂) (hq : SqrtNear q ρ) (hρ : 0 ≤ ρ) (hρ' : ρ ≤ 1 / 2 ^ 10) (hg : ∀ t, (g t).Finite ∧ |(g t).val| ≤ G)
    (hG : G ≤ 2 ^ 55) (hm : m 0 = 0) (hv : v 0 = 0)
    (hstep : ∀ t, AdamStep R q s (c₁ t) (c₂ t) (g t) (m t) (v t) (w t) (m (t + 1)) (v (t + 1)) (w (t + 1))) (t : ℕ) (hl : 0 < s.lr.val)
    (hw : (w t).Finite) (hwb : |(w t).val| ≤ 2 ^ 126) :
    (0 < (m (t + 1)).val → (w (t + 1)).val ≤ (w t).val + (u * |(w t).val| + 1 / 2 ^ 96)) ∧
    ((m (t + 1)).val < 0 → (w t).val - (u * |(w t).val| + 1 / 2 ^ 96) ≤ (w (t + 1)).val) := by
  have hu := u_pos
  have hus := u_small
  obtain ⟨-, -, h⟩ := adam_step_near hs hq hρ hρ' hg hG hm hv hstep t
  obtain ⟨-, h⟩ := h hw hwb
  obtain ⟨-, hc1⟩ := hs.first t
  have hc1p : 0 < (c₁ t).val := lt_of_lt_of_le (by positivity) hc1
  have hQ : 0 < √((v (t + 1)).val / (c₂ t).val) + s.epsilon.val := by
    have := Real.sqrt_nonneg ((v (t + 1)).val / (c₂ t).val)
    have h2 := hs.epsilon.2.2.1
    have : (0 : ℝ) < 1 / 2 ^ 40 := by positivity
    linarith
  set D := exactStep s.lr.val s.epsilon.val (c₁ t).val (c₂ t).val (m (t + 1)).val (v (t + 1)).val with hD
  have hsmall : (6.5 * u + 1.1 * ρ) * |D| ≤ 1 / 2 * |D| := mul_le_mul_of_nonneg_right (by linarith) (abs_nonneg _)
  obtain ⟨h1, h2⟩ := abs_le.1 h
  refine ⟨fun hp => ?_, fun hn => ?_⟩
  · have hDp : 0 < D := div_pos (mul_pos hl (div_pos hp hc1p)) hQ
    rw [abs_of_pos hDp] at hsmall h1 h2
    linarith
  · have hDn : D < 0 := div_neg_of_neg_of_pos (mul_neg_of_pos_of_neg hl (div_neg_of_neg_of_pos hn hc1p)) hQ
    rw [abs_of_neg hDn] at hsmall h1 h2
    linarith

/-- A correctly rounded square root. -/
theorem sqrtLib_near : SqrtNear sqrtLib u := by
  intro x hx
  have ht : x ≠ ⊤ := ne_top_of_le_ne_top (by rw [maxFloat_eq]; exact ENNReal.ofReal_ne_top) hx
  have e : sqrtLib.fn (.num false x) = .num false (binary32.rd (ENNReal.ofReal √x.toReal)) := by
    show sqrt32 (.num false x) = _
    simp only [sqrt32, if_neg ht]
    rfl
  have h1 : x.toReal ≤ (2 ^ 64) ^ 2 := by
    rw [maxFloat_eq] at hx
    have := ENNReal.toReal_mono ENNReal.ofReal_ne_top hx
    rw [ENNReal.toReal_ofReal (by positivity)] at this
    linarith
  have h2 : √x.toReal ≤ 2 ^ 64 := (Real.sqrt_le_left (by positivity)).2 h1
  have h3 := rd_error (R := binary32) (m := ENNReal.ofReal √x.toReal) ENNReal.ofReal_ne_top (by
    rw [ENNReal.toReal_ofReal (Real.sqrt_nonneg _)]
    refine h2.trans ?_
    unfold big
    norm_num)
  rw [ENNReal.toReal_ofReal (Real.sqrt_nonneg _)] at h3
  rw [e]
  simpa [Flt.val] using h3.2

/-- A run with the gradient 1 in every step, with binary32 and a correctly rounded square root: in every step the mean follows the
formula, and the weight does not grow by more than a rounding when the mean is positive. -/
example : ∃ m v w : ℕ → Flt, m 0 = 0 ∧ v 0 = 0 ∧ w 0 = 1 ∧
    (∀ t, AdamStep binary32 sqrtLib halves 1 1 1 (m t) (v t) (w t) (m (t + 1)) (v (t + 1)) (w (t + 1))) ∧
    |(m 1).val - 1 / 2| ≤ 4 * u * (1 / 2) + 5 * η ∧ |(v 1).val - 1 / 2| ≤ 5 * u * (1 / 2) + 6 * η ∧
    (w 1).val ≤ 1 + (u + 1 / 2 ^ 96) := by
  obtain ⟨m, v, w, h1, h2, h3, h4⟩ := adam_run_exists binary32 sqrtLib halves (fun _ => 1) (fun _ => 1) (fun _ => 1) 1
  have hu := u_small
  have hg : ∀ t : ℕ, ((fun _ => 1 : ℕ → Flt) t).Finite ∧ |((fun _ => 1 : ℕ → Flt) t).val| ≤ 1 := fun _ => ⟨finite_one, by rw [val_one]; norm_num⟩
  obtain ⟨k1, k2, k3⟩ := adam_step_near halves_usual sqrtLib_near u_pos.le (hu.trans (by norm_num)) hg (by norm_num) h1 h2 h4 0
  have hb1 : halves.beta1.val = 1 / 2 := by simp [halves, Flt.val]
  have hb2 : halves.beta2.val = 1 / 2 := by simp [halves, Flt.val]
  have hl : 0 < halves.lr.val := by show 0 < (1 : Flt).val; rw [val_one]; norm_num
  have hd := adam_direction halves_usual sqrtLib_near u_pos.le (hu.trans (by norm_num)) hg (by norm_num) h1 h2 h4 0 hl
    (by rw [h3]; exact finite_one) (by rw [h3, val_one]; norm_num)
  rw [h1, hb1, val_zero, val_one] at k1
  rw [h2, hb2, val_zero, val_one] at k2
  have k1' : |(m 1).val - 1 / 2| ≤ 4 * u * (1 / 2) + 5 * η := by norm_num at k1 ⊢; exact k1
  refine ⟨m, v, w, h1, h2, h3, h4, k1', by norm_num at k2 ⊢; exact k2, ?_⟩
  have hη : η ≤ 1 / 100 := by unfold η; norm_num
  have := hd.1 (by have := (abs_le.1 k1').1; show 0 < (m 1).val; linarith)
  rw [h3, val_one, abs_one, mul_one] at this
  exact this

end

end DW.Props.FloatAdamStepP
