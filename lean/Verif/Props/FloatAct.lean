import Verif.Model.FloatAct
import Verif.Spec.Layers
import Verif.Props.FloatAccuracy
/-!
# C107, C108: activations in `float`
-/

set_option autoImplicit false

namespace DW.Props.FloatActP

open DW.Float DW.Props.FloatSoftmaxP DW.Props.FloatDotP DW.Props.FloatGradP DW.Props.FloatAccuracyP
open scoped ENNReal

noncomputable section

variable {R : Rounding} {F : Libm R} {ε : ℝ}

/-- A number that is a `float`. -/
def IsFloat (R : Rounding) : Flt → Prop
  | .nan => True
  | .num _ x => R.rd x = x

/-- What is used of `exp` beyond `Libm`: the relative error `ε`, also for positive arguments, where the result is infinite only if the
exact value is near the largest `float`, and the results for NaN and infinity. -/
structure ExpFull (F : Libm R) (ε : ℝ) : Prop where
  neg : ExpAccurate F ε
  nan : F.exp .nan = .nan
  top : F.exp (.num false ⊤) = .num false ⊤
  pos : ∀ x : ℝ≥0∞, x ≠ ⊤ → ∃ y : ℝ≥0∞, F.exp (.num false x) = .num false y ∧
    (y = ⊤ ∧ 88 ≤ x.toReal ∨ y ≠ ⊤ ∧ |y.toReal - Real.exp x.toReal| ≤ ε * Real.exp x.toReal)

theorem val_zero : (0 : Flt).val = 0 := by show (Flt.num false 0).val = 0; simp [Flt.val]

theorem val_one : (1 : Flt).val = 1 := by show (Flt.num false 1).val = 1; simp [Flt.val]

theorem finite_zero : (0 : Flt).Finite := ENNReal.zero_ne_top

theorem finite_one : (1 : Flt).Finite := ENNReal.one_ne_top

theorem lt_zero {x : Flt} (hx : x.Finite) : x.lt 0 ↔ x.val < 0 := by
  rcases x with _ | ⟨s, a⟩
  · exact hx.elim
  simp only [Flt.Finite] at hx
  show Flt.lt (.num s a) (.num false 0) ↔ _
  cases s
  · simp [Flt.lt, Flt.val]
  · simp only [Flt.lt, Flt.val, if_true, and_true, neg_lt_zero]
    rw [ENNReal.toReal_pos_iff, pos_iff_ne_zero]
    exact ⟨fun h => ⟨h, lt_top_iff_ne_top.2 hx⟩, fun h => h.1⟩

theorem zero_lt {x : Flt} (hx : x.Finite) : Flt.lt 0 x ↔ 0 < x.val := by
  rcases x with _ | ⟨s, a⟩
  · exact hx.elim
  simp only [Flt.Finite] at hx
  show Flt.lt (.num false 0) (.num s a) ↔ _
  cases s
  · simp only [Flt.lt, Flt.val]
    simp [ENNReal.toReal_pos_iff, lt_top_iff_ne_top, hx]
  · simp [Flt.lt, Flt.val]

/-! ## ReLU and LeakyReLU -/

/-- **C107**: ReLU is exact. -/
theorem relu_exact {x : Flt} (hx : x.Finite) : (relu x).Finite ∧ (relu x).val = Spec.relu x.val := by
  unfold relu Spec.relu
  split_ifs with h <;> rw [zero_lt hx] at h
  · exact ⟨hx, (max_eq_right h.le).symm⟩
  · exact ⟨finite_zero, by rw [val_zero, max_eq_left (not_lt.1 h)]⟩

theorem reluBack_exact {x g : Flt} (hx : x.Finite) (hg : g.Finite) :
    (reluBack x g).Finite ∧ (reluBack x g).val = if 0 < x.val then g.val else 0 := by
  unfold reluBack
  simp only [zero_lt hx]
  split_ifs with h
  · exact ⟨hg, rfl⟩
  · exact ⟨finite_zero, val_zero⟩

theorem near_self {x : Flt} (hx : x.Finite) : Near x x.val :=
  ⟨hx, by rw [sub_self, abs_zero]; have := u_pos; have := η_pos; positivity⟩

/-- **C107**: adding a gradient to the ones of earlier passes is rounded once. -/
theorem accumulate_near {old d : Flt} (ho : old.Finite) (hd : d.Finite) (h : |old.val + d.val| ≤ big) :
    Near (accumulate R old d) (old.val + d.val) := near_addWith ho hd h

/-- **C107**: LeakyReLU has the error of one rounding. -/
theorem leakyRelu_near {alpha x : Flt} (ha : alpha.Finite) (hx : x.Finite) (h : |alpha.val * x.val| ≤ big) :
    Near (leakyRelu R alpha x) (Spec.leakyRelu alpha.val x.val) := by
  unfold leakyRelu Spec.leakyRelu
  simp only [lt_zero hx]
  by_cases h0 : x.val < 0
  · rw [if_pos h0, if_neg (not_le.2 h0), mul_comm]
    exact near_mul hx ha (by rwa [mul_comm])
  · rw [if_neg h0, if_pos (not_lt.1 h0)]
    exact near_self hx

theorem leakyReluBack_near {alpha x g : Flt} (ha : alpha.Finite) (hx : x.Finite) (hg : g.Finite) (h : |g.val * alpha.val| ≤ big) :
    Near (leakyReluBack R alpha x g) (g.val * if x.val < 0 then alpha.val else 1) := by
  unfold leakyReluBack
  simp only [lt_zero hx]
  by_cases h0 : x.val < 0
  · rw [if_pos h0, if_pos h0]
    exact near_mul hg ha h
  · rw [if_neg h0, if_neg h0, mul_one]
    exact near_self hg

/-! ## ELU -/

/-- `exp` of a negative number. -/
theorem exp_neg (hF : ExpFull F ε) {x : Flt} (hx : x.Finite) (h : x.val < 0) :
    ∃ y : ℝ, (F.exp x).Finite ∧ (F.exp x).val = y ∧ 0 ≤ y ∧ y ≤ 1 ∧ |y - Real.exp x.val| ≤ ε * Real.exp x.val + η := by
  rcases x with _ | ⟨s, a⟩
  · exact hx.elim
  cases s
  · simp [Flt.val] at h
    exact absurd ENNReal.toReal_nonneg (not_le.2 h)
  obtain ⟨y, hy1, -, hy⟩ := F.expNeg a
  have hyt : y ≠ ⊤ := ne_top_of_le_ne_top ENNReal.one_ne_top hy1
  have he := hF.neg a hx
  rw [hy] at he ⊢
  refine ⟨y.toReal, hyt, by simp [Flt.val], ENNReal.toReal_nonneg, ?_, by simpa [Flt.val] using he⟩
  simpa using ENNReal.toReal_mono ENNReal.one_ne_top hy1

theorem eta_le : 1000 * η ≤ u := by unfold η u; norm_num

/-- **C107**: ELU. The error is at most `2.1 u + 1.1 ε` times `alpha`, apart from tiny numbers. -/
theorem elu_error (hF : ExpFull F ε) (hε : 0 ≤ ε) (hε' : ε ≤ 1 / 2 ^ 10) {alpha x : Flt} (ha : alpha.Finite) (hx : x.Finite)
    (h : |alpha.val| ≤ 2 ^ 120) :
    (elu R F alpha x).Finite ∧ |(elu R F alpha x).val - Spec.elu alpha.val x.val| ≤ (2.1 * u + 1.1 * ε) * |alpha.val| + η := by
  have hu := u_pos
  have hη := η_pos
  have hus := u_small
  have hηu := eta_le
  unfold elu Spec.elu
  simp only [lt_zero hx]
  by_cases h0 : x.val < 0
  · rw [if_pos h0, if_neg (not_le.2 h0)]
    obtain ⟨y, hyf, hyv, hy0, hy1, hye⟩ := exp_neg hF hx h0
    have hE1 : Real.exp x.val ≤ 1 := Real.exp_le_one_iff.2 h0.le
    have hE0 := Real.exp_pos x.val
    have n1 : Near (sub R (F.exp x) 1) (y - 1) := by
      have : (Flt.neg 1).val = -1 := by show (Flt.num true 1).val = -1; simp [Flt.val]
      have hf : (Flt.neg 1).Finite := ENNReal.one_ne_top
      have := near_addWith (R := R) hyf hf (by
        rw [hyv, this, ← sub_eq_add_neg, abs_le]
        constructor <;> (unfold big; norm_num; linarith))
      rw [hyv, ‹(Flt.neg 1).val = -1›, ← sub_eq_add_neg] at this
      exact this
    set t := sub R (F.exp x) 1
    have hy1' : |y - 1| ≤ 1 := abs_le.2 ⟨by linarith, by linarith⟩
    have t1 : |t.val - (y - 1)| ≤ 1.001 * u := n1.2.trans (by nlinarith)
    have t2 : |t.val| ≤ 1.001 := by
      have := abs_sub_le t.val (y - 1) 0
      simp only [sub_zero] at this
      linarith
    have t3 : |t.val - (Real.exp x.val - 1)| ≤ 1.002 * u + ε := by
      have := abs_sub_le t.val (y - 1) (Real.exp x.val - 1)
      rw [show y - 1 - (Real.exp x.val - 1) = y - Real.exp x.val by ring] at this
      have : ε * Real.exp x.val ≤ ε * 1 := mul_le_mul_of_nonneg_left hE1 hε
      linarith
    have a0 := abs_nonneg alpha.val
    have hp : |t.val| * |alpha.val| ≤ 1.001 * |alpha.val| := mul_le_mul_of_nonneg_right t2 a0
    have n2 := near_mul (R := R) n1.1 ha (by
      rw [abs_mul]
      refine hp.trans ?_
      unfold big
      linarith)
    refine ⟨n2.1, ?_⟩
    have e1 := n2.2
    rw [abs_mul] at e1
    have e2 : |t.val * alpha.val - alpha.val * (Real.exp x.val - 1)| ≤ (1.002 * u + ε) * |alpha.val| := by
      rw [show t.val * alpha.val - alpha.val * (Real.exp x.val - 1) = (t.val - (Real.exp x.val - 1)) * alpha.val by ring, abs_mul]
      exact mul_le_mul_of_nonneg_right t3 a0
    have e3 := abs_sub_le (mul R t alpha).val (t.val * alpha.val) (alpha.val * (Real.exp x.val - 1))
    have e4 := mul_le_mul_of_nonneg_left hp hu.le
    have e5 : 0 ≤ u * |alpha.val| := by positivity
    have e6 : 0 ≤ ε * |alpha.val| := by positivity
    linarith
  · rw [if_neg h0, if_pos (not_lt.1 h0), sub_self, abs_zero]
    exact ⟨hx, by positivity⟩

/-! ## Sigmoid -/

theorem minus_float {s : Bool} {a : ℝ≥0∞} (h : R.rd a = a) : mul R (.num s a) minusOne = .num (!s) a := by
  simp [mul, mulWith, minusOne, h]

/-- The result is `1 / (1 + y)`, rounded twice, for the rounded exponential `y`. -/
theorem sigmoid_form (hF : ExpFull F ε) {x : Flt} (hx : x ≠ .nan) (hxf : IsFloat R x) :
    ∃ y : ℝ≥0∞, F.exp (mul R x minusOne) = .num false y ∧ sigmoid R F x = .num false (R.rd (1 / R.rd (y + 1))) := by
  rcases x with _ | ⟨s, a⟩
  · exact (hx rfl).elim
  have key : ∃ y : ℝ≥0∞, F.exp (mul R (.num s a) minusOne) = .num false y := by
    rw [minus_float hxf]
    cases s
    · obtain ⟨y, -, -, h⟩ := F.expNeg a
      exact ⟨y, h⟩
    · by_cases ha : a = ⊤
      · exact ⟨⊤, by rw [ha]; exact hF.top⟩
      · obtain ⟨y, h, -⟩ := hF.pos a ha
        exact ⟨y, h⟩
  obtain ⟨y, h⟩ := key
  refine ⟨y, h, ?_⟩
  unfold sigmoid
  rw [h]
  have h1 : add R (.num false y) 1 = .num false (R.rd (y + 1)) := by
    show addWith R.rd (.num false y) (.num false 1) = _
    simp [addWith]
  rw [h1]
  show divWith R.rd (.num false 1) _ = _
  simp [divWith]

theorem one_le_sum (y : ℝ≥0∞) : 1 ≤ R.rd (y + 1) := by
  have := R.mono (le_add_self : (1 : ℝ≥0∞) ≤ y + 1)
  rwa [rd_one] at this

/-- **C107**: the results of Sigmoid lie between 0 and 1, also for infinite inputs. -/
theorem sigmoid_range (hF : ExpFull F ε) {x : Flt} (hx : x ≠ .nan) (hxf : IsFloat R x) : UnitFloat R (sigmoid R F x) := by
  obtain ⟨y, -, h⟩ := sigmoid_form hF hx hxf
  refine ⟨_, ?_, R.idem _, h⟩
  have h1 : 1 / R.rd (y + 1) ≤ 1 := by
    rw [one_div]
    exact ENNReal.inv_le_one.2 (one_le_sum y)
  have := R.mono h1
  rwa [rd_one] at this

theorem inverse_error {E y s r : ℝ} (hε : 0 ≤ ε) (hε' : ε ≤ 1 / 2 ^ 10) (hE : 0 < E) (hy : |y - E| ≤ ε * E + η)
    (hs : |s - (y + 1)| ≤ u * (y + 1) + η) (hr : |r - 1 / s| ≤ u * (1 / s) + η) :
    |r - 1 / (1 + E)| ≤ (2.1 * u + 1.1 * ε) * (1 / (1 + E)) + η := by
  have hu := u_pos
  have hη := η_pos
  have hus := u_small
  have hηu := eta_le
  have hD : 0 < 1 + E := by linarith
  have p1 : 0 ≤ ε * E := by positivity
  have p2 : ε * E ≤ 1 / 2 ^ 10 * E := mul_le_mul_of_nonneg_right hε' hE.le
  have p3 : u * (y + 1) ≤ u * (1.002 * (1 + E)) := mul_le_mul_of_nonneg_left (by linarith [(abs_le.1 hy).2]) hu.le
  have p4 : 0 ≤ u * E := by positivity
  have d : |s - (1 + E)| ≤ (1.01 * u + ε) * (1 + E) := by
    have := abs_sub_le s (y + 1) (1 + E)
    rw [show y + 1 - (1 + E) = y - E by ring] at this
    linarith
  have p5 : (1.01 * u + ε) * (1 + E) ≤ 0.002 * (1 + E) := mul_le_mul_of_nonneg_right (by linarith) hD.le
  have hs' : 0.998 * (1 + E) ≤ s := by linarith [(abs_le.1 d).1]
  have hs0 : 0 < s := by linarith
  set q := 1 / s with hq
  have hq0 : 0 < q := by positivity
  have hqs : q * s = 1 := by rw [hq]; field_simp
  set σ := 1 / (1 + E) with hσ
  have hσ0 : 0 < σ := by positivity
  have hσD : σ * (1 + E) = 1 := by rw [hσ]; field_simp
  have q1 : q ≤ 1.003 * σ := by
    have h1 : q * (0.998 * (1 + E)) ≤ q * s := mul_le_mul_of_nonneg_left hs' hq0.le
    have h2 : q * (0.998 * (1 + E)) ≤ 1 := by linarith
    have h3 : q * (0.998 * (1 + E)) * σ ≤ 1 * σ := mul_le_mul_of_nonneg_right h2 hσ0.le
    have h4 : q * (0.998 * (1 + E)) * σ = 0.998 * q * (σ * (1 + E)) := by ring
    rw [h4, hσD] at h3
    linarith
  have q2 : |q - σ| ≤ (1.01 * u + ε) * q := by
    have h1 : q - σ = -((s - (1 + E)) * (q * σ)) := by
      have : (s - (1 + E)) * (q * σ) = (q * s) * σ - (σ * (1 + E)) * q := by ring
      rw [this, hqs, hσD]
      ring
    rw [h1, abs_neg, abs_mul, abs_of_pos (mul_pos hq0 hσ0)]
    have h2 := mul_le_mul_of_nonneg_right d (mul_pos hq0 hσ0).le
    have h3 : (1.01 * u + ε) * (1 + E) * (q * σ) = (1.01 * u + ε) * q * (σ * (1 + E)) := by ring
    rw [h3, hσD] at h2
    linarith
  have q3 : (2.01 * u + ε) * q ≤ (2.01 * u + ε) * (1.003 * σ) := mul_le_mul_of_nonneg_left q1 (by linarith)
  have q4 := abs_sub_le r q σ
  have q5 : 0 ≤ u * σ := by positivity
  have q6 : 0 ≤ ε * σ := by positivity
  linarith

theorem exp_neg_88 {t : ℝ} (h : 88 ≤ t) : Real.exp (-t) ≤ 1 / 2 ^ 126 := by
  have h1 : (2.7182818283 : ℝ) ≤ Real.exp 1 := Real.exp_one_gt_d9.le
  have h2 : (2 : ℝ) ^ 126 ≤ Real.exp t := by
    calc (2 : ℝ) ^ 126 ≤ 2.7182818283 ^ 88 := by norm_num
      _ ≤ Real.exp 1 ^ 88 := pow_le_pow_left₀ (by norm_num) h1 88
      _ = Real.exp 88 := by rw [← Real.exp_nat_mul]; norm_num
      _ ≤ Real.exp t := Real.exp_le_exp.2 h
  rw [Real.exp_neg, ← one_div]
  exact one_div_le_one_div_of_le (by positivity) h2

/-- The rounded `1 / (1 + y)` for a huge `y`. -/
theorem tiny_inverse {y : ℝ≥0∞} (h : 2 ^ 127 ≤ y) : (R.rd (1 / R.rd (y + 1))).toReal ≤ 1 / 2 ^ 127 + η ∧ R.rd (1 / R.rd (y + 1)) ≠ ⊤ := by
  have h1 : (2 : ℝ≥0∞) ^ 127 ≤ R.rd (y + 1) := by
    have e : R.rd (2 ^ 127) = 2 ^ 127 := by
      have := R.exact (2 ^ 23) 104 (by norm_num) (by norm_num)
      rw [show (((2 ^ 23 : ℕ) : ℝ≥0∞)) * 2 ^ 104 = 2 ^ 127 by
        exact_mod_cast (by norm_num : (2 : ℕ) ^ 23 * 2 ^ 104 = 2 ^ 127)] at this
      exact this
    rw [← e]
    exact R.mono (h.trans le_self_add)
  have h2 : 1 / R.rd (y + 1) ≤ (2 ^ 127)⁻¹ := by
    rw [one_div]
    exact ENNReal.inv_le_inv.2 h1
  have h3 : ((2 : ℝ≥0∞) ^ 127)⁻¹ < minNormal := by
    unfold minNormal
    refine ENNReal.inv_lt_inv.2 ?_
    exact_mod_cast (by norm_num : (2 : ℕ) ^ 126 < 2 ^ 127)
  have h4 := (R.mono h2).trans (R.tinyUpper _ h3)
  have ht : ((2 : ℝ≥0∞) ^ 127)⁻¹ + halfMin ≠ ⊤ := ENNReal.add_ne_top.2 ⟨h3.ne_top, by simp [halfMin]⟩
  refine ⟨?_, ne_top_of_le_ne_top ht h4⟩
  have := ENNReal.toReal_mono ht h4
  rw [ENNReal.toReal_add h3.ne_top (by simp [halfMin])] at this
  refine this.trans (le_of_eq ?_)
  simp [halfMin, η]

/-- **C107**: the error of Sigmoid relative to the exact value is at most `2.1 u + 1.1 ε`, apart from values below the smallest normal
number. -/
theorem sigmoid_error (hF : ExpFull F ε) (hε : 0 ≤ ε) (hε' : ε ≤ 1 / 2 ^ 10) {x : Flt} (hx : x.Finite) (hxf : IsFloat R x) :
    |(sigmoid R F x).val - Spec.sigmoid x.val| ≤ (2.1 * u + 1.1 * ε) * Spec.sigmoid x.val + 1 / 2 ^ 126 := by
  have hu := u_pos
  have hη := η_pos
  have hηs : η ≤ 1 / 2 ^ 130 := by unfold η; norm_num
  have hne : x ≠ .nan := by rintro rfl; exact hx
  obtain ⟨y, hy, hform⟩ := sigmoid_form hF hne hxf
  have hE := Real.exp_pos (-x.val)
  have hv : (sigmoid R F x).val = (R.rd (1 / R.rd (y + 1))).toReal := by rw [hform]; simp [Flt.val]
  unfold Spec.sigmoid
  have hσ0 : 0 < 1 / (1 + Real.exp (-x.val)) := by positivity
  have hpos : 0 ≤ (2.1 * u + 1.1 * ε) * (1 / (1 + Real.exp (-x.val))) := by positivity
  have hexp : y = ⊤ ∧ 88 ≤ -x.val ∨ y ≠ ⊤ ∧ |y.toReal - Real.exp (-x.val)| ≤ ε * Real.exp (-x.val) + η := by
    rcases x with _ | ⟨s, a⟩
    · exact hx.elim
    rw [minus_float hxf] at hy
    cases s
    · obtain ⟨y', hy1, -, hy'⟩ := F.expNeg a
      have hyy : y = y' := by
        have := hy.symm.trans hy'
        simpa using this
      subst hyy
      have := hF.neg a hx
      rw [show (!false) = true from rfl] at hy
      rw [hy] at this
      exact .inr ⟨ne_top_of_le_ne_top ENNReal.one_ne_top hy1, by simpa [Flt.val] using this⟩
    · obtain ⟨y', hy', h⟩ := hF.pos a hx
      have hyy : y = y' := by
        have := hy.symm.trans hy'
        simpa using this
      subst hyy
      rcases h with ⟨h1, h2⟩ | ⟨h1, h2⟩
      · exact .inl ⟨h1, by simpa [Flt.val] using h2⟩
      · exact .inr ⟨h1, by simp only [Flt.val, if_true, neg_neg]; linarith⟩
  by_cases hbig : y ≠ ⊤ ∧ y.toReal ≤ 2 ^ 127
  · obtain ⟨hyt, hyb⟩ := hbig
    rcases hexp with ⟨h, -⟩ | ⟨-, hexp⟩
    · exact (hyt h).elim
    have hy0 : 0 ≤ y.toReal := ENNReal.toReal_nonneg
    have hy1t : y + 1 ≠ ⊤ := ENNReal.add_ne_top.2 ⟨hyt, ENNReal.one_ne_top⟩
    have ey : (y + 1).toReal = y.toReal + 1 := by rw [ENNReal.toReal_add hyt ENNReal.one_ne_top]; simp
    obtain ⟨hst, hs⟩ := rd_error (R := R) hy1t (by rw [ey]; unfold big; linarith)
    rw [ey] at hs
    have hs1 : 1 ≤ (R.rd (y + 1)).toReal := by
      have := ENNReal.toReal_mono hst (one_le_sum (R := R) y)
      simpa using this
    have hs0 : R.rd (y + 1) ≠ 0 := fun h => by rw [h] at hs1; norm_num at hs1
    have eq : (1 / R.rd (y + 1)).toReal = 1 / (R.rd (y + 1)).toReal := by rw [ENNReal.toReal_div]; simp
    obtain ⟨-, hr⟩ := rd_error (R := R) (m := 1 / R.rd (y + 1)) (ENNReal.div_ne_top ENNReal.one_ne_top hs0) (by
      rw [eq]
      have : 1 / (R.rd (y + 1)).toReal ≤ 1 := by rw [div_le_one (by linarith)]; exact hs1
      unfold big
      linarith)
    rw [eq] at hr
    have := inverse_error hε hε' hE hexp hs hr
    rw [hv]
    have : η ≤ 1 / 2 ^ 126 := hηs.trans (by norm_num)
    linarith
  · have hy127 : (2 : ℝ≥0∞) ^ 127 ≤ y := by
      by_cases ht : y = ⊤
      · rw [ht]; exact le_top
      · have : ¬ y.toReal ≤ 2 ^ 127 := fun h => hbig ⟨ht, h⟩
        rw [← ENNReal.ofReal_toReal ht]
        have e : (2 : ℝ≥0∞) ^ 127 = ENNReal.ofReal (2 ^ 127) := by rw [ENNReal.ofReal_pow (by norm_num)]; norm_num
        rw [e]
        exact ENNReal.ofReal_le_ofReal (not_le.1 this).le
    obtain ⟨hr, -⟩ := tiny_inverse (R := R) hy127
    have hσ : 1 / (1 + Real.exp (-x.val)) ≤ 1 / 2 ^ 126 := by
      refine one_div_le_one_div_of_le (by positivity) ?_
      rcases hexp with ⟨-, h88⟩ | ⟨ht, hexp⟩
      · have := exp_neg_88 h88
        rw [Real.exp_neg, ← one_div, one_div_le_one_div (Real.exp_pos _) (by positivity)] at this
        linarith
      · have h1 : (2 : ℝ) ^ 127 ≤ y.toReal := by
          have := ENNReal.toReal_mono ht hy127
          simpa using this
        have h2 := (abs_le.1 hexp).2
        have h3 : ε * Real.exp (-x.val) ≤ 1 / 2 ^ 10 * Real.exp (-x.val) := mul_le_mul_of_nonneg_right hε' hE.le
        have h4 : (2 : ℝ) ^ 127 = 2 * 2 ^ 126 := by norm_num
        have h5 : η ≤ 1 := hηs.trans (by norm_num)
        have h6 : (1 : ℝ) ≤ 2 ^ 126 := by norm_num
        linarith
    have hr0 : 0 ≤ (R.rd (1 / R.rd (y + 1))).toReal := ENNReal.toReal_nonneg
    have h7 : (1 : ℝ) / 2 ^ 127 + 1 / 2 ^ 130 ≤ 1 / 2 ^ 126 := by norm_num
    rw [hv, abs_le]
    constructor <;> linarith

/-! ## What the backward passes add -/

/-- **C107**: the gradient of ELU. -/
theorem eluBack_error (hF : ExpFull F ε) (hε : 0 ≤ ε) (hε' : ε ≤ 1 / 2 ^ 10) {alpha x g : Flt} (ha : alpha.Finite) (hx : x.Finite)
    (hg : g.Finite) (hα : |alpha.val| ≤ 2 ^ 60) (hgb : |g.val| ≤ 2 ^ 60) :
    (eluBack R F alpha x g).Finite ∧ |(eluBack R F alpha x g).val - g.val * if x.val < 0 then alpha.val * Real.exp x.val else 1| ≤
      (2.1 * u + 1.1 * ε) * (max |alpha.val| 1 * |g.val|) + (3 * |g.val| * max |alpha.val| 1 + 1) * η := by
  have hu := u_pos
  have hη := η_pos
  have hus := u_small
  have hηu := eta_le
  have g0 := abs_nonneg g.val
  set A := max |alpha.val| 1
  have hA1 : 1 ≤ A := le_max_right _ _
  have hAα : |alpha.val| ≤ A := le_max_left _ _
  have hAb : A ≤ 2 ^ 60 := max_le hα (by norm_num)
  have a0 := abs_nonneg alpha.val
  have pA : 0 ≤ A * |g.val| := by positivity
  have pA1 : 1 * |g.val| ≤ A * |g.val| := mul_le_mul_of_nonneg_right hA1 g0
  have pε : 0 ≤ ε * (A * |g.val|) := by positivity
  have pu : 0 ≤ u * (A * |g.val|) := by positivity
  have pη : 0 ≤ η * (A * |g.val|) := by positivity
  -- the factor
  obtain ⟨h, hh, hf, he, hb⟩ : ∃ h : Flt, eluBack R F alpha x g = mul R g h ∧ h.Finite ∧
      |h.val - if x.val < 0 then alpha.val * Real.exp x.val else 1| ≤ (1.001 * u + ε) * A + 2 * A * η ∧ |h.val| ≤ 1.01 * A := by
    unfold eluBack
    simp only [lt_zero hx]
    by_cases h0 : x.val < 0
    · rw [if_pos h0, if_pos h0]
      obtain ⟨y, hyf, hyv, hy0, hy1, hye⟩ := exp_neg hF hx h0
      have hE1 : Real.exp x.val ≤ 1 := Real.exp_le_one_iff.2 h0.le
      have n := near_mul (R := R) hyf ha (by
        rw [abs_mul, hyv, abs_of_nonneg hy0]
        have := mul_le_mul hy1 hα a0 zero_le_one
        unfold big
        linarith)
      rw [hyv] at n
      have hya : |y * alpha.val| ≤ |alpha.val| := by
        rw [abs_mul, abs_of_nonneg hy0]
        have := mul_le_mul_of_nonneg_right hy1 a0
        linarith
      have n2 := n.2
      have m1 := mul_le_mul_of_nonneg_left (hya.trans hAα) hu.le
      have m2 : ε * Real.exp x.val ≤ ε * 1 := mul_le_mul_of_nonneg_left hE1 hε
      have m3 : |y * alpha.val - alpha.val * Real.exp x.val| ≤ (ε + η) * A := by
        rw [show y * alpha.val - alpha.val * Real.exp x.val = (y - Real.exp x.val) * alpha.val by ring, abs_mul]
        exact mul_le_mul (by linarith) hAα a0 (by linarith)
      have m4 := abs_sub_le (mul R (F.exp x) alpha).val (y * alpha.val) (alpha.val * Real.exp x.val)
      have m5 : η * 1 ≤ η * A := mul_le_mul_of_nonneg_left hA1 hη.le
      have m6 : 0 ≤ u * A := by positivity
      refine ⟨_, rfl, n.1, by linarith, ?_⟩
      have m7 := abs_sub_le (mul R (F.exp x) alpha).val (y * alpha.val) 0
      rw [sub_zero, sub_zero] at m7
      have m8 : u * A ≤ 1 / 10 ^ 7 * A := mul_le_mul_of_nonneg_right hus (by linarith)
      have m9 : η * A ≤ 1 / 10 ^ 7 * A := mul_le_mul_of_nonneg_right (by linarith) (by linarith)
      linarith
    · rw [if_neg h0, if_neg h0]
      refine ⟨1, rfl, finite_one, ?_, ?_⟩
      · rw [val_one, sub_self, abs_zero]
        positivity
      · rw [val_one, abs_one]
        linarith
  have hgh : |g.val| * |h.val| ≤ 1.01 * (A * |g.val|) := by
    have := mul_le_mul_of_nonneg_left hb g0
    linarith
  have n := near_mul (R := R) hg hf (by
    rw [abs_mul]
    have : A * |g.val| ≤ 2 ^ 60 * 2 ^ 60 := mul_le_mul hAb hgb g0 (by positivity)
    unfold big
    linarith)
  rw [hh]
  refine ⟨n.1, ?_⟩
  set e := if x.val < 0 then alpha.val * Real.exp x.val else 1
  have n2 := n.2
  rw [abs_mul] at n2
  have m1 := mul_le_mul_of_nonneg_left hgh hu.le
  have m2 : |g.val * h.val - g.val * e| ≤ |g.val| * ((1.001 * u + ε) * A + 2 * A * η) := by
    rw [← mul_sub, abs_mul]
    exact mul_le_mul_of_nonneg_left he g0
  have m3 := abs_sub_le (mul R g h).val (g.val * h.val) (g.val * e)
  linarith

theorem sigmoidBack_error {y g : Flt} (hy : UnitFloat R y) (hg : g.Finite) (hgb : |g.val| ≤ 2 ^ 120) :
    (sigmoidBack R y g).Finite ∧ |(sigmoidBack R y g).val - g.val * (y.val * (1 - y.val))| ≤
      3.1 * u * (|g.val| * (y.val * (1 - y.val))) + (3 * |g.val| + 1) * η := by
  have hu := u_pos
  have hη := η_pos
  have hus := u_small
  have hηu := eta_le
  have g0 := abs_nonneg g.val
  obtain ⟨y, hy1, hyf, rfl⟩ := hy
  have hyt : y ≠ ⊤ := ne_top_of_le_ne_top ENNReal.one_ne_top hy1
  have hv : (Flt.num false y).val = y.toReal := by simp [Flt.val]
  unfold sigmoidBack
  rw [minus_float hyf, hv]
  set Y := y.toReal
  have hY0 : 0 ≤ Y := ENNReal.toReal_nonneg
  have hY1 : Y ≤ 1 := by simpa using ENNReal.toReal_mono ENNReal.one_ne_top hy1
  have v2 : (Flt.num (!false) y).val = -Y := by simp [Flt.val, Y]
  have n1 : Near (add R (.num (!false) y) 1) (1 - Y) := by
    have := near_addWith (R := R) (a := .num (!false) y) (b := 1) hyt finite_one (by
      rw [v2, val_one, abs_le]
      constructor <;> (unfold big; norm_num; linarith))
    rw [v2, val_one, neg_add_eq_sub] at this
    exact this
  set t := add R (.num (!false) y) 1
  have n1' := n1.2
  rw [abs_of_nonneg (by linarith : 0 ≤ 1 - Y)] at n1'
  have ht := abs_le.1 n1'
  have q0 : 0 ≤ Y * (1 - Y) := mul_nonneg hY0 (by linarith)
  have q1 : Y * (1 - Y) ≤ 1 := by nlinarith
  have qu : 0 ≤ u * (Y * (1 - Y)) := by positivity
  have hYt : |Y * t.val - Y * (1 - Y)| ≤ u * (Y * (1 - Y)) + η := by
    rw [← mul_sub, abs_mul, abs_of_nonneg hY0]
    have h1 := mul_le_mul_of_nonneg_left n1' hY0
    have h2 : Y * η ≤ 1 * η := mul_le_mul_of_nonneg_right hY1 hη.le
    linarith
  have hYt' : |Y * t.val| ≤ 1.001 * (Y * (1 - Y)) + η := by
    have := abs_sub_le (Y * t.val) (Y * (1 - Y)) 0
    rw [sub_zero, sub_zero, abs_of_nonneg q0] at this
    have : u * (Y * (1 - Y)) ≤ 1 / 10 ^ 7 * (Y * (1 - Y)) := mul_le_mul_of_nonneg_right hus q0
    linarith
  have n2 : Near (mul R (.num false y) t) (Y * t.val) := by
    have := near_mul (R := R) (a := .num false y) (b := t) hyt n1.1 (by
      rw [hv]
      unfold big
      linarith)
    rwa [hv] at this
  set z := mul R (.num false y) t
  have n2' := n2.2
  have m1 := mul_le_mul_of_nonneg_left hYt' hu.le
  have m2 : u * η ≤ 1 / 10 ^ 7 * η := mul_le_mul_of_nonneg_right hus hη.le
  have hz : |z.val - Y * (1 - Y)| ≤ 2.01 * u * (Y * (1 - Y)) + 2.1 * η := by
    have := abs_sub_le z.val (Y * t.val) (Y * (1 - Y))
    linarith
  have hz' : |z.val| ≤ 1.001 * (Y * (1 - Y)) + 2.1 * η := by
    have := abs_sub_le z.val (Y * (1 - Y)) 0
    rw [sub_zero, sub_zero, abs_of_nonneg q0] at this
    have : u * (Y * (1 - Y)) ≤ 1 / 10 ^ 7 * (Y * (1 - Y)) := mul_le_mul_of_nonneg_right hus q0
    linarith
  have p1 := mul_le_mul_of_nonneg_left hz' g0
  have pq : 0 ≤ |g.val| * (Y * (1 - Y)) := by positivity
  have pη : 0 ≤ |g.val| * η := by positivity
  have n3 := near_mul (R := R) hg n2.1 (by
    rw [abs_mul]
    have h1 : |g.val| * (Y * (1 - Y)) ≤ 2 ^ 120 * 1 := mul_le_mul hgb q1 q0 (by positivity)
    have h2 : |g.val| * η ≤ 2 ^ 120 * 1 := mul_le_mul hgb (by linarith) hη.le (by positivity)
    unfold big
    linarith)
  refine ⟨n3.1, ?_⟩
  have n3' := n3.2
  rw [abs_mul] at n3'
  have p2 := mul_le_mul_of_nonneg_left p1 hu.le
  have p3 : |g.val * z.val - g.val * (Y * (1 - Y))| ≤ |g.val| * (2.01 * u * (Y * (1 - Y)) + 2.1 * η) := by
    rw [← mul_sub, abs_mul]
    exact mul_le_mul_of_nonneg_left hz g0
  have p4 := abs_sub_le (mul R g z).val (g.val * z.val) (g.val * (Y * (1 - Y)))
  have p5 : u * (|g.val| * η) ≤ 1 / 10 ^ 7 * (|g.val| * η) := mul_le_mul_of_nonneg_right hus pη
  have p6 : 0 ≤ u * (|g.val| * (Y * (1 - Y))) := by positivity
  linarith

/-- **C107**: the gradient of Sigmoid, compared with the derivative of the exact function at the same input. -/
theorem sigmoid_gradient_error (hF : ExpFull F ε) (hε : 0 ≤ ε) (hε' : ε ≤ 1 / 2 ^ 10) {x g : Flt} (hx : x.Finite) (hxf : IsFloat R x)
    (hg : g.Finite) (hgb : |g.val| ≤ 2 ^ 120) :
    (sigmoidBack R (sigmoid R F x) g).Finite ∧
    |(sigmoidBack R (sigmoid R F x) g).val - g.val * deriv Spec.sigmoid x.val| ≤ (3 * u + 1.1 * ε) * |g.val| + η := by
  have hne : x ≠ .nan := by rintro rfl; exact hx
  have hr := sigmoid_range hF hne hxf
  obtain ⟨h1, h2⟩ := sigmoidBack_error hr hg hgb
  refine ⟨h1, ?_⟩
  have h3 := sigmoid_error hF hε hε' hx hxf
  have hu := u_pos
  have hη := η_pos
  have hηs : η ≤ 1 / 2 ^ 130 := by unfold η; norm_num
  have hu2 : (1 : ℝ) / 2 ^ 120 ≤ u / 1000 := by unfold u; norm_num
  have hE := Real.exp_pos (-x.val)
  set σ := Spec.sigmoid x.val with hσ
  have hσ' : σ = 1 / (1 + Real.exp (-x.val)) := rfl
  have hσ0 : 0 < σ := by rw [hσ']; positivity
  have hσ1 : σ ≤ 1 := by rw [hσ', div_le_one (by positivity)]; linarith
  have hd : deriv Spec.sigmoid x.val = σ * (1 - σ) := by
    have h : HasDerivAt Spec.sigmoid (σ * (1 - σ)) x.val := by
      have h0 : HasDerivAt (fun t : ℝ => 1 + Real.exp (-t)) (-Real.exp (-x.val)) x.val := by
        have := ((hasDerivAt_id x.val).neg.exp).const_add 1
        simpa using this
      have := (hasDerivAt_const x.val (1 : ℝ)).div h0 (by positivity)
      refine this.congr_deriv ?_
      rw [hσ']
      field_simp
      ring
    exact h.deriv
  rw [hd]
  set y := (sigmoid R F x).val
  have hy : 0 ≤ y ∧ y ≤ 1 := by
    obtain ⟨z, hz, -, e⟩ := hr
    have : y = z.toReal := by show (sigmoid R F x).val = _; rw [e]; simp [Flt.val]
    rw [this]
    exact ⟨ENNReal.toReal_nonneg, by simpa using ENNReal.toReal_mono ENNReal.one_ne_top hz⟩
  have g0 := abs_nonneg g.val
  have d1 : |y * (1 - y) - σ * (1 - σ)| ≤ 2.1 * u + 1.1 * ε + 1 / 2 ^ 126 := by
    have e : y * (1 - y) - σ * (1 - σ) = (y - σ) * (1 - y - σ) := by ring
    rw [e, abs_mul]
    have k1 : |1 - y - σ| ≤ 1 := abs_le.2 ⟨by linarith, by linarith⟩
    have k2 : (2.1 * u + 1.1 * ε) * σ ≤ (2.1 * u + 1.1 * ε) * 1 := mul_le_mul_of_nonneg_left hσ1 (by positivity)
    have k3 := mul_le_mul (h3.trans (by linarith : _ ≤ 2.1 * u + 1.1 * ε + 1 / 2 ^ 126)) k1 (abs_nonneg _) (by positivity)
    linarith
  have d2 : y * (1 - y) ≤ 1 / 4 := by nlinarith [sq_nonneg (2 * y - 1)]
  have d3 := mul_le_mul_of_nonneg_left d1 g0
  have d4 := mul_le_mul_of_nonneg_left d2 g0
  have d5 : |g.val * (y * (1 - y)) - g.val * (σ * (1 - σ))| = |g.val| * |y * (1 - y) - σ * (1 - σ)| := by rw [← mul_sub, abs_mul]
  have d6 := abs_sub_le (sigmoidBack R (sigmoid R F x) g).val (g.val * (y * (1 - y))) (g.val * (σ * (1 - σ)))
  have d7 := mul_le_mul_of_nonneg_left d4 hu.le
  have d8 : |g.val| * (1 / 2 ^ 120) ≤ |g.val| * (u / 1000) := mul_le_mul_of_nonneg_left hu2 g0
  have d9 : |g.val| * η ≤ |g.val| * (1 / 2 ^ 130) := mul_le_mul_of_nonneg_left hηs g0
  have d10 : (1 : ℝ) / 2 ^ 126 + 3 * (1 / 2 ^ 130) ≤ 1 / 2 ^ 120 := by norm_num
  have d11 := mul_le_mul_of_nonneg_left d10 g0
  have d12 : 0 ≤ u * |g.val| := by positivity
  linarith

/-! ## The function `exp` of the model -/

/-- The correctly rounded `exp` has the properties asked for. -/
theorem libm_full : ExpFull libm u := by
  refine ⟨libm_accurate, rfl, ?_, fun x hx => ?_⟩
  · show exp32 (.num false ⊤) = _
    simp [exp32]
  · have e : libm.exp (.num false x) = .num false (rd32 (ENNReal.ofReal (Real.exp x.toReal))) := by
      show exp32 (.num false x) = _
      simp [exp32, hx]
    refine ⟨_, e, ?_⟩
    set E := Real.exp x.toReal
    have hE : 1 ≤ E := Real.one_le_exp ENNReal.toReal_nonneg
    have hEt : (ENNReal.ofReal E).toReal = E := ENNReal.toReal_ofReal (by linarith)
    have hbe : (big : ℝ) = 2 ^ 128 * (1 - u) := by unfold big u; norm_num
    rcases le_or_gt E big with hb | hb
    · refine .inr ?_
      have hn : minNormal ≤ ENNReal.ofReal E := by
        rw [minNormal_eq]
        exact ENNReal.ofReal_le_ofReal ((zpow_le_one_of_nonpos₀ (by norm_num) (by norm_num)).trans hE)
      have hm : ENNReal.ofReal E ≤ maxFloat := by
        rw [maxFloat_eq]
        exact ENNReal.ofReal_le_ofReal hb
      have ht : rd32 (ENNReal.ofReal E) ≠ ⊤ := (rd_error (R := binary32) ENNReal.ofReal_ne_top (by rw [hEt]; exact hb)).1
      have h1 := binary32.upper _ hn hm
      have h2 := binary32.lower _ hn hm
      have hu : unit.toReal = u := by simp [unit, u]
      have hut : unit * ENNReal.ofReal E ≠ ⊤ := ENNReal.mul_ne_top unit_lt_one.ne_top ENNReal.ofReal_ne_top
      have k1 := ENNReal.toReal_mono (ENNReal.add_ne_top.2 ⟨ENNReal.ofReal_ne_top, hut⟩) h1
      have k2 := ENNReal.toReal_mono (ENNReal.add_ne_top.2 ⟨ht, hut⟩) h2
      rw [ENNReal.toReal_add ENNReal.ofReal_ne_top hut, ENNReal.toReal_mul, hu, hEt] at k1
      rw [ENNReal.toReal_add ht hut, ENNReal.toReal_mul, hu, hEt] at k2
      refine ⟨ht, abs_le.2 ⟨?_, ?_⟩⟩
      · linarith
      · have : (binary32.rd (ENNReal.ofReal E)).toReal = (rd32 (ENNReal.ofReal E)).toReal := rfl
        linarith
    · by_cases ht : rd32 (ENNReal.ofReal E) = ⊤
      · refine .inl ⟨ht, ?_⟩
        by_contra hc
        have h1 : E ≤ Real.exp 88 := Real.exp_le_exp.2 (not_le.1 hc).le
        have h2 : Real.exp 88 ≤ 2.7182818286 ^ 88 := by
          have : Real.exp 88 = Real.exp 1 ^ 88 := by rw [← Real.exp_nat_mul]; norm_num
          rw [this]
          exact pow_le_pow_left₀ (Real.exp_pos 1).le Real.exp_one_lt_d9.le 88
        have h3 : (2.7182818286 : ℝ) ^ 88 ≤ big := by unfold big; norm_num
        linarith
      · refine .inr ⟨ht, ?_⟩
        have h1 : E < 2 ^ 128 := by
          by_contra hc
          refine ht (rd32_huge _ ?_)
          have e2 : (2 : ℝ≥0∞) ^ 128 = ENNReal.ofReal (2 ^ 128) := by rw [ENNReal.ofReal_pow (by norm_num)]; norm_num
          rw [e2]
          exact ENNReal.ofReal_le_ofReal (not_lt.1 hc)
        have h2 : (rd32 (ENNReal.ofReal E)).toReal ≤ big := by
          have := ENNReal.toReal_mono (by rw [maxFloat_eq]; exact ENNReal.ofReal_ne_top) (rd32_largest _ ht)
          rw [maxFloat_eq, ENNReal.toReal_ofReal (by norm_num)] at this
          exact this
        have h3 : big ≤ (rd32 (ENNReal.ofReal E)).toReal := by
          have k := rd32_mono (show maxFloat ≤ ENNReal.ofReal E by rw [maxFloat_eq]; exact ENNReal.ofReal_le_ofReal hb.le)
          have k2 : rd32 maxFloat = maxFloat := by
            have := rd32_exact 16777215 104 (by norm_num) (by norm_num)
            unfold maxFloat
            exact_mod_cast this
          rw [k2] at k
          have := ENNReal.toReal_mono ht k
          rw [maxFloat_eq, ENNReal.toReal_ofReal (by norm_num)] at this
          exact this
        have hu := u_pos
        have hu1 := u_small
        have h4 : E * (1 - u) ≤ 2 ^ 128 * (1 - u) := mul_le_mul_of_nonneg_right h1.le (by linarith)
        have h5 : 0 ≤ u * E := by positivity
        exact abs_le.2 ⟨by linarith, by linarith⟩

/-! ## NaN -/

/-- **C108** in full, for one activation `f`: NaN is not replaced by a number. -/
def KeepsNan (f : Flt → Flt) : Prop := f .nan = .nan

/-- **C108**, as far as it holds. -/
theorem keepsNan_partial (hF : ExpFull F ε) (alpha : Flt) :
    KeepsNan (leakyRelu R alpha) ∧ KeepsNan (elu R F alpha) ∧ KeepsNan (sigmoid R F) := by
  refine ⟨?_, ?_, ?_⟩
  · simp [KeepsNan, leakyRelu, Flt.lt]
  · simp [KeepsNan, elu, Flt.lt]
  · have : mul R .nan minusOne = .nan := rfl
    rw [KeepsNan, sigmoid, this, hF.nan]
    rfl

/-- ReLU turns NaN into 0. -/
theorem relu_nan : relu .nan = 0 := by
  rw [relu, if_neg]
  exact fun h => h

theorem keepsNan_refuted : ¬ KeepsNan relu := by
  rw [KeepsNan, relu_nan]
  exact fun h => by cases h

theorem add_nan (a : Flt) : add R a .nan = .nan ∧ add R .nan a = .nan := by cases a <;> exact ⟨rfl, rfl⟩

theorem mul_nan {a b : Flt} (h : a = .nan ∨ b = .nan) : mul R a b = .nan ∧ mulWith id a b = .nan := by
  rcases h with rfl | rfl
  · exact ⟨rfl, rfl⟩
  · cases a <;> exact ⟨rfl, rfl⟩

theorem dot_nan {l : List (Flt × Flt)} {r : Flt} (h : DotOf R l r) (hl : ∃ q ∈ l, q.1 = .nan ∨ q.2 = .nan) : r = .nan := by
  induction h with
  | one a b =>
    obtain ⟨q, hq, h⟩ := hl
    obtain rfl := List.mem_singleton.1 hq
    exact (mul_nan h).1
  | start a b =>
    obtain ⟨q, hq, h⟩ := hl
    obtain rfl := List.mem_singleton.1 hq
    rw [(mul_nan h).1]
    exact (add_nan _).1
  | fmaStart a b =>
    obtain ⟨q, hq, h⟩ := hl
    obtain rfl := List.mem_singleton.1 hq
    rw [Float.fma, (mul_nan (R := R) h).2]
    rfl
  | add _ _ ih ih' =>
    obtain ⟨q, hq, h⟩ := hl
    rcases List.mem_append.1 hq with hq | hq
    · rw [ih ⟨q, hq, h⟩]; exact (add_nan _).2
    · rw [ih' ⟨q, hq, h⟩]; exact (add_nan _).1
  | fma _ ih =>
    obtain ⟨q, hq, h⟩ := hl
    rcases List.mem_append.1 hq with hq | hq
    · rw [ih ⟨q, hq, h⟩]; exact (add_nan (R := R) _).1
    · obtain rfl := List.mem_singleton.1 hq
      rw [Float.fma, (mul_nan (R := R) h).2]
      rfl
  | perm hp _ ih =>
    obtain ⟨q, hq, h⟩ := hl
    exact ih ⟨q, hp.mem_iff.2 hq, h⟩

/-- **C108** for `Linear`: NaN in an input makes all outputs of its row NaN, NaN in a weight or bias all outputs of its unit. -/
theorem linear_keeps_nan {B n k : Nat} {X : Fin B → Fin n → Flt} {W : Fin k → Fin n → Flt} {b : Fin k → Flt} {Y : Fin B → Fin k → Flt}
    (h : LinearForward R X W b Y) (i : Fin B) (j : Fin k) (hn : (∃ r, X i r = .nan ∨ W j r = .nan) ∨ b j = .nan) : Y i j = .nan := by
  obtain ⟨z, hz, e⟩ := h i j
  rw [e]
  rcases hn with ⟨r, hr⟩ | hb
  · rw [dot_nan hz ⟨(X i r, W j r), by rw [List.mem_ofFn]; exact ⟨r, rfl⟩, hr⟩]
    exact (add_nan _).2
  · rw [hb]
    exact (add_nan _).1

/-! ## Dropout -/

/-- Dropout with probability 1 gives NaN or infinity for every element, whatever the mask. -/
theorem dropout_one (m x : Flt) : ¬ (dropout R 1 m x).Finite := by
  have h : sub R 1 1 = .num false 0 := by
    show addWith R.rd (.num false 1) (.num true 1) = _
    simp [addWith]
  have key : ∀ y : Flt, ¬ (div R y (.num false 0)).Finite := fun y => by
    rcases y with _ | ⟨s, y⟩
    · exact fun h => h
    · show ¬ (divWith R.rd (.num s y) (.num false 0)).Finite
      by_cases hy : y = 0
      · simp [divWith, hy, Flt.Finite]
      · have : R.rd ⊤ = ⊤ := R.huge _ le_top
        simp [divWith, hy, ENNReal.div_zero hy, this, Flt.Finite]
  rw [dropout, h]
  exact key _

/-- For smaller probabilities dropout has the error of two roundings. -/
theorem dropout_error {p m x : Flt} (hp : p.Finite) (hp0 : 0 ≤ p.val) (hp1 : p.val ≤ 1 - 1 / 2 ^ 25) (hx : x.Finite) (hm : m.Finite)
    (hxb : |x.val| ≤ 2 ^ 100) :
    (dropout R p m x).Finite ∧ |(dropout R p m x).val - (if p.val ≤ m.val then x.val else 0) / (1 - p.val)| ≤
      2.1 * u * (|x.val| / (1 - p.val)) + η := by
  have hu := u_pos
  have hη := η_pos
  have hus := u_small
  have hηs : η ≤ u / 1000 * (1 / 2 ^ 25) := by unfold η u; norm_num
  have hpn : p ≠ .nan := by rintro rfl; exact hp
  have hmn : m ≠ .nan := by rintro rfl; exact hm
  obtain ⟨y, hy, hyf, hyv⟩ : ∃ y : Flt, dropout R p m x = div R y (sub R 1 p) ∧ y.Finite ∧ y.val = if p.val ≤ m.val then x.val else 0 := by
    refine ⟨_, rfl, ?_⟩
    simp only [ne_eq, hpn, hmn, not_false_eq_true, true_and, FloatLossP.lt_iff hm hp, not_lt]
    split_ifs
    · exact ⟨hx, rfl⟩
    · exact ⟨finite_zero, val_zero⟩
  rw [hy, ← hyv]
  have hyx : |y.val| ≤ |x.val| := by
    rw [hyv]
    split_ifs
    · exact le_rfl
    · rw [abs_zero]; exact abs_nonneg _
  set q := 1 - p.val with hq
  have hq0 : 1 / 2 ^ 25 ≤ q := by rw [hq]; linarith
  have hq1 : q ≤ 1 := by rw [hq]; linarith
  have hqp : 0 < q := lt_of_lt_of_le (by positivity) hq0
  have n1 : Near (sub R 1 p) q := by
    have hv : p.neg.val = -p.val := by rcases p with _ | ⟨s, a⟩ <;> [exact (hpn rfl).elim; cases s <;> simp [Flt.neg, Flt.val]]
    have hf : p.neg.Finite := by rcases p with _ | ⟨s, a⟩ <;> [exact (hpn rfl).elim; exact hp]
    have := near_addWith (R := R) finite_one hf (by
      rw [val_one, hv, ← sub_eq_add_neg, ← hq, abs_of_pos hqp]
      unfold big
      linarith)
    rwa [val_one, hv, ← sub_eq_add_neg, ← hq] at this
  set t := sub R 1 p
  have k1 : η ≤ u / 1000 * q := hηs.trans (mul_le_mul_of_nonneg_left hq0 (by positivity))
  have ht : |t.val - q| ≤ 1.001 * u * q := by
    have := n1.2
    rw [abs_of_pos hqp] at this
    linarith
  have k2 : u * q ≤ 1 / 10 ^ 7 * q := mul_le_mul_of_nonneg_right hus hqp.le
  have ht0 : 0.999 * q ≤ t.val := by linarith [(abs_le.1 ht).1]
  have htp : 0 < t.val := by linarith
  set w := 1 / q with hw
  have hwq : w * q = 1 := by rw [hw]; field_simp
  set v := 1 / t.val with hvd
  have hvt : v * t.val = 1 := by rw [hvd]; field_simp
  have hv0 : 0 < v := by positivity
  have hw0 : 0 < w := by positivity
  have hvw : v ≤ 1.0011 * w := by
    have h1 : v * (0.999 * q) ≤ v * t.val := mul_le_mul_of_nonneg_left ht0 hv0.le
    have h2 : v * (0.999 * q) * w ≤ 1 * w := mul_le_mul_of_nonneg_right (by linarith) hw0.le
    have h3 : v * (0.999 * q) * w = 0.999 * v * (w * q) := by ring
    rw [h3, hwq] at h2
    linarith
  have hd : |v - w| ≤ 1.001 * u * v := by
    have h1 : v - w = -((t.val - q) * (v * w)) := by
      have : (t.val - q) * (v * w) = (v * t.val) * w - (w * q) * v := by ring
      rw [this, hvt, hwq]
      ring
    rw [h1, abs_neg, abs_mul, abs_of_pos (mul_pos hv0 hw0)]
    have h2 := mul_le_mul_of_nonneg_right ht (mul_pos hv0 hw0).le
    have h3 : 1.001 * u * q * (v * w) = 1.001 * u * v * (w * q) := by ring
    rw [h3, hwq] at h2
    linarith
  have x0 := abs_nonneg x.val
  have ediv : ∀ z : ℝ, z / t.val = z * v := fun z => by rw [hvd]; ring
  have ediv' : ∀ z : ℝ, z / q = z * w := fun z => by rw [hw]; ring
  have hwb : w ≤ 2 ^ 25 := by
    rw [hw, div_le_iff₀ hqp]
    have := mul_le_mul_of_nonneg_left hq0 (by positivity : (0 : ℝ) ≤ 2 ^ 25)
    linarith
  have b1 : |y.val| * v ≤ 1.0011 * (|x.val| * w) := by
    have := mul_le_mul hyx hvw hv0.le x0
    linarith
  have n2 := near_div (R := R) hyf n1.1 htp.ne' (by
    rw [ediv, abs_mul, abs_of_pos hv0]
    have : |x.val| * w ≤ 2 ^ 100 * 2 ^ 25 := mul_le_mul hxb hwb hw0.le (by positivity)
    unfold big
    linarith)
  refine ⟨n2.1, ?_⟩
  have n2' := n2.2
  rw [ediv, abs_mul, abs_of_pos hv0] at n2'
  rw [ediv', ediv']
  have b2 := mul_le_mul_of_nonneg_left b1 hu.le
  have b3 : |y.val * v - y.val * w| ≤ |y.val| * (1.001 * u * v) := by
    rw [← mul_sub, abs_mul]
    exact mul_le_mul_of_nonneg_left hd (abs_nonneg _)
  have b4 := abs_sub_le (div R y t).val (y.val * v) (y.val * w)
  have b5 : 0 ≤ u * (|x.val| * w) := by positivity
  linarith

/-- The hypotheses of the theorems above hold for IEEE single precision, the correctly rounded `exp` and the input 1. -/
example : ExpFull libm u ∧ 0 ≤ u ∧ u ≤ 1 / 2 ^ 10 ∧ (1 : Flt).Finite ∧ IsFloat binary32 1 ∧ |(1 : Flt).val| ≤ 2 ^ 60 ∧ (1 : Flt).val = 1 :=
  ⟨libm_full, u_pos.le, by unfold u; norm_num, finite_one, rd32_one, by rw [val_one]; norm_num, val_one⟩

example : ∃ p : Flt, p.Finite ∧ 0 ≤ p.val ∧ p.val ≤ 1 - 1 / 2 ^ 25 ∧ p.val = 1 / 2 := by
  have h : (Flt.num false 2⁻¹).val = 1 / 2 := by simp [Flt.val]
  exact ⟨.num false 2⁻¹, by simp [Flt.Finite], by rw [h]; norm_num, by rw [h]; norm_num, h⟩

end

end DW.Props.FloatActP
