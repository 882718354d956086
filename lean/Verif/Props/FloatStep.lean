import Verif.Props.FloatTrain
/-!
# C104: a training step in `float`, compared with exact gradient descent
-/

set_option autoImplicit false

namespace DW.Props.FloatTrainP

open DW.Float DW.Props.FloatSoftmaxP DW.Props.FloatLossP DW.Props.FloatDotP DW.Props.FloatGradP DW.Props.FloatAccuracyP
open scoped ENNReal

variable {R : Rounding} {F : Libm R} {B n k : Nat}

noncomputable section

/-- The relative error of `log` on numbers up to 1 is at most `ε`, apart from half of the smallest `float`. -/
def LogAccurate (F : Libm R) (ε : ℝ) : Prop :=
  ∀ x : ℝ≥0∞, 0 < x → x ≤ 1 → R.rd x = x → |(F.log (.num false x)).val - Real.log x.toReal| ≤ ε * |Real.log x.toReal| + η

/-- The situations considered: finite numbers of moderate size, and logits that are at most `S`, also without cancellation. -/
structure Setting (F : Libm R) (ε ε' A S : ℝ) (lr : Flt) (X : Fin B → Fin n → Flt) (W : Fin k → Fin n → Flt) (b : Fin k → Flt) : Prop where
  batch : 0 < B
  batchLe : B ≤ 2 ^ 18
  classes : k ≤ 2 ^ 18
  inputs : n ≤ 2 ^ 15
  expErr : ExpAccurate F ε
  logErr : LogAccurate F ε'
  ε0 : 0 ≤ ε
  ε1 : ε ≤ 1 / 2 ^ 10
  ε'0 : 0 ≤ ε'
  ε'1 : ε' ≤ 1 / 2 ^ 10
  finX : ∀ i r, (X i r).Finite
  finW : ∀ j r, (W j r).Finite
  finb : ∀ j, (b j).Finite
  finLr : lr.Finite
  leX : ∀ i r, |(X i r).val| ≤ A
  leW : ∀ j r, |(W j r).val| ≤ 2 ^ 60
  leb : ∀ j, |(b j).val| ≤ 2 ^ 60
  leLr : |lr.val| ≤ 2 ^ 60
  A1 : 1 ≤ A
  A2 : A ≤ 2 ^ 60
  S1 : 1 ≤ S
  S2 : S ≤ 30
  leS : ∀ i j, linearSize (X i) (W j) (b j) ≤ S

variable {ε ε' A S : ℝ} {lr : Flt} {X : Fin B → Fin n → Flt} {W : Fin k → Fin n → Flt} {b : Fin k → Flt} {label : Fin B → Fin k}

/-- The exact logits. -/
def logits (X : Fin B → Fin n → Flt) (W : Fin k → Fin n → Flt) (b : Fin k → Flt) (i : Fin B) (j : Fin k) : ℝ :=
  ∑ r, (X i r).val * (W j r).val + (b j).val

/-- The error of the logits. -/
def δ (n : ℕ) (S : ℝ) : ℝ := 1.1 * (2 * n + 1) * u * S

theorem pow_le {m : ℕ} (h : m * u ≤ 1 / 30) : (1 + u) ^ m ≤ 1 + 1.04 * (m * u) := by
  have hu := u_pos
  have h0 : 0 ≤ m * u := by positivity
  have g1 : (1 + u) ^ m ≤ Real.exp (m * u) := by
    rw [Real.exp_nat_mul]
    exact pow_le_pow_left₀ (by linarith) (by linarith [Real.add_one_le_exp u]) _
  have g2 := (abs_le.1 (Real.abs_exp_sub_one_sub_id_le (x := (m : ℝ) * u) (by rw [abs_of_nonneg h0]; linarith))).2
  nlinarith

theorem Setting.δ_small (h : Setting F ε ε' A S lr X W b) : 0 ≤ δ n S ∧ δ n S ≤ 0.13 := by
  have hu := u_pos
  have h1 := h.S1
  have h2 := h.S2
  have hn : (n : ℝ) ≤ 2 ^ 15 := by exact_mod_cast h.inputs
  unfold δ
  refine ⟨by positivity, ?_⟩
  have : 1.1 * (2 * (n : ℝ) + 1) * u * S ≤ 1.1 * (2 * 2 ^ 15 + 1) * u * 30 := by gcongr
  refine this.trans ?_
  unfold u
  norm_num

theorem Setting.logits_error (h : Setting F ε ε' A S lr X W b) {Y : Fin B → Fin k → Flt} (hY : LinearForward R X W b Y) (i : Fin B)
    (j : Fin k) : (Y i j).Finite ∧ |(Y i j).val - logits X W b i j| ≤ δ n S ∧ |(Y i j).val| ≤ 31 ∧ |logits X W b i j| ≤ S := by
  have hu := u_pos
  have hη := η_pos
  have h1 := h.S1
  have h2 := h.S2
  have hn : (n : ℝ) ≤ 2 ^ 15 := by exact_mod_cast h.inputs
  have hs := h.leS i j
  have hs0 : 0 ≤ linearSize (X i) (W j) (b j) := by unfold linearSize; positivity
  have hx : ((2 * n + 1 : ℕ) : ℝ) * u ≤ 1 / 30 := by
    push_cast
    unfold u
    linarith
  have hp := pow_le hx
  push_cast at hp
  have hx0 : 0 ≤ (2 * (n : ℝ) + 1) * u := by positivity
  push_cast at hx
  have hp2 : (1 + u) ^ (2 * n + 1) ≤ 2 := by linarith
  have hp1 : (1 : ℝ) ≤ (1 + u) ^ (2 * n + 1) := one_le_pow₀ (by linarith)
  have hη' : 3 * n * η ≤ u / 1000 := by
    have : 3 * n * η ≤ 3 * 2 ^ 15 * η := by gcongr
    refine this.trans ?_
    unfold η u
    norm_num
  have hη0 : 0 ≤ 3 * n * η := by positivity
  obtain ⟨f, e⟩ := linear_error hY h.finX h.finW h.finb i j (by
    have : (1 + u) ^ (2 * n + 1) * (linearSize (X i) (W j) (b j) + 3 * n * η) ≤ 2 * (30 + 1) := by
      refine mul_le_mul hp2 ?_ (by positivity) (by norm_num)
      have := u_small
      linarith
    refine this.trans ?_
    unfold big
    norm_num)
  have e' : |(Y i j).val - logits X W b i j| ≤ δ n S := by
    refine e.trans ?_
    have a1 : ((1 + u) ^ (2 * n + 1) - 1) * linearSize (X i) (W j) (b j) ≤ 1.04 * ((2 * n + 1) * u) * S :=
      mul_le_mul (by linarith) hs hs0 (by positivity)
    have a2 : 3 * n * η * (1 + u) ^ (2 * n + 1) ≤ u / 1000 * 2 := mul_le_mul hη' hp2 (by linarith) (by positivity)
    have a3 : u ≤ (2 * n + 1) * u * S := by
      have : 1 * u * 1 ≤ (2 * n + 1) * u * S := by
        gcongr
        · linarith [show (0 : ℝ) ≤ n by positivity]
      linarith
    unfold δ
    linarith
  have hl : |logits X W b i j| ≤ S := by
    refine le_trans ?_ hs
    unfold logits linearSize
    refine (abs_add_le _ _).trans (add_le_add ((Finset.abs_sum_le_sum_abs _ _).trans ?_) le_rfl)
    exact Finset.sum_le_sum fun r _ => (abs_mul _ _).le
  refine ⟨f, e', ?_, hl⟩
  have := abs_sub_abs_le_abs_sub (Y i j).val (logits X W b i j)
  have := h.δ_small
  linarith

/-- The labels have probabilities that are normal numbers. -/
theorem normal_at {Y P : Fin B → Fin k → Flt} {z : Fin B → Fin k → ℝ} {d : ℝ} (hYf : ∀ i j, (Y i j).Finite) (hYb : ∀ i j, |(Y i j).val| ≤ 31)
    (hYz : ∀ i j, |(Y i j).val - z i j| ≤ d) (hk : k ≤ 2 ^ 18) (hF : ExpAccurate F ε) (hε : 0 ≤ ε) (hε' : ε ≤ 1 / 2 ^ 10)
    (hP : SoftmaxForward R F Y P) (i : Fin B) (j : Fin k) :
    ∃ p : ℝ≥0∞, minNormal ≤ p ∧ p ≤ 1 ∧ R.rd p = p ∧ P i j = .num false p ∧ |Real.log p.toReal| ≤ 76 ∧
      |Real.log p.toReal - Real.log (softmax (z i) j)| ≤ 1.05 * τ k ε + 2 * d := by
  obtain ⟨p, hp1, hpr, hpe⟩ := softmax_range hP hYf (hk.trans (by norm_num)) i j
  have hrel := probability_rel hP hYf hk hF hε hε' hYb i j
  have hτ := τ_small hk hε'
  have hτ0 := τ_nonneg (k := k) hε
  rw [hpe, show (Flt.num false p).val = p.toReal by simp [Flt.val]] at hrel
  have hpt : p ≠ ⊤ := ne_top_of_le_ne_top ENNReal.one_ne_top hp1
  have hk1 : (1 : ℝ) ≤ k := by exact_mod_cast (Fin.pos j)
  have hk' : (k : ℝ) ≤ 2 ^ 18 := by exact_mod_cast hk
  -- the exact probability
  have low : Real.exp (-62) / k ≤ softmax (fun r => (Y i r).val) j := by
    have p1 : 0 < ∑ r, Real.exp ((Y i r).val) := Finset.sum_pos (fun r _ => Real.exp_pos _) ⟨j, Finset.mem_univ j⟩
    have s1 : ∑ r, Real.exp ((Y i r).val) ≤ k * Real.exp 31 := by
      refine (Finset.sum_le_sum fun r _ => Real.exp_le_exp.2 (abs_le.1 (hYb i r)).2).trans ?_
      simp
    unfold softmax
    rw [div_le_div_iff₀ (by linarith) p1]
    calc Real.exp (-62) * ∑ r, Real.exp ((Y i r).val) ≤ Real.exp (-62) * (k * Real.exp 31) :=
          mul_le_mul_of_nonneg_left s1 (Real.exp_pos _).le
      _ = Real.exp (-31) * k := by
          rw [show Real.exp (-62) * (k * Real.exp 31) = (Real.exp (-62) * Real.exp 31) * k by ring, ← Real.exp_add]
          norm_num
      _ ≤ _ := mul_le_mul_of_nonneg_right (Real.exp_le_exp.2 (abs_le.1 (hYb i j)).1) (by linarith)
  have he0 := Real.exp_pos (-62)
  have hσ : 0 < softmax (fun r => (Y i r).val) j := lt_of_lt_of_le (by positivity) low
  have hσ1 := softmax_le_one (fun r => (Y i r).val) j
  set σ := softmax (fun r => (Y i r).val) j
  obtain ⟨r1, r2⟩ := abs_le.1 hrel
  have hp0 : 0.97 * σ ≤ p.toReal := by nlinarith
  have hpos : 0 < p.toReal := by linarith
  have hmin : minNormal ≤ p := by
    rw [← ENNReal.ofReal_toReal hpt, minNormal_eq]
    refine ENNReal.ofReal_le_ofReal (le_trans ?_ hp0)
    have e1 : (2 : ℝ) ^ (-90 : ℤ) ≤ Real.exp (-62) := η_exp_low le_rfl
    have e2 : (2 : ℝ) ^ (-90 : ℤ) / 2 ^ 18 ≤ Real.exp (-62) / k := by gcongr
    have e3 : (2 : ℝ) ^ (-126 : ℤ) ≤ 0.97 * ((2 : ℝ) ^ (-90 : ℤ) / 2 ^ 18) := by norm_num
    linarith
  -- logarithms
  have hq : |Real.log p.toReal - Real.log σ| ≤ 1.05 * τ k ε := by
    rw [← Real.log_div hpos.ne' hσ.ne']
    have q1 : 1 - τ k ε ≤ p.toReal / σ := by rw [le_div_iff₀ hσ]; linarith
    have q2 : p.toReal / σ ≤ 1 + τ k ε := by rw [div_le_iff₀ hσ]; linarith
    have qp : 0 < p.toReal / σ := by positivity
    rw [abs_le]
    constructor
    · have := Real.one_sub_inv_le_log_of_pos qp
      have i1 : (p.toReal / σ)⁻¹ ≤ 1 + 1.05 * τ k ε := by
        rw [inv_le_comm₀ qp (by linarith)]
        refine le_trans ?_ q1
        rw [inv_le_comm₀ (by linarith) (by linarith), ← one_div, div_le_iff₀ (by linarith)]
        nlinarith
      linarith
    · have := Real.log_le_sub_one_of_pos qp
      linarith
  have hlog : -75 ≤ Real.log σ := by
    have l1 : Real.log (Real.exp (-62) / k) ≤ Real.log σ := Real.log_le_log (by positivity) low
    rw [Real.log_div he0.ne' (by linarith), Real.log_exp] at l1
    have l2 : Real.log k ≤ Real.log (2 ^ 18) := Real.log_le_log (by linarith) hk'
    rw [Real.log_pow] at l2
    have := Real.log_two_lt_d9
    norm_num at l2
    linarith
  have hlog0 : Real.log σ ≤ 0 := Real.log_nonpos hσ.le hσ1
  have hz : |Real.log σ - Real.log (softmax (z i) j)| ≤ 2 * d := by
    have close : ∀ r, |(Y i r).val - z i r| ≤ d := fun r => hYz i r
    have a1 := softmax_ratio close j
    have a2 := softmax_ratio (x := z i) (y := fun r => (Y i r).val) (fun r => by rw [abs_sub_comm]; exact close r) j
    have hρ : 0 < softmax (z i) j := by
      have := mul_pos (Real.exp_pos (2 * d)) hσ
      by_contra hc
      have : Real.exp (2 * d) * softmax (z i) j ≤ 0 := mul_nonpos_of_nonneg_of_nonpos (Real.exp_pos _).le (not_lt.1 hc)
      linarith
    have b1 := Real.log_le_log hσ a1
    have b2 := Real.log_le_log hρ a2
    rw [Real.log_mul (Real.exp_pos _).ne' hρ.ne', Real.log_exp] at b1
    rw [Real.log_mul (Real.exp_pos _).ne' hσ.ne', Real.log_exp] at b2
    rw [abs_le]
    constructor <;> linarith
  refine ⟨p, hmin, hp1, hpr, hpe, ?_, ?_⟩
  · rw [abs_le]
    have := abs_le.1 hq
    constructor <;> linarith [this.1, this.2]
  · have := abs_sub_le (Real.log p.toReal) (Real.log σ) (Real.log (softmax (z i) j))
    linarith
theorem Setting.normal (h : Setting F ε ε' A S lr X W b) {Y P : Fin B → Fin k → Flt} (hY : LinearForward R X W b Y)
    (hP : SoftmaxForward R F Y P) (i : Fin B) (j : Fin k) :
    ∃ p : ℝ≥0∞, minNormal ≤ p ∧ p ≤ 1 ∧ R.rd p = p ∧ P i j = .num false p ∧ |Real.log p.toReal| ≤ 76 ∧
      |Real.log p.toReal - Real.log (softmax (logits X W b i) j)| ≤ 1.05 * τ k ε + 2 * δ n S :=
  normal_at (fun i j => (h.logits_error hY i j).1) (fun i j => (h.logits_error hY i j).2.2.1) (fun i j => (h.logits_error hY i j).2.1)
    h.classes h.expErr h.ε0 h.ε1 hP i j


/-- The error of the gradient with respect to the logits, times `B`. -/
def κ (n k : ℕ) (ε S : ℝ) : ℝ := 2 * (k + 5) * u + 3 * ε + 3 * δ n S

theorem Setting.κ_small (h : Setting F ε ε' A S lr X W b) : 0 ≤ κ n k ε S ∧ κ n k ε S ≤ 0.5 := by
  have hu := u_pos
  have h1 := h.δ_small
  have h2 := h.ε0
  have h3 := h.ε1
  have hk' : (k : ℝ) ≤ 2 ^ 18 := by exact_mod_cast h.classes
  have : 2 * ((k : ℝ) + 5) * u ≤ 2 * (2 ^ 18 + 5) * u := by gcongr
  have hb : 2 * (2 ^ 18 + 5) * u ≤ 0.04 := by unfold u; norm_num
  unfold κ
  norm_num at h3
  have : 0 ≤ 2 * ((k : ℝ) + 5) * u := by positivity
  constructor <;> linarith

/-- The exact gradient with respect to the logits. -/
def slope (X : Fin B → Fin n → Flt) (label : Fin B → Fin k) (W : Fin k → Fin n → Flt) (b : Fin k → Flt) (i : Fin B) (j : Fin k) : ℝ :=
  (softmax (logits X W b i) j - if j = label i then 1 else 0) / B

theorem slope_le (hB : 0 < B) (i : Fin B) (j : Fin k) : |slope X label W b i j| ≤ 1 / B := by
  have hBr : (0 : ℝ) < B := by exact_mod_cast hB
  unfold slope
  rw [abs_div, abs_of_pos hBr]
  refine div_le_div_of_nonneg_right ?_ hBr.le
  have h0 := softmax_nonneg (logits X W b i) j
  have h1 := softmax_le_one (logits X W b i) j
  split_ifs <;> rw [abs_le] <;> constructor <;> linarith

theorem gradient_at {Y P D : Fin B → Fin k → Flt} {z : Fin B → Fin k → ℝ} {d : ℝ} (hB : 0 < B) (hB' : B ≤ 2 ^ 18) (hYf : ∀ i j, (Y i j).Finite)
    (hYb : ∀ i j, |(Y i j).val| ≤ 31) (hYz : ∀ i j, |(Y i j).val - z i j| ≤ d) (hd : d ≤ 1 / 4) (hk : k ≤ 2 ^ 18) (hF : ExpAccurate F ε) (hε : 0 ≤ ε)
    (hε' : ε ≤ 1 / 2 ^ 10) (hP : SoftmaxForward R F Y P) (hD : SoftmaxInputGrad R P (lossBackward R P label) (fun _ _ => 0) D) (i : Fin B) (j : Fin k) :
    (D i j).Finite ∧ |(D i j).val - (softmax (z i) j - if j = label i then 1 else 0) / B| ≤ (2 * (k + 5) * u + 3 * ε + 3 * d) / B := by
  have hBr : (0 : ℝ) < B := by exact_mod_cast hB
  obtain ⟨f, e⟩ := gradient_at_logits_partial hP hYf (hk.trans (by norm_num)) hB (hB'.trans (by norm_num)) hF hε hε'
    (fun i => by obtain ⟨p, h1, -, -, h2, -⟩ := normal_at hYf hYb hYz hk hF hε hε' hP i (label i); exact ⟨p, h1, h2⟩) (fun _ _ => ⟨false, rfl⟩) hD i j
  have hc := softmax_close hd (fun r => hYz i r) j
  set c : ℝ := if j = label i then 1 else 0
  refine ⟨f, ?_⟩
  have t := abs_sub_le (D i j).val ((softmax (fun r => (Y i r).val) j - c) / B) ((softmax (z i) j - c) / B)
  have q : (softmax (fun r => (Y i r).val) j - c) / B - (softmax (z i) j - c) / B =
      (softmax (fun r => (Y i r).val) j - softmax (z i) j) / B := by ring
  rw [q, abs_div, abs_of_pos hBr] at t
  refine t.trans ((add_le_add e (div_le_div_of_nonneg_right hc hBr.le)).trans ?_)
  rw [← add_div]

theorem Setting.gradient (h : Setting F ε ε' A S lr X W b) {Y P D : Fin B → Fin k → Flt} (hY : LinearForward R X W b Y)
    (hP : SoftmaxForward R F Y P) (hD : SoftmaxInputGrad R P (lossBackward R P label) (fun _ _ => 0) D) (i : Fin B) (j : Fin k) :
    (D i j).Finite ∧ |(D i j).val - slope X label W b i j| ≤ κ n k ε S / B ∧ |(D i j).val| ≤ 1.5 / B := by
  have hBr : (0 : ℝ) < B := by exact_mod_cast h.batch
  obtain ⟨f, e2⟩ := gradient_at h.batch h.batchLe (fun i j => (h.logits_error hY i j).1) (fun i j => (h.logits_error hY i j).2.2.1)
    (fun i j => (h.logits_error hY i j).2.1) (by linarith [h.δ_small.2]) h.classes h.expErr h.ε0 h.ε1 hP hD i j
  change |(D i j).val - slope X label W b i j| ≤ κ n k ε S / B at e2
  refine ⟨f, e2, ?_⟩
  have a := abs_sub_abs_le_abs_sub (D i j).val (slope X label W b i j)
  have s := slope_le (X := X) (label := label) (W := W) (b := b) h.batch i j
  have k2 : κ n k ε S / B ≤ 0.5 / B := div_le_div_of_nonneg_right h.κ_small.2 hBr.le
  have : (1.5 : ℝ) / B = 1 / B + 0.5 / B := by rw [← add_div]; norm_num
  linarith

/-- The error of the gradients, relative to the largest input. -/
def γ (B n k : ℕ) (ε S : ℝ) : ℝ := κ n k ε S + 3.2 * B * u

theorem Setting.batch_small (h : Setting F ε ε' A S lr X W b) : (B : ℝ) * u ≤ 1 / 64 := by
  have hB' : (B : ℝ) ≤ 2 ^ 18 := by exact_mod_cast h.batchLe
  unfold u
  linarith

theorem tiny (B : ℕ) : B * η ≤ B * u / 10 ^ 6 := by
  have : η ≤ u / 10 ^ 6 := by unfold η u; norm_num
  have := mul_le_mul_of_nonneg_left this (show (0 : ℝ) ≤ B by positivity)
  linarith

theorem Setting.weight_grad (h : Setting F ε ε' A S lr X W b) {D : Fin B → Fin k → Flt} {dW : Fin k → Fin n → Flt} {j : Fin k} {r : Fin n}
    (hD : ∀ i, (D i j).Finite ∧ |(D i j).val - slope X label W b i j| ≤ κ n k ε S / B ∧ |(D i j).val| ≤ 1.5 / B)
    (hdW : DotOf R (List.ofFn fun i => (D i j, X i r)) (dW j r)) :
    (dW j r).Finite ∧ |(dW j r).val - ∑ i, slope X label W b i j * (X i r).val| ≤ γ B n k ε S * A := by
  have hBr : (0 : ℝ) < B := by exact_mod_cast h.batch
  have hu := u_pos
  have hη := η_pos
  have hA := h.A1
  have hA2 := h.A2
  have hBs := h.batch_small
  have hsz : size (List.ofFn fun i => (D i j, X i r)) ≤ 1.5 * A := by
    unfold size
    rw [List.map_ofFn, List.sum_ofFn]
    have : ∀ i ∈ Finset.univ, ((fun q : Flt × Flt => |q.1.val| * |q.2.val|) ∘ fun i => (D i j, X i r)) i ≤ 1.5 / B * A := fun i _ =>
      mul_le_mul (hD i).2.2 (h.leX i r) (abs_nonneg _) (by positivity)
    refine (Finset.sum_le_sum this).trans ?_
    rw [Finset.sum_const, Finset.card_univ, Fintype.card_fin, nsmul_eq_mul]
    apply le_of_eq
    field_simp
  have hex : exact (List.ofFn fun i => (D i j, X i r)) = ∑ i, (D i j).val * (X i r).val := by
    unfold exact
    rw [List.map_ofFn, List.sum_ofFn]
    rfl
  have hlen : (List.ofFn fun i => (D i j, X i r)).length = B := List.length_ofFn
  have hs0 := size_nonneg (List.ofFn fun i => (D i j, X i r))
  have hg := pow_le (m := 2 * B) (by push_cast; linarith)
  push_cast at hg
  have hg1 := grow_ge B
  have ht := tiny B
  have hb : bound (List.ofFn fun i => (D i j, X i r)) ≤ 3.19 * B * u * A := by
    unfold bound
    rw [hlen]
    unfold grow at hg1 ⊢
    have a1 : ((1 + u) ^ (2 * B) - 1) * size (List.ofFn fun i => (D i j, X i r)) ≤ 1.04 * (2 * B * u) * (1.5 * A) :=
      mul_le_mul (by linarith) hsz hs0 (by positivity)
    have a2 : (3 * (B : ℝ) - 1) * η * (1 + u) ^ (2 * B) ≤ 3 * (B * u / 10 ^ 6) * 2 := by
      refine mul_le_mul ?_ (by linarith) (by linarith) (by positivity)
      linarith
    have a3 : B * u * 1 ≤ B * u * A := mul_le_mul_of_nonneg_left hA (by positivity)
    linarith
  obtain ⟨f, e⟩ := dot_good hdW (by
    simp only [List.mem_ofFn]
    rintro _ ⟨i, rfl⟩
    exact ⟨(hD i).1, h.finX i r⟩) (by
    have : 3.19 * B * u * A ≤ 3.19 * (1 / 64) * A := by
      have := mul_le_mul_of_nonneg_right hBs (show 0 ≤ A by linarith)
      linarith
    unfold cap
    refine le_trans (b := 2 ^ 62) (by linarith) ?_
    unfold big
    norm_num)
  refine ⟨f, ?_⟩
  rw [hex] at e
  have d : |∑ i, (D i j).val * (X i r).val - ∑ i, slope X label W b i j * (X i r).val| ≤ κ n k ε S * A := by
    rw [← Finset.sum_sub_distrib]
    have : ∀ i ∈ Finset.univ, |(D i j).val * (X i r).val - slope X label W b i j * (X i r).val| ≤ κ n k ε S / B * A := fun i _ => by
      rw [← sub_mul, abs_mul]
      exact mul_le_mul (hD i).2.1 (h.leX i r) (abs_nonneg _) (div_nonneg h.κ_small.1 hBr.le)
    refine (Finset.abs_sum_le_sum_abs _ _).trans ((Finset.sum_le_sum this).trans ?_)
    rw [Finset.sum_const, Finset.card_univ, Fintype.card_fin, nsmul_eq_mul]
    apply le_of_eq
    field_simp
  have t := abs_sub_le (dW j r).val (∑ i, (D i j).val * (X i r).val) (∑ i, slope X label W b i j * (X i r).val)
  have : 0 ≤ B * u * A := by positivity
  unfold γ
  linarith

theorem Setting.bias_grad (h : Setting F ε ε' A S lr X W b) {D : Fin B → Fin k → Flt} {db : Fin k → Flt} {j : Fin k}
    (hD : ∀ i, (D i j).Finite ∧ |(D i j).val - slope X label W b i j| ≤ κ n k ε S / B ∧ |(D i j).val| ≤ 1.5 / B)
    (hdb : SumOf R (List.ofFn fun i => D i j) (db j)) :
    (db j).Finite ∧ |(db j).val - ∑ i, slope X label W b i j| ≤ γ B n k ε S := by
  have hBr : (0 : ℝ) < B := by exact_mod_cast h.batch
  have hu := u_pos
  have hη := η_pos
  have hBs := h.batch_small
  have hm : mass (List.ofFn fun i => D i j) ≤ 1.5 := by
    unfold mass
    rw [List.map_ofFn, List.sum_ofFn]
    refine (Finset.sum_le_sum (fun i _ => (hD i).2.2 : ∀ i ∈ Finset.univ, ((fun a : Flt => |a.val|) ∘ fun i => D i j) i ≤ 1.5 / B)).trans ?_
    rw [Finset.sum_const, Finset.card_univ, Fintype.card_fin, nsmul_eq_mul]
    apply le_of_eq
    field_simp
  have hm0 := mass_nonneg (List.ofFn fun i => D i j)
  have ht : total (List.ofFn fun i => D i j) = ∑ i, (D i j).val := by
    unfold total
    rw [List.map_ofFn, List.sum_ofFn]
    rfl
  have hlen : (List.ofFn fun i => D i j).length = B := List.length_ofFn
  have hg := pow_le (m := B) (by linarith)
  have hg1 : (1 : ℝ) ≤ (1 + u) ^ B := one_le_pow₀ (by linarith)
  have hy := tiny B
  obtain ⟨f, e⟩ := sum_good hdb (g := 2) (by
    simp only [List.mem_ofFn]
    rintro _ ⟨i, rfl⟩
    exact (hD i).1) (by rw [hlen]; linarith) (by
    rw [hlen]
    refine le_trans (b := 2 ^ 62) (by linarith) ?_
    unfold big
    norm_num)
  refine ⟨f, ?_⟩
  rw [hlen, ht] at e
  have a1 : ((1 + u) ^ B - 1) * mass (List.ofFn fun i => D i j) ≤ 1.04 * (B * u) * 1.5 := mul_le_mul (by linarith) hm hm0 (by positivity)
  have a2 : (2 * (B : ℝ) - 1) * η * (1 + u) ^ B ≤ 2 * (B * u / 10 ^ 6) * 2 := by
    refine mul_le_mul ?_ (by linarith) (by linarith) (by positivity)
    linarith
  have d : |∑ i, (D i j).val - ∑ i, slope X label W b i j| ≤ κ n k ε S := by
    rw [← Finset.sum_sub_distrib]
    refine (Finset.abs_sum_le_sum_abs _ _).trans ((Finset.sum_le_sum fun i _ => (hD i).2.1).trans ?_)
    rw [Finset.sum_const, Finset.card_univ, Fintype.card_fin, nsmul_eq_mul]
    apply le_of_eq
    field_simp
  have t := abs_sub_le (db j).val (∑ i, (D i j).val) (∑ i, slope X label W b i j)
  have : 0 ≤ B * u := by positivity
  unfold γ
  linarith

/-- What a step is allowed to deviate, per unit of the learning rate and of the largest input. -/
def deviation (B n k : ℕ) (ε S : ℝ) : ℝ := (4 * B + 2 * k + 7 * (n + 1) * S + 14) * u + 3 * ε

theorem Setting.step (h : Setting F ε ε' A S lr X W b) {w g w' : Flt} {s a : ℝ} (hw : w.Finite) (hg : g.Finite) (hw2 : |w.val| ≤ 2 ^ 60)
    (hs : |s| ≤ a) (ha : 1 ≤ a) (ha2 : a ≤ 2 ^ 60) (he : |g.val - s| ≤ γ B n k ε S * a) (hst : SgdStep R lr w g w') :
    w'.Finite ∧ |w'.val - (w.val - lr.val * s)| ≤ u * |w.val| + |lr.val| * a * deviation B n k ε S + 3 * η := by
  have hu := u_pos
  have hη := η_pos
  have hBs := h.batch_small
  have hκ := h.κ_small
  have hγ : γ B n k ε S ≤ 0.6 := by unfold γ; linarith
  have hg2 : |g.val| ≤ 1.6 * a := by
    have := abs_sub_abs_le_abs_sub g.val s
    have := mul_le_mul_of_nonneg_right hγ (show 0 ≤ a by linarith)
    linarith
  have hl := h.leLr
  have hl0 := abs_nonneg lr.val
  have hlg : |lr.val * g.val| ≤ |lr.val| * (1.6 * a) := by rw [abs_mul]; exact mul_le_mul_of_nonneg_left hg2 hl0
  have hp0 : 0 ≤ |lr.val| * a := mul_nonneg hl0 (by linarith)
  have hp : |lr.val| * a ≤ 2 ^ 60 * 2 ^ 60 := mul_le_mul hl ha2 (by linarith) (by norm_num)
  obtain ⟨f, e⟩ := sgd_error hst h.finLr hw hg (hw2.trans (by norm_num)) (by
    refine hlg.trans ?_
    linarith)
  refine ⟨f, ?_⟩
  have t := abs_sub_le w'.val (w.val - lr.val * g.val) (w.val - lr.val * s)
  have t2 : |w.val - lr.val * g.val - (w.val - lr.val * s)| ≤ |lr.val| * (γ B n k ε S * a) := by
    rw [show w.val - lr.val * g.val - (w.val - lr.val * s) = -(lr.val * (g.val - s)) by ring, abs_neg, abs_mul]
    exact mul_le_mul_of_nonneg_left he hl0
  have t3 : 2.1 * u * |lr.val * g.val| ≤ 2.1 * u * (|lr.val| * (1.6 * a)) := mul_le_mul_of_nonneg_left hlg (by positivity)
  have key : γ B n k ε S + 3.36 * u ≤ deviation B n k ε S := by
    have hS : 0 ≤ S := by linarith [h.S1]
    have n1 : 0 ≤ n * u * S := by positivity
    have n2 : 0 ≤ u * S := by positivity
    have n3 : 0 ≤ B * u := by positivity
    unfold γ κ δ deviation
    linarith
  have := mul_le_mul_of_nonneg_left key hp0
  linarith

theorem loss_at {Y P : Fin B → Fin k → Flt} {z : Fin B → Fin k → ℝ} {d : ℝ} (hB : 0 < B) (hBle : B ≤ 2 ^ 18) (hYf : ∀ i j, (Y i j).Finite)
    (hYb : ∀ i j, |(Y i j).val| ≤ 31) (hYz : ∀ i j, |(Y i j).val - z i j| ≤ d) (hk : k ≤ 2 ^ 18) (hF : ExpAccurate F ε) (hε : 0 ≤ ε)
    (hε1 : ε ≤ 1 / 2 ^ 10) (hFl : LogAccurate F ε') (hε'0 : 0 ≤ ε') (hε' : ε' ≤ 1 / 2 ^ 10) (hP : SoftmaxForward R F Y P) {loss : Flt}
    (hl : LossForward R F P label loss) :
    loss.Finite ∧ |loss.val - -(∑ i, Real.log (softmax (z i) (label i))) / B| ≤ (80 * B + 1.3 * k + 250) * u + 2 * d + 2.5 * ε + 76 * ε' := by
  have hBr : (0 : ℝ) < B := by exact_mod_cast hB
  have hB1 : (1 : ℝ) ≤ B := by exact_mod_cast hB
  have hu := u_pos
  have hus := u_small
  have hη := η_pos
  have hηs : η ≤ u / 10 ^ 6 := by unfold η u; norm_num
  have hB' : (B : ℝ) ≤ 2 ^ 18 := by exact_mod_cast hBle
  have hBs : (B : ℝ) * u ≤ 1 / 64 := by
    unfold u
    linarith
  norm_num at hε'
  have hτ0 := τ_nonneg (k := k) hε
  -- the logarithms
  have each : ∀ i, (F.log (P i (label i))).Finite ∧ |(F.log (P i (label i))).val| ≤ 76.1 ∧
      |(F.log (P i (label i))).val - Real.log (softmax (z i) (label i))| ≤ 76 * ε' + η + (1.05 * τ k ε + 2 * d) := fun i => by
    obtain ⟨p, p1, p2, p3, p4, p5, p6⟩ := normal_at hYf hYb hYz hk hF hε hε1 hP i (label i)
    have pp : 0 < p := lt_of_lt_of_le (by simp [minNormal]) p1
    obtain ⟨s, y, hy, he⟩ := F.logPos p pp (p2.trans_lt ENNReal.one_lt_top) p3
    have l := hFl p pp p2 p3
    rw [p4]
    have l2 : ε' * |Real.log p.toReal| ≤ ε' * 76 := mul_le_mul_of_nonneg_left p5 hε'0
    refine ⟨by rw [he]; exact ne_top_of_le_ne_top (by norm_num) hy, ?_, ?_⟩
    · have := abs_sub_abs_le_abs_sub (F.log (.num false p)).val (Real.log p.toReal)
      linarith
    · have := abs_sub_le (F.log (.num false p)).val (Real.log p.toReal) (Real.log (softmax (z i) (label i)))
      linarith
  set v : Fin B → Flt := fun i => F.log (P i (label i)) with hv
  obtain ⟨s, hs, rfl⟩ := hl
  change SumOf R (List.ofFn v) s at hs
  have hm : mass (List.ofFn v) ≤ 76.1 * B := by
    unfold mass
    rw [List.map_ofFn, List.sum_ofFn]
    refine (Finset.sum_le_sum (fun i _ => (each i).2.1 : ∀ i ∈ Finset.univ, ((fun a : Flt => |a.val|) ∘ v) i ≤ 76.1)).trans ?_
    rw [Finset.sum_const, Finset.card_univ, Fintype.card_fin, nsmul_eq_mul]
    linarith
  have hm0 := mass_nonneg (List.ofFn v)
  have htm := total_le_mass (List.ofFn v)
  have ht : total (List.ofFn v) = ∑ i, (v i).val := by
    unfold total
    rw [List.map_ofFn, List.sum_ofFn]
    rfl
  have hlen : (List.ofFn v).length = B := List.length_ofFn
  have hg := pow_le (m := B) (by linarith)
  have hg1 : (1 : ℝ) ≤ (1 + u) ^ B := one_le_pow₀ (by linarith)
  have hy := tiny B
  obtain ⟨f, e⟩ := sum_good hs (g := 2) (by
    simp only [List.mem_ofFn]
    rintro _ ⟨i, rfl⟩
    exact (each i).1) (by rw [hlen]; linarith) (by
    rw [hlen]
    refine le_trans (b := 2 ^ 62) (by linarith) ?_
    unfold big
    norm_num)
  rw [hlen, ht] at e
  rw [ht] at htm
  have a1 : ((1 + u) ^ B - 1) * mass (List.ofFn v) ≤ 1.04 * (B * u) * (76.1 * B) := mul_le_mul (by linarith) hm hm0 (by positivity)
  have a2 : (2 * (B : ℝ) - 1) * η * (1 + u) ^ B ≤ 2 * (B * u / 10 ^ 6) * 2 := by
    refine mul_le_mul ?_ (by linarith) (by linarith) (by positivity)
    linarith
  -- division by the size of the batch
  have e2 : |s.val / B - (∑ i, (v i).val) / B| ≤ 79.2 * (B * u) := by
    rw [← sub_div, abs_div, abs_of_pos hBr, div_le_iff₀ hBr]
    have : B * u * 1 ≤ B * u * B := mul_le_mul_of_nonneg_left hB1 (by positivity)
    linarith
  have e3 : |s.val / B| ≤ 77.5 := by
    have q : |(∑ i, (v i).val) / B| ≤ 76.1 := by
      rw [abs_div, abs_of_pos hBr, div_le_iff₀ hBr]
      linarith
    have := abs_sub_abs_le_abs_sub (s.val / B) ((∑ i, (v i).val) / B)
    linarith
  have nv : s.neg.val = -s.val := by
    rcases s with _ | ⟨t, x⟩
    · simp [Flt.neg, Flt.val]
    · cases t <;> simp [Flt.neg, Flt.val]
  have nf : s.neg.Finite := by
    rcases s with _ | ⟨t, x⟩
    · exact f.elim
    · exact f
  have bv : (Flt.num false (B : ℝ≥0∞)).val = B := by simp [Flt.val]
  have nd := near_div (R := R) (a := s.neg) (b := .num false B) nf (by simp [Flt.Finite]) (by rw [bv]; exact hBr.ne') (by
    rw [nv, bv, neg_div, abs_neg]
    refine e3.trans ?_
    unfold big
    norm_num)
  rw [nv, bv, neg_div] at nd
  refine ⟨nd.1, ?_⟩
  have n2 := nd.2
  rw [abs_neg] at n2
  have n3 : u * |s.val / B| ≤ u * 77.5 := mul_le_mul_of_nonneg_left e3 hu.le
  have e4 : |(∑ i, (v i).val) / B - (∑ i, Real.log (softmax (z i) (label i))) / B| ≤
      76 * ε' + η + (1.05 * τ k ε + 2 * d) := by
    rw [← sub_div, abs_div, abs_of_pos hBr, div_le_iff₀ hBr, ← Finset.sum_sub_distrib]
    refine (Finset.abs_sum_le_sum_abs _ _).trans ((Finset.sum_le_sum fun i _ => (each i).2.2).trans ?_)
    rw [Finset.sum_const, Finset.card_univ, Fintype.card_fin, nsmul_eq_mul]
    linarith
  rw [neg_div]
  set L := (∑ i, Real.log (softmax (z i) (label i))) / B
  set M := (∑ i, (v i).val) / B
  set v' := (div R s.neg (.num false B)).val
  have t1 : |v' - -L| ≤ |v' - -(s.val / B)| + (|s.val / B - M| + |M - L|) := by
    have := abs_add_three (v' - -(s.val / B)) (-(s.val / B - M)) (-(M - L))
    rw [abs_neg, abs_neg, show v' - -(s.val / B) + -(s.val / B - M) + -(M - L) = v' - -L by ring] at this
    linarith
  have hk0 : 0 ≤ k * u := by positivity
  have hB0 : 0 ≤ B * u := by positivity
  refine t1.trans ?_
  unfold τ at e4
  linarith
theorem Setting.loss_error (h : Setting F ε ε' A S lr X W b) {Y P : Fin B → Fin k → Flt} (hY : LinearForward R X W b Y)
    (hP : SoftmaxForward R F Y P) {loss : Flt} (hl : LossForward R F P label loss) :
    loss.Finite ∧ |loss.val - exactLoss (fun i r => (X i r).val) label (fun j r => (W j r).val) (fun j => (b j).val)| ≤
      (80 * B + 1.3 * k + 2.2 * (2 * n + 1) * S + 250) * u + 2.5 * ε + 76 * ε' := by
  obtain ⟨f, e⟩ := loss_at h.batch h.batchLe (fun i j => (h.logits_error hY i j).1) (fun i j => (h.logits_error hY i j).2.2.1)
    (fun i j => (h.logits_error hY i j).2.1) h.classes h.expErr h.ε0 h.ε1 h.logErr h.ε'0 h.ε'1 hP hl
  refine ⟨f, le_trans e ?_⟩
  unfold δ
  linarith


/-- The bound on a step, as a statement about the parameters before and after it. -/
def StepWithin (lr A dev : ℝ) (w w' slope : ℝ) : Prop := |w' - (w - lr * slope)| ≤ u * |w| + |lr| * A * dev + 3 * η

/-- **C104.** One training step of a `Linear` + `Softmax` classifier with `CrossEntropyLoss` and `SGD`, in `float`, whatever the
order of the additions: the parameters are finite and are those of a step of exact gradient descent on the exact loss, up to the given
deviation; the reported loss is the exact one up to the given error. -/
theorem step_error (h : Setting F ε ε' A S lr X W b) {loss : Flt} {W' : Fin k → Fin n → Flt} {b' : Fin k → Flt}
    (hit : Iteration R F lr X label W b loss W' b') :
    (loss.Finite ∧ |loss.val - exactLoss (fun i r => (X i r).val) label (fun j r => (W j r).val) (fun j => (b j).val)| ≤
      (80 * B + 1.3 * k + 2.2 * (2 * n + 1) * S + 250) * u + 2.5 * ε + 76 * ε') ∧
    (∀ j r, (W' j r).Finite ∧ StepWithin lr.val A (deviation B n k ε S) (W j r).val (W' j r).val
      (weightSlope (fun i r => (X i r).val) label (fun j r => (W j r).val) (fun j => (b j).val) j r)) ∧
    ∀ j, (b' j).Finite ∧ StepWithin lr.val 1 (deviation B n k ε S) (b j).val (b' j).val
      (biasSlope (fun i r => (X i r).val) label (fun j r => (W j r).val) (fun j => (b j).val) j) := by
  obtain ⟨Y, P, D, dW, db, hY, hP, hl, hD, ⟨hdW, hdb⟩, hW', hb'⟩ := hit
  have hBr : (0 : ℝ) < B := by exact_mod_cast h.batch
  have hG := fun i j => h.gradient hY hP hD i j
  have hsl := fun i j => slope_le (X := X) (label := label) (W := W) (b := b) h.batch i j
  refine ⟨h.loss_error hY hP hl, fun j r => ?_, fun j => ?_⟩
  · have e := h.weight_grad (fun i => hG i j) (hdW j r)
    have q := weightSlope_eq (fun i r => (X i r).val) label (fun j r => (W j r).val) (fun j => (b j).val) j r
    unfold StepWithin
    rw [q]
    refine h.step (h.finW j r) e.1 (h.leW j r) ?_ h.A1 h.A2 e.2 (hW' j r)
    have : ∀ i ∈ Finset.univ, |slope X label W b i j * (X i r).val| ≤ 1 / B * A := fun i _ => by
      rw [abs_mul]
      exact mul_le_mul (hsl i j) (h.leX i r) (abs_nonneg _) (by positivity)
    refine (Finset.abs_sum_le_sum_abs _ _).trans ((Finset.sum_le_sum this).trans ?_)
    rw [Finset.sum_const, Finset.card_univ, Fintype.card_fin, nsmul_eq_mul]
    apply le_of_eq
    field_simp
  · have e := h.bias_grad (fun i => hG i j) (hdb j)
    have q := biasSlope_eq (fun i r => (X i r).val) label (fun j r => (W j r).val) (fun j => (b j).val) j
    unfold StepWithin
    rw [q]
    refine h.step (h.finb j) e.1 (h.leb j) ?_ le_rfl (by norm_num) (by rw [mul_one]; exact e.2) (hb' j)
    refine (Finset.abs_sum_le_sum_abs _ _).trans ((Finset.sum_le_sum fun i _ => hsl i j).trans ?_)
    rw [Finset.sum_const, Finset.card_univ, Fintype.card_fin, nsmul_eq_mul]
    apply le_of_eq
    field_simp

/-- The correctly rounded logarithm of binary32. -/
theorem libm_log : LogAccurate libm u := by
  intro x h0 h1 hx
  have hxt : x ≠ ⊤ := ne_top_of_le_ne_top ENNReal.one_ne_top h1
  have hr1 : x.toReal ≤ 1 := by simpa using ENNReal.toReal_mono ENNReal.one_ne_top h1
  have hr0 : 0 < x.toReal := ENNReal.toReal_pos h0.ne' hxt
  have hl : Real.log x.toReal ≤ 0 := Real.log_nonpos hr0.le hr1
  have hb : |Real.log x.toReal| ≤ big := by
    refine (log_bound h0 hxt.lt_top hx).trans ?_
    unfold big
    norm_num
  have he : libm.log (.num false x) = .num (decide (x < 1)) (binary32.rd (ENNReal.ofReal |Real.log x.toReal|)) := by
    show log32 (.num false x) = .num (decide (x < 1)) (rd32 (ENNReal.ofReal |Real.log x.toReal|))
    simp [log32, h0.ne', hxt]
  rw [he]
  refine (near_num (R := binary32) ENNReal.ofReal_ne_top ?_ hb).2
  rcases h1.lt_or_eq with h | h
  · simp only [h, decide_true, Flt.val, abs_of_nonpos hl, ENNReal.toReal_ofReal (neg_nonneg.2 hl)]
    simp
  · simp [h, Flt.val]

/-- Any batch of 32 rows of 10 inputs in `[-1, 1]`, with 4 classes and parameters in `[-1, 1]`, in binary32. -/
theorem setting_example {lr : Flt} {X : Fin 32 → Fin 10 → Flt} {W : Fin 4 → Fin 10 → Flt} {b : Fin 4 → Flt} (hlr : lr.Finite ∧ |lr.val| ≤ 1)
    (hX : ∀ i r, (X i r).Finite ∧ |(X i r).val| ≤ 1) (hW : ∀ j r, (W j r).Finite ∧ |(W j r).val| ≤ 1) (hb : ∀ j, (b j).Finite ∧ |(b j).val| ≤ 1) :
    Setting libm u u 1 11 lr X W b where
  batch := by norm_num
  batchLe := by norm_num
  classes := by norm_num
  inputs := by norm_num
  expErr := libm_accurate
  logErr := libm_log
  ε0 := u_pos.le
  ε1 := by unfold u; norm_num
  ε'0 := u_pos.le
  ε'1 := by unfold u; norm_num
  finX i r := (hX i r).1
  finW j r := (hW j r).1
  finb j := (hb j).1
  finLr := hlr.1
  leX i r := (hX i r).2
  leW j r := (hW j r).2.trans (by norm_num)
  leb j := (hb j).2.trans (by norm_num)
  leLr := hlr.2.trans (by norm_num)
  A1 := le_rfl
  A2 := by norm_num
  S1 := by norm_num
  S2 := by norm_num
  leS i j := by
    unfold linearSize
    have : ∀ r ∈ Finset.univ, |(X i r).val| * |(W j r).val| ≤ 1 := fun r _ => by
      have := mul_le_mul (hX i r).2 (hW j r).2 (abs_nonneg _) (by norm_num)
      linarith
    have := Finset.sum_le_sum this
    simp only [Finset.sum_const, Finset.card_univ, Fintype.card_fin, nsmul_eq_mul] at this
    norm_num at this
    linarith [(hb j).2]

/-- There the loss is exact to 3600 units of `2 ^ -24`, and every parameter is that of exact gradient descent to 1020 of them. -/
example {lr : Flt} {X : Fin 32 → Fin 10 → Flt} {W : Fin 4 → Fin 10 → Flt} {b : Fin 4 → Flt} (label : Fin 32 → Fin 4)
    (hlr : lr.Finite ∧ |lr.val| ≤ 1) (hX : ∀ i r, (X i r).Finite ∧ |(X i r).val| ≤ 1) (hW : ∀ j r, (W j r).Finite ∧ |(W j r).val| ≤ 1)
    (hb : ∀ j, (b j).Finite ∧ |(b j).val| ≤ 1) :
    ∃ loss W' b', Iteration binary32 libm lr X label W b loss W' b' ∧
      |loss.val - exactLoss (fun i r => (X i r).val) label (fun j r => (W j r).val) (fun j => (b j).val)| ≤ 3600 * u ∧
      ∀ j r, |(W' j r).val - ((W j r).val - lr.val *
        weightSlope (fun i r => (X i r).val) label (fun j r => (W j r).val) (fun j => (b j).val) j r)| ≤ 1020 * u := by
  have hs := setting_example hlr hX hW hb
  obtain ⟨loss, W', b', hit⟩ := iteration_exists (R := binary32) (F := libm) lr (X := X) (label := label) (W := W) (b := b) (by norm_num)
    (by norm_num) (by norm_num) fun Y hY i j => (hs.logits_error hY i j).1
  obtain ⟨⟨-, h1⟩, h2, -⟩ := step_error hs hit
  have hu := u_pos
  refine ⟨loss, W', b', hit, h1.trans ?_, fun j r => ((h2 j r).2 : _ ≤ _).trans ?_⟩
  · norm_num
    linarith
  · have hw := (hW j r).2
    have a1 : u * |(W j r).val| ≤ u * 1 := mul_le_mul_of_nonneg_left hw hu.le
    have a2 : deviation 32 10 4 u 11 = 1000 * u := by unfold deviation; norm_num; ring
    have a3 : |lr.val| * 1 * (1000 * u) ≤ 1 * 1 * (1000 * u) := by gcongr; exact hlr.2
    have a4 : 3 * η ≤ u := by unfold η u; norm_num
    rw [a2]
    linarith

end

end DW.Props.FloatTrainP
