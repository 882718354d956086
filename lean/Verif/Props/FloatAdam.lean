import Verif.Props.FloatMomentum
/-!
# C110: Adam in `float`
-/

set_option autoImplicit false

namespace DW.Props.FloatAdamP

open DW.Float DW.Props.FloatSoftmaxP DW.Props.FloatDotP DW.Props.FloatGradP DW.Props.FloatActP DW.Props.FloatMomentumP
open scoped ENNReal

noncomputable section

variable {R : Rounding} {q : Sqrt} {s : AdamSettings}

/-- `1 - beta`. -/
theorem one_sub {β : Flt} (h : β.Finite) (h0 : 0 ≤ β.val) (h1 : β.val ≤ 1 - 1 / 2 ^ 14) :
    (sub R 1 β).Finite ∧ |(sub R 1 β).val - (1 - β.val)| ≤ 1.001 * u * (1 - β.val) := by
  have hu := u_pos
  have hη := η_pos
  have hηs : η ≤ u / 1000 * (1 / 2 ^ 14) := by unfold η u; norm_num
  have hn := neg_finite h
  have n := near_addWith (R := R) finite_one hn.1 (by
    rw [hn.2, val_one, ← sub_eq_add_neg, abs_of_nonneg (by linarith)]
    unfold big
    linarith)
  rw [hn.2, val_one, ← sub_eq_add_neg] at n
  refine ⟨n.1, n.2.trans ?_⟩
  rw [abs_of_nonneg (by linarith)]
  have : u / 1000 * (1 / 2 ^ 14) ≤ u / 1000 * (1 - β.val) := mul_le_mul_of_nonneg_left (by linarith) (by positivity)
  linarith

/-- The bound for a moving average of numbers up to `G`. -/
def avg (G : ℝ) : ℝ := 1.01 * (G + 2 ^ 20 * η)

/-- A moving average of bounded numbers stays bounded. -/
theorem average_bound {β x y r : Flt} {G : ℝ} (h : MulAddMul R β x (sub R 1 β) y r) (hβ : β.Finite) (h0 : 0 ≤ β.val)
    (h1 : β.val ≤ 1 - 1 / 2 ^ 14) (hx : x.Finite) (hxb : |x.val| ≤ avg G) (hy : y.Finite) (hyb : |y.val| ≤ G) (hG : G ≤ 2 ^ 124) :
    r.Finite ∧ |r.val| ≤ avg G := by
  have hu := u_pos
  have hη := η_pos
  have hus : u ≤ 6 / 10 ^ 8 := by unfold u; norm_num
  have hηs : 2 ^ 20 * η ≤ 1 := by unfold η; norm_num
  have hG0 : 0 ≤ G := (abs_nonneg _).trans hyb
  obtain ⟨hb, hbe⟩ := one_sub (R := R) hβ h0 h1
  have hM0 : 0 ≤ avg G := (abs_nonneg _).trans hxb
  have hMd : avg G = 1.01 * G + 1.01 * (2 ^ 20 * η) := by unfold avg; ring
  set M := avg G
  set b := 1 - β.val with hbd
  have hb14 : 1 / 2 ^ 14 ≤ b := by rw [hbd]; linarith
  have hb1 : b ≤ 1 := by rw [hbd]; linarith
  have hbb : |(sub R 1 β).val| ≤ (1 + 1.001 * u) * b := by
    have := abs_sub_le (sub R 1 β).val b 0
    rw [sub_zero, sub_zero, abs_of_nonneg (by linarith : 0 ≤ b)] at this
    linarith
  have p1 : |β.val * x.val| ≤ β.val * M := by
    rw [abs_mul, abs_of_nonneg h0]
    exact mul_le_mul_of_nonneg_left hxb h0
  have p2 : |(sub R 1 β).val * y.val| ≤ (1 + 1.001 * u) * b * G := by
    rw [abs_mul]
    exact mul_le_mul hbb hyb (abs_nonneg _) (by positivity)
  have c1 : b * G ≤ 1 * G := mul_le_mul_of_nonneg_right hb1 hG0
  have c2 : u * (b * G) ≤ u * (1 * G) := mul_le_mul_of_nonneg_left c1 hu.le
  have c3 : u * (1 * G) ≤ 6 / 10 ^ 8 * (1 * G) := mul_le_mul_of_nonneg_right hus (by linarith)
  have c4 : β.val * M = M - b * M := by rw [hbd]; ring
  have c5 : 0 ≤ b * M := by positivity
  obtain ⟨hf, he⟩ := mulAddMul_error h hβ hx hb hy p1 p2 (by
    have : β.val * M ≤ M := by linarith
    linarith)
  refine ⟨hf, ?_⟩
  have h2 := abs_sub_le r.val (β.val * x.val + (sub R 1 β).val * y.val) 0
  rw [sub_zero, sub_zero] at h2
  have h3 := abs_add_le (β.val * x.val) ((sub R 1 β).val * y.val)
  -- the sum of the two parts
  have h4 : β.val * M + (1 + 1.001 * u) * b * G ≤ M := by
    have k1 : b * M = 1.01 * (b * G) + 1.01 * (b * (2 ^ 20 * η)) := by rw [hMd]; ring
    have k2 : 0 ≤ b * (2 ^ 20 * η) := by positivity
    have k3 : u * (b * G) ≤ 6 / 10 ^ 8 * (b * G) := mul_le_mul_of_nonneg_right hus (by positivity)
    have k4 : 0 ≤ b * G := by positivity
    linarith
  have h5 : u * (β.val * M + (1 + 1.001 * u) * b * G) ≤ u * M := mul_le_mul_of_nonneg_left h4 hu.le
  have h6 : u * M ≤ 6 / 10 ^ 8 * M := mul_le_mul_of_nonneg_right hus hM0
  have k1 : b * M = 1.01 * (b * G) + 1.01 * (b * (2 ^ 20 * η)) := by rw [hMd]; ring
  have k2 : 1 / 2 ^ 14 * (2 ^ 20 * η) ≤ b * (2 ^ 20 * η) := mul_le_mul_of_nonneg_right hb14 (by positivity)
  have k3 : u * (b * G) ≤ 6 / 10 ^ 8 * (b * G) := mul_le_mul_of_nonneg_right hus (by positivity)
  have k4 : 1 / 2 ^ 14 * G ≤ b * G := mul_le_mul_of_nonneg_right hb14 hG0
  linarith

/-- A number without sign. -/
def Nonneg (a : Flt) : Prop := ∃ x, a = .num false x

theorem nonneg_mul {a b : Flt} (ha : Nonneg a) (hb : Nonneg b) (hf : (mul R a b).Finite) : Nonneg (mul R a b) := by
  obtain ⟨x, rfl⟩ := ha
  obtain ⟨y, rfl⟩ := hb
  simp only [mul, mulWith] at hf ⊢
  split_ifs at hf ⊢
  · exact hf.elim
  · exact ⟨_, rfl⟩

theorem nonneg_square {a : Flt} (hf : (mul R a a).Finite) : Nonneg (mul R a a) := by
  rcases a with _ | ⟨s, x⟩
  · exact hf.elim
  simp only [mul, mulWith] at hf ⊢
  split_ifs at hf ⊢
  · exact hf.elim
  · exact ⟨_, by rw [Bool.xor_self]⟩

theorem nonneg_addWith {rd : ℝ≥0∞ → ℝ≥0∞} {a b : Flt} (ha : Nonneg a) (hb : Nonneg b) : Nonneg (addWith rd a b) := by
  obtain ⟨x, rfl⟩ := ha
  obtain ⟨y, rfl⟩ := hb
  exact ⟨rd (x + y), by simp [addWith]⟩

theorem nonneg_mulWith_id {a b : Flt} (ha : Nonneg a) (hb : Nonneg b) (hf : a.Finite) (hf' : b.Finite) : Nonneg (mulWith id a b) := by
  obtain ⟨x, rfl⟩ := ha
  obtain ⟨y, rfl⟩ := hb
  simp only [Flt.Finite] at hf hf'
  exact ⟨x * y, by simp [mulWith, hf, hf']⟩

theorem nonneg_mulAddMul {a b c d r : Flt} (h : MulAddMul R a b c d r) (ha : Nonneg a) (hb : Nonneg b) (hc : Nonneg c) (hd : Nonneg d)
    (fa : a.Finite) (fb : b.Finite) (fc : c.Finite) (fd : d.Finite) : Nonneg r := by
  have key : ∀ {a b : Flt}, Nonneg a → Nonneg b → a.Finite → b.Finite → Nonneg (mul R a b) := by
    rintro _ _ ⟨x, rfl⟩ ⟨y, rfl⟩ hf hf'
    simp only [Flt.Finite] at hf hf'
    exact ⟨R.rd (x * y), by simp [mul, mulWith, hf, hf']⟩
  rcases h with rfl | rfl | rfl
  · exact nonneg_addWith (key ha hb fa fb) (key hc hd fc fd)
  · exact nonneg_addWith (nonneg_mulWith_id ha hb fa fb) (key hc hd fc fd)
  · exact nonneg_addWith (nonneg_mulWith_id hc hd fc fd) (key ha hb fa fb)

theorem nonneg_one_sub {β : Flt} (h : Nonneg β) (hf : β.Finite) (h1 : β.val ≤ 1) : Nonneg (sub R 1 β) := by
  obtain ⟨b, rfl⟩ := h
  simp only [Flt.Finite] at hf
  have hb : b ≤ 1 := by
    have h1' : b.toReal ≤ 1 := by simpa [Flt.val] using h1
    rw [← ENNReal.toReal_le_toReal hf ENNReal.one_ne_top]
    simpa using h1'
  show Nonneg (addWith R.rd (.num false 1) (.num true b))
  rcases hb.eq_or_lt with rfl | hlt
  · exact ⟨0, by simp [addWith]⟩
  · exact ⟨R.rd (1 - b), by simp [addWith, hlt, hlt.ne']⟩

/-- What is assumed of the settings and of the corrections `c₁`, `c₂` of each step. -/
structure Usual (s : AdamSettings) (c₁ c₂ : ℕ → Flt) : Prop where
  lr : s.lr.Finite ∧ |s.lr.val| ≤ 2 ^ 10
  beta1 : s.beta1.Finite ∧ 0 ≤ s.beta1.val ∧ s.beta1.val ≤ 1 - 1 / 2 ^ 14
  beta2 : Nonneg s.beta2 ∧ s.beta2.Finite ∧ s.beta2.val ≤ 1 - 1 / 2 ^ 14
  epsilon : Nonneg s.epsilon ∧ s.epsilon.Finite ∧ 1 / 2 ^ 40 ≤ s.epsilon.val ∧ s.epsilon.val ≤ 1
  first : ∀ t, (c₁ t).Finite ∧ 1 / 2 ^ 14 ≤ (c₁ t).val
  second : ∀ t, Nonneg (c₂ t) ∧ (c₂ t).Finite ∧ 1 / 2 ^ 14 ≤ (c₂ t).val

theorem Nonneg.val_nonneg {a : Flt} (h : Nonneg a) : 0 ≤ a.val := by
  obtain ⟨x, rfl⟩ := h
  simp [Flt.val]

variable {c₁ c₂ g m v w : ℕ → Flt} {G : ℝ}

/-- The moving mean stays bounded. -/
theorem mean_bounded (hs : Usual s c₁ c₂) (hg : ∀ t, (g t).Finite ∧ |(g t).val| ≤ G) (hG : G ≤ 2 ^ 100) (hm : m 0 = 0)
    (hstep : ∀ t, AdamStep R q s (c₁ t) (c₂ t) (g t) (m t) (v t) (w t) (m (t + 1)) (v (t + 1)) (w (t + 1))) (t : ℕ) :
    (m t).Finite ∧ |(m t).val| ≤ avg G := by
  have hη := η_pos
  have hG0 : 0 ≤ G := (abs_nonneg _).trans (hg 0).2
  induction t with
  | zero => rw [hm]; exact ⟨finite_zero, by rw [val_zero, abs_zero]; unfold avg; positivity⟩
  | succ t ih =>
    exact average_bound (hstep t).1 hs.beta1.1 hs.beta1.2.1 hs.beta1.2.2 ih.1 ih.2 (hg t).1 (hg t).2 (hG.trans (by norm_num))

/-- The step of the weight once the moving averages are known to be moderate. -/
theorem update_finite (hs : Usual s c₁ c₂) {t : ℕ} {m' v' : Flt} (hm : m'.Finite) (hmb : |m'.val| ≤ 2 ^ 56) (hv : Nonneg v') (hvf : v'.Finite)
    (hvb : v'.val ≤ 2 ^ 112) :
    (div R (mul R s.lr (div R m' (c₁ t))) (add R (q.fn (div R v' (c₂ t))) s.epsilon)).Finite ∧
    |(div R (mul R s.lr (div R m' (c₁ t))) (add R (q.fn (div R v' (c₂ t))) s.epsilon)).val| ≤ 2 ^ 123 := by
  have hu := u_pos
  have hη := η_pos
  have hus := u_small
  have hηs : η ≤ 1 / 2 ^ 100 := by unfold η; norm_num
  have grow : ∀ {a : Flt} {x B : ℝ}, Near a x → |x| ≤ B → |a.val| ≤ 1.001 * B + η := by
    intro a x B h hx
    have h1 := h.2
    have h2 := abs_sub_le a.val x 0
    rw [sub_zero, sub_zero] at h2
    have h3 : u * |x| ≤ 1 / 10 ^ 7 * |x| := mul_le_mul_of_nonneg_right hus (abs_nonneg _)
    have h4 := abs_nonneg x
    linarith
  -- the mean
  obtain ⟨hc1, hc1'⟩ := hs.first t
  have hc1p : 0 < (c₁ t).val := lt_of_lt_of_le (by positivity) hc1'
  have d1 : |m'.val / (c₁ t).val| ≤ 2 ^ 70 := by
    rw [abs_div, abs_of_pos hc1p, div_le_iff₀ hc1p]
    have := mul_le_mul_of_nonneg_left hc1' (by positivity : (0 : ℝ) ≤ 2 ^ 70)
    linarith
  have n1 := near_div (R := R) hm hc1 hc1p.ne' (d1.trans (by unfold big; norm_num))
  have b1 := grow n1 d1
  have d2 : |s.lr.val * (div R m' (c₁ t)).val| ≤ 2 ^ 10 * 2 ^ 71 := by
    rw [abs_mul]
    exact mul_le_mul hs.lr.2 (b1.trans (by linarith)) (abs_nonneg _) (by positivity)
  have n2 := near_mul (R := R) hs.lr.1 n1.1 (d2.trans (by unfold big; norm_num))
  have b2 := grow n2 d2
  -- the variance
  obtain ⟨hc2n, hc2, hc2'⟩ := hs.second t
  have hc2p : 0 < (c₂ t).val := lt_of_lt_of_le (by positivity) hc2'
  obtain ⟨x, hx, hxm⟩ : ∃ x ≤ maxFloat, div R v' (c₂ t) = .num false x := by
    obtain ⟨a, rfl⟩ := hv
    obtain ⟨c, hc⟩ := hc2n
    rw [hc] at hc2 hc2' hc2p ⊢
    simp only [Flt.Finite] at hvf hc2
    have hc0 : c ≠ 0 := by rintro rfl; simp [Flt.val] at hc2p
    refine ⟨R.rd (a / c), ?_, by simp [div, divWith, hc0, hc2]⟩
    have e : (a / c).toReal ≤ big := by
      rw [ENNReal.toReal_div]
      have h1 : a.toReal ≤ 2 ^ 112 := by simpa [Flt.val] using hvb
      have h2 : 1 / 2 ^ 14 ≤ c.toReal := by simpa [Flt.val] using hc2'
      rw [div_le_iff₀ (lt_of_lt_of_le (by positivity) h2)]
      have := mul_le_mul_of_nonneg_left h2 (by unfold big; positivity : (0 : ℝ) ≤ big)
      refine le_trans ?_ this
      unfold big
      linarith
    exact R.largest _ (rd_error (R := R) (ENNReal.div_ne_top hvf hc0) e).1
  obtain ⟨y, hy, hqy⟩ := q.finite x hx
  have hyt : y ≠ ⊤ := ne_top_of_le_ne_top (by simp) hy
  rw [hxm, hqy]
  obtain ⟨hen, hef, he1, he2⟩ := hs.epsilon
  have hy0 : 0 ≤ (Flt.num false y).val := Nonneg.val_nonneg ⟨y, rfl⟩
  have hyb : (Flt.num false y).val ≤ 2 ^ 64 := by
    have := ENNReal.toReal_mono (by simp) hy
    simpa [Flt.val] using this
  have n3 := near_addWith (R := R) (a := .num false y) (b := s.epsilon) hyt hef (by
    rw [abs_of_nonneg (by linarith)]
    unfold big
    linarith)
  have b3 : 1 / 2 ^ 41 ≤ (addWith R.rd (.num false y) s.epsilon).val := by
    have h1 := n3.2
    rw [abs_of_nonneg (by linarith : (0 : ℝ) ≤ (Flt.num false y).val + s.epsilon.val)] at h1
    have h2 := (abs_le.1 h1).1
    have h3 : u * ((Flt.num false y).val + s.epsilon.val) ≤ 1 / 10 ^ 7 * ((Flt.num false y).val + s.epsilon.val) :=
      mul_le_mul_of_nonneg_right hus (by linarith)
    linarith
  have b3p : 0 < (addWith R.rd (.num false y) s.epsilon).val := lt_of_lt_of_le (by positivity) b3
  have d4 : |(mul R s.lr (div R m' (c₁ t))).val / (addWith R.rd (.num false y) s.epsilon).val| ≤ 1.01 * 2 ^ 122 := by
    rw [abs_div, abs_of_pos b3p, div_le_iff₀ b3p]
    have := mul_le_mul_of_nonneg_left b3 (by positivity : (0 : ℝ) ≤ 1.01 * 2 ^ 122)
    linarith
  have n4 := near_div (R := R) n2.1 n3.1 b3p.ne' (d4.trans (by unfold big; norm_num))
  exact ⟨n4.1, (grow n4 d4).trans (by linarith)⟩

/-- The bound for the moving variance. -/
def vmax (G : ℝ) : ℝ := avg (1.01 * G ^ 2 + η)

/-- The moving variance stays bounded. -/
theorem variance_bounded (hs : Usual s c₁ c₂) (hg : ∀ t, (g t).Finite ∧ |(g t).val| ≤ G) (hG : G ≤ 2 ^ 61) (hv : v 0 = 0)
    (hstep : ∀ t, AdamStep R q s (c₁ t) (c₂ t) (g t) (m t) (v t) (w t) (m (t + 1)) (v (t + 1)) (w (t + 1))) (t : ℕ) :
    (v t).Finite ∧ Nonneg (v t) ∧ (v t).val ≤ vmax G := by
  have hη := η_pos
  have hηs : η ≤ 1 := by unfold η; norm_num
  have hG0 : 0 ≤ G := (abs_nonneg _).trans (hg 0).2
  have hG2 : G ^ 2 ≤ (2 ^ 61) ^ 2 := pow_le_pow_left₀ hG0 hG 2
  induction t with
  | zero => rw [hv]; exact ⟨finite_zero, ⟨0, rfl⟩, by rw [val_zero]; unfold vmax avg; positivity⟩
  | succ t ih =>
    have hsq : |(g t).val * (g t).val| ≤ G ^ 2 := by
      rw [abs_mul, sq]
      exact mul_le_mul (hg t).2 (hg t).2 (abs_nonneg _) hG0
    have n := near_mul (R := R) (hg t).1 (hg t).1 (hsq.trans (hG2.trans (by unfold big; norm_num)))
    have hb : |(mul R (g t) (g t)).val| ≤ 1.01 * G ^ 2 + η := by
      have h1 := n.2
      have h2 := abs_sub_le (mul R (g t) (g t)).val ((g t).val * (g t).val) 0
      rw [sub_zero, sub_zero] at h2
      have h3 := mul_le_mul_of_nonneg_right u_small (abs_nonneg ((g t).val * (g t).val))
      have h4 := abs_nonneg ((g t).val * (g t).val)
      linarith
    have h0 := hs.beta2.1.val_nonneg
    obtain ⟨hf, hr⟩ := average_bound (hstep t).2.1 hs.beta2.2.1 h0 hs.beta2.2.2 ih.1
      (by rw [abs_of_nonneg ih.2.1.val_nonneg]; exact ih.2.2) n.1 hb (by linarith)
    exact ⟨hf, nonneg_mulAddMul (hstep t).2.1 hs.beta2.1 ih.2.1 (nonneg_one_sub hs.beta2.1 hs.beta2.2.1 (by linarith [hs.beta2.2.2]))
      (nonneg_square n.1) hs.beta2.2.1 ih.1 (one_sub hs.beta2.2.1 h0 hs.beta2.2.2).1 n.1, (le_abs_self _).trans hr⟩

/-- **C110** (the part that holds): with gradients up to `2 ^ 55` the moving mean and the moving variance stay bounded by the gradients and
their squares, up to 3 percent and the smallest numbers, after any number of steps, and the weight stays finite as long as it does not
exceed `2 ^ 126`. -/
theorem adam_finite_partial (hs : Usual s c₁ c₂) (hg : ∀ t, (g t).Finite ∧ |(g t).val| ≤ G) (hG : G ≤ 2 ^ 55) (hm : m 0 = 0) (hv : v 0 = 0)
    (hstep : ∀ t, AdamStep R q s (c₁ t) (c₂ t) (g t) (m t) (v t) (w t) (m (t + 1)) (v (t + 1)) (w (t + 1))) (t : ℕ) :
    ((m t).Finite ∧ |(m t).val| ≤ 1.01 * G + 1 / 2 ^ 120) ∧ ((v t).Finite ∧ 0 ≤ (v t).val ∧ (v t).val ≤ 1.03 * G ^ 2 + 1 / 2 ^ 120) ∧
    ((w t).Finite → |(w t).val| ≤ 2 ^ 126 → (w (t + 1)).Finite) := by
  have hη := η_pos
  have hG0 : 0 ≤ G := (abs_nonneg _).trans (hg 0).2
  have hG2 : G ^ 2 ≤ (2 ^ 55) ^ 2 := pow_le_pow_left₀ hG0 hG 2
  have hG2' : 0 ≤ G ^ 2 := sq_nonneg G
  have hηs : 1.01 * (2 ^ 20 * η) + 1.01 * η ≤ 1 / 2 ^ 120 := by unfold η; norm_num
  have hM := mean_bounded hs hg (hG.trans (by norm_num)) hm hstep
  have hV := variance_bounded hs hg (hG.trans (by norm_num)) hv hstep
  have e1 : avg G ≤ 1.01 * G + 1 / 2 ^ 120 := by unfold avg; linarith
  have e2 : vmax G ≤ 1.03 * G ^ 2 + 1 / 2 ^ 120 := by unfold vmax avg; linarith
  refine ⟨⟨(hM t).1, (hM t).2.trans e1⟩, ⟨(hV t).1, (hV t).2.1.val_nonneg, (hV t).2.2.trans e2⟩, fun hw hwb => ?_⟩
  obtain ⟨hf, hb⟩ := update_finite (R := R) (q := q) hs (t := t) (hM (t + 1)).1 ((hM (t + 1)).2.trans (by linarith)) (hV (t + 1)).2.1 (hV (t + 1)).1
    ((hV (t + 1)).2.2.trans (by linarith))
  rw [(hstep t).2.2]
  have hn := neg_finite hf
  refine (near_addWith (R := R) hw hn.1 ?_).1
  rw [hn.2]
  refine (abs_add_le _ _).trans ?_
  rw [abs_neg]
  unfold big
  linarith

/-! ## What can go wrong -/

theorem rd_top : R.rd ⊤ = ⊤ := R.huge ⊤ le_top

/-- A product with a positive finite number. -/
theorem mulWith_pos {rd : ℝ≥0∞ → ℝ≥0∞} {b x : ℝ≥0∞} (h0 : b ≠ 0) (ht : b ≠ ⊤) : mulWith rd (.num false b) (.num false x) = .num false (rd (b * x)) := by
  simp [mulWith, h0, ht]

theorem one_sub_pos {β : Flt} (h : Nonneg β) (hf : β.Finite) (h1 : β.val ≤ 1 - 1 / 2 ^ 14) : ∃ b, b ≠ 0 ∧ b ≠ ⊤ ∧ sub R 1 β = .num false b := by
  have hu : u ≤ 1 / 10 ^ 7 := u_small
  obtain ⟨b, hb⟩ := nonneg_one_sub (R := R) h hf (by linarith)
  obtain ⟨h2, h3⟩ := one_sub (R := R) hf h.val_nonneg h1
  rw [hb] at h2 h3
  refine ⟨b, ?_, h2, hb⟩
  rintro rfl
  have h4 := (abs_le.1 h3).1
  have h5 : u * (1 - β.val) ≤ 1 / 10 ^ 7 * (1 - β.val) := mul_le_mul_of_nonneg_right hu (by linarith)
  rw [show (Flt.num false 0).val = 0 from val_zero] at h4
  linarith

theorem square_form {a : Flt} (h : a.Finite) : ∃ y, mul R a a = .num false y ∧ (2 ^ 64 ≤ |a.val| → y = ⊤) := by
  rcases a with _ | ⟨s, x⟩
  · exact h.elim
  simp only [Flt.Finite] at h
  refine ⟨R.rd (x * x), by simp [mul, mulWith, h], fun hx => R.huge _ ?_⟩
  have e : |(Flt.num s x).val| = x.toReal := by cases s <;> simp [Flt.val]
  rw [e] at hx
  have : (2 : ℝ≥0∞) ^ 64 ≤ x := by
    rw [← ENNReal.toReal_le_toReal (by simp) h]
    simpa using hx
  calc (2 : ℝ≥0∞) ^ 128 = 2 ^ 64 * 2 ^ 64 := by rw [← pow_add]
    _ ≤ x * x := mul_le_mul' this this

/-- The moving variance is never NaN, it is infinite after a gradient whose square is too large, and stays infinite. -/
theorem variance_top (hs : Usual s c₁ c₂) (hβ : 0 < s.beta2.val) {t : ℕ} (hg : (g t).Finite) (hv : Nonneg (v t))
    (hstep : AdamStep R q s (c₁ t) (c₂ t) (g t) (m t) (v t) (w t) (m (t + 1)) (v (t + 1)) (w (t + 1))) :
    Nonneg (v (t + 1)) ∧ ((v t = .num false ⊤ ∨ 2 ^ 64 ≤ |(g t).val|) → v (t + 1) = .num false ⊤) := by
  obtain ⟨b, hb0, hbt, hb⟩ := one_sub_pos (R := R) hs.beta2.1 hs.beta2.2.1 hs.beta2.2.2
  obtain ⟨y, hy, hyt⟩ := square_form (R := R) hg
  obtain ⟨a, ha⟩ := hs.beta2.1
  have ha0 : a ≠ 0 := by rintro rfl; rw [ha] at hβ; simp [Flt.val] at hβ
  have hat : a ≠ ⊤ := by have := hs.beta2.2.1; rw [ha] at this; exact this
  obtain ⟨x, hx⟩ := hv
  have h := hstep.2.1
  rw [hb, hy, ha, hx] at h
  have key : ∃ z, v (t + 1) = .num false z ∧ (x = ⊤ ∨ y = ⊤ → z = ⊤) := by
    rcases h with h | h | h
    all_goals
      simp only [mul, fma, add, mulWith_pos ha0 hat, mulWith_pos hb0 hbt, addWith, if_true, id] at h
      refine ⟨_, h, ?_⟩
      rintro (rfl | rfl)
      · simp [ENNReal.mul_top, ha0, rd_top]
      · simp [ENNReal.mul_top, hb0, rd_top]
  obtain ⟨z, hz, hzt⟩ := key
  refine ⟨⟨z, hz⟩, fun hor => ?_⟩
  rw [hz, hzt]
  rcases hor with h | h
  · rw [hx] at h
    simp only [Flt.num.injEq, true_and] at h
    exact .inl h
  · exact .inr (hyt h)

/-- Taking a zero away. -/
theorem sub_zero_val {a : Flt} (ha : IsFloat R a) (hf : a.Finite) (b : Bool) :
    (sub R a (.num b 0)).Finite ∧ IsFloat R (sub R a (.num b 0)) ∧ (sub R a (.num b 0)).val = a.val := by
  rcases a with _ | ⟨s, x⟩
  · exact hf.elim
  have hx : R.rd x = x := ha
  simp only [Flt.Finite] at hf
  show (addWith R.rd (.num s x) (.num (!b) 0)).Finite ∧ IsFloat R (addWith R.rd (.num s x) (.num (!b) 0)) ∧
    (addWith R.rd (.num s x) (.num (!b) 0)).val = _
  by_cases hb : s = !b
  · have e : addWith R.rd (.num s x) (.num (!b) 0) = .num s x := by simp [addWith, ← hb, hx]
    rw [e]
    exact ⟨hf, hx, rfl⟩
  · rcases eq_or_ne x 0 with rfl | h0
    · have e : addWith R.rd (.num s 0) (.num (!b) 0) = .num false 0 := by simp [addWith, hb]
      rw [e]
      exact ⟨hf, rd_zero, by cases s <;> simp [Flt.val]⟩
    · have e : addWith R.rd (.num s x) (.num (!b) 0) = .num s x := by simp [addWith, hb, h0, pos_iff_ne_zero, hx]
      rw [e]
      exact ⟨hf, hx, rfl⟩

/-- With an infinite moving variance the weight does not change. -/
theorem weight_stuck (hs : Usual s c₁ c₂) {t : ℕ} (hm : (m (t + 1)).Finite) (hmb : |(m (t + 1)).val| ≤ 2 ^ 100) (hv : v (t + 1) = .num false ⊤)
    (hstep : AdamStep R q s (c₁ t) (c₂ t) (g t) (m t) (v t) (w t) (m (t + 1)) (v (t + 1)) (w (t + 1))) :
    ∃ b, w (t + 1) = sub R (w t) (.num b 0) := by
  have hus := u_small
  have hηs : η ≤ 1 := by unfold η; norm_num
  obtain ⟨hc1, hc1'⟩ := hs.first t
  have hc1p : 0 < (c₁ t).val := lt_of_lt_of_le (by positivity) hc1'
  have d1 : |(m (t + 1)).val / (c₁ t).val| ≤ 2 ^ 114 := by
    rw [abs_div, abs_of_pos hc1p, div_le_iff₀ hc1p]
    have := mul_le_mul_of_nonneg_left hc1' (by positivity : (0 : ℝ) ≤ 2 ^ 114)
    linarith
  have n1 := near_div (R := R) hm hc1 hc1p.ne' (d1.trans (by unfold big; norm_num))
  have b1 : |(div R (m (t + 1)) (c₁ t)).val| ≤ 2 ^ 115 := by
    have h1 := n1.2
    have h2 := abs_sub_le (div R (m (t + 1)) (c₁ t)).val ((m (t + 1)).val / (c₁ t).val) 0
    rw [sub_zero, sub_zero] at h2
    have h3 := mul_le_mul_of_nonneg_right hus (abs_nonneg ((m (t + 1)).val / (c₁ t).val))
    linarith
  have d2 : |s.lr.val * (div R (m (t + 1)) (c₁ t)).val| ≤ 2 ^ 10 * 2 ^ 115 := by
    rw [abs_mul]
    exact mul_le_mul hs.lr.2 b1 (abs_nonneg _) (by positivity)
  have n2 := (near_mul (R := R) hs.lr.1 n1.1 (d2.trans (by unfold big; norm_num))).1
  obtain ⟨⟨c, hc⟩, hc2, -⟩ := hs.second t
  obtain ⟨e, he⟩ := hs.epsilon.1
  rw [hc] at hc2
  simp only [Flt.Finite] at hc2
  have hd : div R (v (t + 1)) (c₂ t) = .num false ⊤ := by
    rw [hv, hc]
    simp [div, divWith, hc2, ENNReal.top_div, rd_top]
  have ha : add R (q.fn (div R (v (t + 1)) (c₂ t))) s.epsilon = .num false ⊤ := by
    rw [hd, q.top, he]
    simp [add, addWith, rd_top]
  rw [hstep.2.2, ha]
  have key : ∀ z : Flt, z.Finite → ∃ b, div R z (.num false ⊤) = .num b 0 := by
    rintro (_ | ⟨b, z⟩) hz
    · exact hz.elim
    simp only [Flt.Finite] at hz
    exact ⟨b, by simp [div, divWith, hz, rd_zero]⟩
  obtain ⟨b, hb⟩ := key _ n2
  exact ⟨b, by rw [hb]⟩

/-- **C110** (what goes wrong): after one finite gradient of size `2 ^ 64` or more, `Adam` never changes this weight again, whatever the
later gradients are. -/
theorem adam_freezes (hs : Usual s c₁ c₂) (hβ : 0 < s.beta2.val) (hg : ∀ t, (g t).Finite ∧ |(g t).val| ≤ 2 ^ 98) (hm : m 0 = 0) (hv : v 0 = 0)
    (hstep : ∀ t, AdamStep R q s (c₁ t) (c₂ t) (g t) (m t) (v t) (w t) (m (t + 1)) (v (t + 1)) (w (t + 1)))
    {t₀ : ℕ} (h0 : 2 ^ 64 ≤ |(g t₀).val|) (hw : (w t₀).Finite) (hwf : IsFloat R (w t₀)) (t : ℕ) :
    v (t₀ + t + 1) = .num false ⊤ ∧ (w (t₀ + t)).Finite ∧ (w (t₀ + t)).val = (w t₀).val := by
  have hM := mean_bounded hs hg (by norm_num) hm hstep
  have hav : avg (2 ^ 98) ≤ 2 ^ 100 := by unfold avg η; norm_num
  have hN : ∀ t, Nonneg (v t) := by
    intro t
    induction t with
    | zero => exact ⟨0, hv⟩
    | succ t ih => exact (variance_top hs hβ (hg t).1 ih (hstep t)).1
  have hV : ∀ t, v (t₀ + t + 1) = .num false ⊤ := by
    intro t
    induction t with
    | zero => exact (variance_top hs hβ (hg t₀).1 (hN t₀) (hstep t₀)).2 (.inr h0)
    | succ t ih => exact (variance_top hs hβ (hg _).1 (hN _) (hstep (t₀ + t + 1))).2 (.inl ih)
  refine ⟨hV t, ?_⟩
  have : (w (t₀ + t)).Finite ∧ IsFloat R (w (t₀ + t)) ∧ (w (t₀ + t)).val = (w t₀).val := by
    induction t with
    | zero => exact ⟨hw, hwf, rfl⟩
    | succ t ih =>
      obtain ⟨b, hb⟩ := weight_stuck hs (hM _).1 ((hM _).2.trans hav) (hV t) (hstep (t₀ + t))
      have h := sub_zero_val ih.2.1 ih.1 b
      rw [← hb] at h
      exact ⟨h.1, h.2.1, h.2.2.trans ih.2.2⟩
  exact ⟨this.1, this.2.2⟩

/-- There are such runs. -/
theorem adam_run_exists (R : Rounding) (q : Sqrt) (s : AdamSettings) (c₁ c₂ g : ℕ → Flt) (w₀ : Flt) : ∃ m v w : ℕ → Flt, m 0 = 0 ∧ v 0 = 0 ∧ w 0 = w₀ ∧
    ∀ t, AdamStep R q s (c₁ t) (c₂ t) (g t) (m t) (v t) (w t) (m (t + 1)) (v (t + 1)) (w (t + 1)) := by
  let run : ℕ → Flt × Flt × Flt := fun t => Nat.rec (0, 0, w₀) (fun t p =>
    let m := add R (mul R s.beta1 p.1) (mul R (sub R 1 s.beta1) (g t))
    let v := add R (mul R s.beta2 p.2.1) (mul R (sub R 1 s.beta2) (mul R (g t) (g t)))
    (m, v, sub R p.2.2 (div R (mul R s.lr (div R m (c₁ t))) (add R (q.fn (div R v (c₂ t))) s.epsilon)))) t
  exact ⟨fun t => (run t).1, fun t => (run t).2.1, fun t => (run t).2.2, rfl, rfl, rfl, fun t => ⟨.inl rfl, .inl rfl, rfl⟩⟩

/-- The full property: finite gradients keep the moving averages of `Adam` finite. -/
def StaysFinite (R : Rounding) (q : Sqrt) : Prop :=
  ∀ (s : AdamSettings) (c₁ c₂ g m v w : ℕ → Flt), Usual s c₁ c₂ → (∀ t, (g t).Finite) → m 0 = 0 → v 0 = 0 →
    (∀ t, AdamStep R q s (c₁ t) (c₂ t) (g t) (m t) (v t) (w t) (m (t + 1)) (v (t + 1)) (w (t + 1))) → ∀ t, (m t).Finite ∧ (v t).Finite

/-- Settings with `lr = 1`, both betas one half and `epsilon = 1`. -/
def halves : AdamSettings := ⟨1, .num false 2⁻¹, .num false 2⁻¹, 1⟩

theorem halves_usual : Usual halves (fun _ => 1) fun _ => 1 := by
  have h : (Flt.num false 2⁻¹).val = 1 / 2 := by simp [Flt.val]
  have hf : (Flt.num false 2⁻¹).Finite := by simp [Flt.Finite]
  refine ⟨⟨finite_one, ?_⟩, ⟨hf, ?_, ?_⟩, ⟨⟨_, rfl⟩, hf, ?_⟩, ⟨⟨1, rfl⟩, finite_one, ?_, ?_⟩, fun _ => ⟨finite_one, ?_⟩, fun _ => ⟨⟨1, rfl⟩, finite_one, ?_⟩⟩
  all_goals
    simp only [halves, h, val_one]
    norm_num

theorem stays_finite_refuted (R : Rounding) (q : Sqrt) : ¬ StaysFinite R q := fun h => by
  have hv : (Flt.num false (2 ^ 64)).val = 2 ^ 64 := by simp [Flt.val]
  have hf : (Flt.num false (2 ^ 64)).Finite := by simp [Flt.Finite]
  have hb : 0 < halves.beta2.val := by simp [halves, Flt.val]
  obtain ⟨m, v, w, h1, h2, -, h3⟩ := adam_run_exists R q halves (fun _ => 1) (fun _ => 1) (fun _ => .num false (2 ^ 64)) 1
  have := (variance_top halves_usual hb (t := 0) (g := fun _ => .num false (2 ^ 64)) hf ⟨0, h2⟩ (h3 0)).2 (.inr (by rw [hv, abs_of_nonneg (by positivity)]))
  have hfin := (h halves _ _ _ m v w halves_usual (fun _ => hf) h1 h2 h3 1).2
  rw [this] at hfin
  exact hfin rfl

/-! ## A weight without gradient -/

theorem zero_mul_right {rd : ℝ≥0∞ → ℝ≥0∞} (h : rd 0 = 0) {a b : Flt} (ha : a.Finite) (hb : Zero b) : Zero (mulWith rd a b) := by
  obtain ⟨t, rfl⟩ := hb
  rcases a with _ | ⟨s, x⟩
  · exact ha.elim
  simp only [Flt.Finite] at ha
  exact ⟨s ^^ t, by simp [mulWith, ha, h]⟩

theorem zero_mulAddMul {a b c d r : Flt} (h : MulAddMul R a b c d r) (ha : a.Finite) (hb : Zero b) (hc : c.Finite) (hd : Zero d) : Zero r := by
  rcases h with rfl | rfl | rfl
  · exact zero_add_zero (zero_mul_right rd_zero ha hb) (zero_mul_right rd_zero hc hd)
  · exact zero_add_zero (zero_mul_right rfl ha hb) (zero_mul_right rd_zero hc hd)
  · exact zero_add_zero (zero_mul_right rfl hc hd) (zero_mul_right rd_zero ha hb)

/-- **C110** (a weight whose gradient has always been zero, such as one behind a ReLU that is never active): it keeps its value if
`epsilon` is positive, and becomes NaN at once if `epsilon` is zero. -/
theorem adam_zero_gradient {lr beta1 beta2 eps c d g m v w m' v' w' : Flt} (hl : lr.Finite) (h1 : beta1.Finite) (h1' : (sub R 1 beta1).Finite)
    (h2 : Nonneg beta2) (h2f : beta2.Finite) (h2' : beta2.val ≤ 1 - 1 / 2 ^ 14) (hc : c.Finite) (hc0 : c.val ≠ 0)
    (hd : Nonneg d) (hdf : d.Finite) (hd0 : d.val ≠ 0) (hg : Zero g) (hm : Zero m) (hv : v = 0)
    (h : AdamStep R q ⟨lr, beta1, beta2, eps⟩ c d g m v w m' v' w') :
    Zero m' ∧ v' = 0 ∧ (eps.Finite → IsFloat R eps → 0 < eps.val → w.Finite → IsFloat R w → w'.Finite ∧ w'.val = w.val) ∧ (eps = 0 → w' = .nan) := by
  obtain ⟨e1, e2, e3⟩ := h
  have hm' := zero_mulAddMul e1 h1 hm h1' hg
  have hgf : g.Finite := by obtain ⟨b, rfl⟩ := hg; exact ENNReal.zero_ne_top
  have hgg : Zero (mul R g g) := zero_mul_right rd_zero hgf hg
  have hggf : (mul R g g).Finite := by obtain ⟨b, hb⟩ := hgg; rw [hb]; exact ENNReal.zero_ne_top
  have hbf := (one_sub (R := R) h2f h2.val_nonneg h2').1
  have hv' : v' = 0 := by
    obtain ⟨b, hb⟩ := zero_mulAddMul e2 h2f ⟨false, hv⟩ hbf hgg
    obtain ⟨x, hx⟩ := nonneg_mulAddMul e2 h2 ⟨0, hv⟩ (nonneg_one_sub h2 h2f (by linarith)) (nonneg_square hggf) h2f (hv ▸ finite_zero) hbf hggf
    rw [hb] at hx ⊢
    simp only [Flt.num.injEq] at hx
    rw [hx.1]
    rfl
  have hden : q.fn (div R v' d) = 0 := by
    obtain ⟨x, rfl⟩ := hd
    have hx0 : x ≠ 0 := by rintro rfl; exact hd0 val_zero
    have : div R v' (.num false x) = 0 := by
      rw [hv']
      show divWith R.rd (.num false 0) (.num false x) = .num false 0
      simp [divWith, hx0, rd_zero]
    rw [this, q.zero]
  have hnum : Zero (mul R lr (div R m' c)) := by
    refine zero_mul_right rd_zero hl ?_
    obtain ⟨b, rfl⟩ := hm'
    rcases c with _ | ⟨t, x⟩
    · exact hc.elim
    have hx0 : x ≠ 0 := by rintro rfl; exact hc0 (by cases t <;> simp [Flt.val])
    exact ⟨b ^^ t, by simp [div, divWith, hx0, rd_zero]⟩
  simp only at e3
  rw [hden] at e3
  obtain ⟨b, hb⟩ := hnum
  rw [hb] at e3
  refine ⟨hm', hv', fun hef heF hep hwf hwF => ?_, ?_⟩
  · rcases eps with _ | ⟨t, x⟩
    · exact hef.elim
    have hx : R.rd x = x := heF
    have hx0 : x ≠ 0 := by rintro rfl; cases t <;> simp [Flt.val] at hep
    obtain rfl : t = false := by
      cases t
      · rfl
      · have := ENNReal.toReal_nonneg (a := x)
        simp only [Flt.val, if_true] at hep
        linarith
    have ea : add R 0 (.num false x) = .num false x := by
      show addWith R.rd (.num false 0) (.num false x) = _
      simp [addWith, hx]
    have ed : div R (.num b 0) (.num false x) = .num b 0 := by simp [div, divWith, hx0, rd_zero]
    rw [ea, ed] at e3
    rw [e3]
    have := sub_zero_val hwF hwf b
    exact ⟨this.1, this.2.2⟩
  · rintro rfl
    have ea : add R 0 0 = .num false 0 := by
      show addWith R.rd (.num false 0) (.num false 0) = _
      simp [addWith, rd_zero]
    have ed : div R (.num b 0) (.num false 0) = .nan := by simp [div, divWith]
    rw [ea, ed] at e3
    rw [e3]
    cases w <;> rfl

/-! ## There is such a square root -/

/-- `std::sqrt`, correctly rounded. -/
def sqrt32 : Flt → Flt
  | .nan => .nan
  | .num false x => if x = ⊤ then .num false ⊤ else .num false (rd32 (ENNReal.ofReal (Real.sqrt x.toReal)))
  | .num true x => if x = 0 then .num true 0 else .nan

def sqrtLib : Sqrt where
  fn := sqrt32
  zero := by
    show sqrt32 (.num false 0) = .num false 0
    have : rd32 0 = 0 := rd_zero (R := binary32)
    simp [sqrt32, this]
  finite x hx := by
    have ht : x ≠ ⊤ := ne_top_of_le_ne_top (by rw [maxFloat_eq]; exact ENNReal.ofReal_ne_top) hx
    refine ⟨rd32 (ENNReal.ofReal (Real.sqrt x.toReal)), ?_, by simp [sqrt32, ht]⟩
    have h1 : x.toReal ≤ (2 ^ 64) ^ 2 := by
      rw [maxFloat_eq] at hx
      have := ENNReal.toReal_mono ENNReal.ofReal_ne_top hx
      rw [ENNReal.toReal_ofReal (by positivity)] at this
      linarith
    have h2 : ENNReal.ofReal (Real.sqrt x.toReal) ≤ 2 ^ 64 := by
      have := ENNReal.ofReal_le_ofReal ((Real.sqrt_le_left (by positivity)).2 h1)
      rwa [ENNReal.ofReal_pow (by norm_num), ENNReal.ofReal_ofNat] at this
    have h3 := rd32_mono h2
    have h4 := rd32_exact 1 64 (by norm_num) (by norm_num)
    rw [Nat.cast_one, one_mul] at h4
    rwa [h4] at h3
  top := by simp [sqrt32]

/-- The hypotheses of `adam_finite_partial` hold for the gradient 1 in every step, and those of `adam_freezes` for the gradient `2 ^ 64`. -/
example : ∃ m v w : ℕ → Flt, m 0 = 0 ∧ v 0 = 0 ∧ w 0 = 1 ∧
    (∀ t, AdamStep binary32 sqrtLib halves 1 1 1 (m t) (v t) (w t) (m (t + 1)) (v (t + 1)) (w (t + 1))) ∧ (w 1).Finite := by
  obtain ⟨m, v, w, h1, h2, h3, h4⟩ := adam_run_exists binary32 sqrtLib halves (fun _ => 1) (fun _ => 1) (fun _ => 1) 1
  refine ⟨m, v, w, h1, h2, h3, h4, ?_⟩
  refine (adam_finite_partial (G := 1) halves_usual (fun _ => ⟨finite_one, by rw [val_one]; norm_num⟩) (by norm_num) h1 h2 h4 0).2.2 ?_ ?_
  · rw [h3]; exact finite_one
  · rw [h3, val_one]; norm_num

example : ∃ m v w : ℕ → Flt, m 0 = 0 ∧ v 0 = 0 ∧
    (∀ t, AdamStep binary32 sqrtLib halves 1 1 (if t = 3 then .num false (2 ^ 64) else 1) (m t) (v t) (w t) (m (t + 1)) (v (t + 1)) (w (t + 1))) ∧
    v 4 = .num false ⊤ ∧ ((w 3).Finite → IsFloat binary32 (w 3) → ∀ t, (w (3 + t)).val = (w 3).val) := by
  have hv : (Flt.num false (2 ^ 64)).val = 2 ^ 64 := by simp [Flt.val]
  have hf : (Flt.num false (2 ^ 64)).Finite := by simp [Flt.Finite]
  have hb : 0 < halves.beta2.val := by simp [halves, Flt.val]
  obtain ⟨m, v, w, h1, h2, h3, h4⟩ := adam_run_exists binary32 sqrtLib halves (fun _ => 1) (fun _ => 1)
    (fun t => if t = 3 then .num false (2 ^ 64) else 1) 1
  have hg : ∀ t : ℕ, ((if t = 3 then .num false (2 ^ 64) else 1 : Flt)).Finite ∧ |((if t = 3 then .num false (2 ^ 64) else 1 : Flt)).val| ≤ 2 ^ 98 := by
    intro t
    split_ifs
    · exact ⟨hf, by rw [hv]; norm_num⟩
    · exact ⟨finite_one, by rw [val_one]; norm_num⟩
  have hN : ∀ t, Nonneg (v t) := by
    intro t
    induction t with
    | zero => exact ⟨0, h2⟩
    | succ t ih => exact (variance_top halves_usual hb (g := fun t => if t = 3 then .num false (2 ^ 64) else 1) (hg t).1 ih (h4 t)).1
  have h64 : (2 : ℝ) ^ 64 ≤ |((if (3 : ℕ) = 3 then .num false (2 ^ 64) else 1 : Flt)).val| := by
    rw [if_pos rfl, hv, abs_of_nonneg (by positivity)]
  refine ⟨m, v, w, h1, h2, h4, ?_, fun hw hwf t => ?_⟩
  · exact (variance_top halves_usual hb (t := 3) (g := fun t => if t = 3 then .num false (2 ^ 64) else 1) (hg 3).1 (hN 3) (h4 3)).2 (.inr h64)
  · exact (adam_freezes (g := fun t => if t = 3 then .num false (2 ^ 64) else 1) halves_usual hb hg h1 h2 h4 h64 hw hwf t).2.2

end

end DW.Props.FloatAdamP
