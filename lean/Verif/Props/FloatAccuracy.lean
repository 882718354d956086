import Verif.Props.FloatGrad
import Mathlib.Algebra.BigOperators.Field
/-!
# C103: the accuracy of softmax in `float`

The rows of the result of softmax sum to 1, and its entries are those of the exact softmax, up to rounding errors that are
proportional to the number of classes.
-/

set_option autoImplicit false

namespace DW.Props.FloatAccuracyP

open DW.Float DW.Props.FloatSoftmaxP DW.Props.FloatLossP DW.Props.FloatDotP DW.Props.FloatGradP
open scoped ENNReal

variable {R : Rounding} {F : Libm R} {B n : Nat}

noncomputable section

/-- The relative error of `exp` on negative numbers is at most `ε`, apart from half of the smallest `float`. -/
def ExpAccurate (F : Libm R) (ε : ℝ) : Prop :=
  ∀ x : ℝ≥0∞, x ≠ ⊤ → |(F.exp (.num true x)).val - Real.exp (-x.toReal)| ≤ ε * Real.exp (-x.toReal) + η

/-- The exact softmax of a row. -/
def softmax (x : Fin n → ℝ) (j : Fin n) : ℝ := Real.exp (x j) / ∑ r, Real.exp (x r)

/-! ## Sums of numbers between 0 and 1 -/

/-- The exact sum. -/
def total (l : List Flt) : ℝ := (l.map Flt.val).sum

theorem total_append (l l' : List Flt) : total (l ++ l') = total l + total l' := by simp [total]

theorem total_nonneg {l : List Flt} (hl : ∀ a ∈ l, UnitFloat R a) : 0 ≤ total l :=
  List.sum_nonneg (by
    simp only [List.mem_map]
    rintro _ ⟨a, ha, rfl⟩
    obtain ⟨y, -, -, rfl⟩ := hl a ha
    simp [Flt.val])

/-- A sum in any order, of `k` numbers: relative error of `k - 1` roundings. -/
theorem sum_error {l : List Flt} {s : Flt} (h : SumOf R l s) (hl : ∀ a ∈ l, UnitFloat R a) (hn : l.length ≤ 2 ^ 24) :
    0 < l.length ∧ s.val + η ≤ (1 + u) ^ (l.length - 1) * (total l + l.length * η) ∧
      (1 - u) ^ (l.length - 1) * total l - (l.length - 1 : ℕ) * η ≤ s.val := by
  have hu := u_pos
  have hη := η_pos
  have hus := u_small
  induction h with
  | one a => simp [total]
  | start a =>
    obtain ⟨y, hy, hr, rfl⟩ := hl a (by simp)
    have : add R 0 (.num false y) = .num false y := by
      show addWith R.rd (.num false 0) (.num false y) = _
      simp [addWith, hr]
    simp [total, this]
  | @add l l' a b h₁ h₂ ih₁ ih₂ =>
    rw [List.length_append] at hn
    have hl₁ : ∀ c ∈ l, UnitFloat R c := fun c hc => hl c (by simp [hc])
    have hl₂ : ∀ c ∈ l', UnitFloat R c := fun c hc => hl c (by simp [hc])
    obtain ⟨p1, u1, w1⟩ := ih₁ hl₁ (by omega)
    obtain ⟨p2, u2, w2⟩ := ih₂ hl₂ (by omega)
    obtain ⟨x, hx, -, rfl, -⟩ := sum_bounds h₁ hl₁ (by omega)
    obtain ⟨y, hy, -, rfl, -⟩ := sum_bounds h₂ hl₂ (by omega)
    have hxt : x ≠ ⊤ := ne_top_of_le_ne_top (ENNReal.natCast_ne_top _) hx
    have hyt : y ≠ ⊤ := ne_top_of_le_ne_top (ENNReal.natCast_ne_top _) hy
    have hxr : x.toReal ≤ l.length := by simpa using ENNReal.toReal_mono (ENNReal.natCast_ne_top _) hx
    have hyr : y.toReal ≤ l'.length := by simpa using ENNReal.toReal_mono (ENNReal.natCast_ne_top _) hy
    have hx0 : 0 ≤ x.toReal := ENNReal.toReal_nonneg
    have hy0 : 0 ≤ y.toReal := ENNReal.toReal_nonneg
    have vx : ∀ z : ℝ≥0∞, (Flt.num false z).val = z.toReal := fun z => by simp [Flt.val]
    have hn' : (l.length : ℝ) + l'.length ≤ 2 ^ 24 := by exact_mod_cast hn
    have near := near_addWith (R := R) (a := .num false x) (b := .num false y) hxt hyt (by
      rw [vx, vx, abs_of_nonneg (by linarith)]
      unfold big
      norm_num at hn' ⊢
      linarith)
    change FloatDotP.Near (Float.add R _ _) _ at near
    rw [vx, vx] at near
    rw [vx] at u1 w1 u2 w2
    have e := near.2
    rw [abs_of_nonneg (show 0 ≤ x.toReal + y.toReal by linarith)] at e
    obtain ⟨e1, e2⟩ := abs_le.1 e
    have t1 := total_nonneg hl₁
    have t2 := total_nonneg hl₂
    have hlen : (l ++ l').length - 1 = (l.length - 1) + (l'.length - 1) + 1 := by simp; omega
    have gle : ∀ {p q : ℕ}, p ≤ q → (1 + u) ^ p ≤ (1 + u) ^ q := fun h => pow_le_pow_right₀ (by linarith) h
    have sle : ∀ {p q : ℕ}, p ≤ q → (1 - u) ^ q ≤ (1 - u) ^ p := fun h => pow_le_pow_of_le_one (by linarith) (by linarith) h
    refine ⟨by simp; omega, ?_, ?_⟩
    · rw [hlen, total_append, List.length_append]
      have g1 : (1 + u) * (1 + u) ^ (l.length - 1) ≤ (1 + u) ^ (l.length - 1 + (l'.length - 1) + 1) := by
        rw [← pow_succ']; exact gle (by omega)
      have g2 : (1 + u) * (1 + u) ^ (l'.length - 1) ≤ (1 + u) ^ (l.length - 1 + (l'.length - 1) + 1) := by
        rw [← pow_succ']; exact gle (by omega)
      have a1 : 0 ≤ total l + l.length * η := by positivity
      have a2 : 0 ≤ total l' + l'.length * η := by positivity
      have b1 := mul_le_mul_of_nonneg_right g1 a1
      have b2 := mul_le_mul_of_nonneg_right g2 a2
      have c1 := mul_le_mul_of_nonneg_left u1 (show 0 ≤ 1 + u by linarith)
      have c2 := mul_le_mul_of_nonneg_left u2 (show 0 ≤ 1 + u by linarith)
      push_cast
      nlinarith
    · rw [hlen, total_append]
      have g1 : (1 - u) ^ (l.length - 1 + (l'.length - 1) + 1) ≤ (1 - u) * (1 - u) ^ (l.length - 1) := by
        rw [← pow_succ']; exact sle (by omega)
      have g2 : (1 - u) ^ (l.length - 1 + (l'.length - 1) + 1) ≤ (1 - u) * (1 - u) ^ (l'.length - 1) := by
        rw [← pow_succ']; exact sle (by omega)
      have b1 := mul_le_mul_of_nonneg_right g1 t1
      have b2 := mul_le_mul_of_nonneg_right g2 t2
      have c1 := mul_le_mul_of_nonneg_left w1 (show 0 ≤ 1 - u by linarith)
      have c2 := mul_le_mul_of_nonneg_left w2 (show 0 ≤ 1 - u by linarith)
      have d1 : 0 ≤ u * (((l.length - 1 : ℕ) : ℝ) * η) := by positivity
      have d2 : 0 ≤ u * (((l'.length - 1 : ℕ) : ℝ) * η) := by positivity
      push_cast
      nlinarith
  | perm hp _ ih =>
    have := ih (fun a ha => hl a (hp.mem_iff.1 ha)) (by rwa [hp.length_eq])
    rw [hp.length_eq] at this
    rwa [show total _ = total _ from (hp.map _).sum_eq] at this

/-- The same with simpler factors, if the sum is at least 1. -/
theorem sum_relative {l : List Flt} {s : Flt} (h : SumOf R l s) (hl : ∀ a ∈ l, UnitFloat R a) (hn : l.length ≤ 2 ^ 20)
    (h1 : 1 ≤ total l) : |s.val - total l| ≤ 1.07 * (l.length - 1 + 1 / 1000) * u * total l := by
  obtain ⟨hp, hU, hL⟩ := sum_error h hl (hn.trans (by norm_num))
  have hu := u_pos
  have hη := η_pos
  obtain ⟨k, hk⟩ : ∃ k, l.length = k + 1 := ⟨l.length - 1, by omega⟩
  rw [hk] at hU hL hn ⊢
  simp only [Nat.add_sub_cancel] at hU hL
  have hk' : (k : ℝ) + 1 ≤ 2 ^ 20 := by exact_mod_cast hn
  push_cast at hU hL ⊢
  rw [show (k : ℝ) + 1 - 1 + 1 / 1000 = k + 1 / 1000 by ring]
  have hx : (k : ℝ) * u ≤ 1 / 16 := by unfold u; norm_num at hk' ⊢; linarith
  have hx0 : 0 ≤ (k : ℝ) * u := by positivity
  have g : (1 + u) ^ k ≤ 1 + 1.0625 * (k * u) := by
    have g1 : (1 + u) ^ k ≤ Real.exp (k * u) := by
      rw [Real.exp_nat_mul]
      exact pow_le_pow_left₀ (by linarith) (by linarith [Real.add_one_le_exp u]) _
    have g2 := (abs_le.1 (Real.abs_exp_sub_one_sub_id_le (x := (k : ℝ) * u) (by rw [abs_of_nonneg hx0]; linarith))).2
    nlinarith
  have b : 1 - k * u ≤ (1 - u) ^ k := by
    have := one_add_mul_le_pow (show (-2 : ℝ) ≤ -u by linarith [u_small]) k
    rw [show (1 : ℝ) - u = 1 + -u by ring]
    linarith
  have hsmall : ((k : ℝ) + 1) * η * 2 ≤ u / 1000 := by
    have : ((k : ℝ) + 1) * η * 2 ≤ 2 ^ 20 * η * 2 := by gcongr
    refine this.trans ?_
    unfold η u
    norm_num
  set T := total l
  have hT : u / 1000 ≤ u / 1000 * T := by nlinarith
  rw [abs_le]
  constructor
  · have c := mul_le_mul_of_nonneg_right b (show 0 ≤ T by linarith)
    have d : (k : ℝ) * η ≤ u / 1000 * T := by nlinarith
    have e : 0 ≤ k * u * T := by positivity
    nlinarith
  · have c := mul_le_mul_of_nonneg_right g (show 0 ≤ T + (k + 1) * η by positivity)
    have d : (1 + 1.0625 * (k * u)) * ((k + 1) * η) ≤ u / 1000 * T := by nlinarith
    have e : 0 ≤ k * u * T := by positivity
    nlinarith

/-! ## The exponentials -/

theorem sub_max {x m : Flt} (hx : x.Finite) (hm : m.Finite) (h : ¬m.lt x) :
    ∃ t : ℝ≥0∞, t ≠ ⊤ ∧ t.toReal = m.val - x.val ∧ (sub R x m = .num true (R.rd t) ∨ t = 0 ∧ ∃ s, sub R x m = .num s 0) := by
  rcases x with _ | ⟨s, a⟩
  · exact hx.elim
  rcases m with _ | ⟨t, b⟩
  · exact hm.elim
  simp only [Flt.Finite] at hx hm
  cases s <;> cases t <;> simp only [Flt.lt, not_lt, not_not, not_false_eq_true] at h
  · rcases h.eq_or_lt with rfl | h'
    · exact ⟨0, by simp, by simp, .inr ⟨rfl, false, by simp [sub, Flt.neg, addWith, hx]⟩⟩
    · refine ⟨b - a, ENNReal.sub_ne_top hm, by simp [ENNReal.toReal_sub_of_le h hm, Flt.val], .inl ?_⟩
      simp [sub, Flt.neg, addWith, h'.ne, h'.le]
  · obtain ⟨rfl, rfl⟩ := h
    exact ⟨0, by simp, by simp [Flt.val], .inr ⟨rfl, false, by simp [sub, Flt.neg, addWith, rd_zero]⟩⟩
  · refine ⟨a + b, ENNReal.add_ne_top.2 ⟨hx, hm⟩, by simp [ENNReal.toReal_add hx hm, Flt.val]; ring, .inl ?_⟩
    simp [sub, Flt.neg, addWith]
  · rcases h.eq_or_lt with rfl | h'
    · exact ⟨0, by simp, by simp, .inr ⟨rfl, false, by simp [sub, Flt.neg, addWith, hx]⟩⟩
    · refine ⟨a - b, ENNReal.sub_ne_top hx, by simp [ENNReal.toReal_sub_of_le h hx, Flt.val]; ring, .inl ?_⟩
      simp [sub, Flt.neg, addWith, h'.ne', h']

/-- Each exponential of a difference: the rounding of the difference `-t` counts less than `u / e`. -/
theorem exp_error {ε : ℝ} (hF : ExpAccurate F ε) (hε : 0 ≤ ε) {x m : Flt} (hx : x.Finite) (hm : m.Finite) (h : ¬m.lt x) :
    |(F.exp (sub R x m)).val - Real.exp (x.val - m.val)| ≤ 0.38 * u + 1.001 * ε * Real.exp (x.val - m.val) := by
  obtain ⟨t, ht, hv, hs⟩ := sub_max (R := R) hx hm h
  have hu := u_pos
  have hus := u_small
  have hη := η_pos
  have hηu : 1000 * η ≤ u := by unfold η u; norm_num
  rw [show x.val - m.val = -t.toReal by rw [hv]; ring]
  have ht0 : 0 ≤ t.toReal := ENNReal.toReal_nonneg
  have he0 := Real.exp_pos (-t.toReal)
  rcases hs with hs | ⟨rfl, s, hs⟩
  · rw [hs]
    by_cases hbig : t.toReal ≤ 250
    · obtain ⟨hr, herr⟩ := rd_error (R := R) ht (by unfold big; norm_num; linarith)
      have ha := hF _ hr
      set t' := (R.rd t).toReal
      set w := t.toReal
      have hd : |w - t'| ≤ 1 / 10000 := by
        rw [abs_sub_comm]
        refine herr.trans ?_
        nlinarith
      have e1 : Real.exp (-t') = Real.exp (-w) * Real.exp (w - t') := by rw [← Real.exp_add]; ring_nf
      have q := Real.abs_exp_sub_one_sub_id_le (x := w - t') (hd.trans (by norm_num))
      have q2 : |Real.exp (w - t') - 1| ≤ 1.001 * |w - t'| := by
        have := abs_add_le (Real.exp (w - t') - 1 - (w - t')) (w - t')
        rw [sub_add_cancel] at this
        have q3 : (w - t') ^ 2 ≤ 1 / 10000 * |w - t'| := by
          rw [← sq_abs, sq]
          exact mul_le_mul_of_nonneg_right hd (abs_nonneg _)
        linarith [abs_nonneg (w - t')]
      have hwe : w * Real.exp (-w) ≤ 0.3679 := by
        have h1 := Real.add_one_le_exp (w - 1)
        have h2 : w * Real.exp (-w) ≤ Real.exp (w - 1) * Real.exp (-w) := mul_le_mul_of_nonneg_right (by linarith) he0.le
        rw [← Real.exp_add, show w - 1 + -w = -1 by ring] at h2
        have := Real.exp_neg_one_lt_d9
        linarith
      have he1 : Real.exp (-w) ≤ 1 := Real.exp_le_one_iff.2 (by linarith)
      have hd2 : |w - t'| ≤ u * w + η := by rw [abs_sub_comm]; exact herr
      have d1 : |Real.exp (-t') - Real.exp (-w)| ≤ 0.37 * u := by
        rw [e1, show Real.exp (-w) * Real.exp (w - t') - Real.exp (-w) = Real.exp (-w) * (Real.exp (w - t') - 1) by ring, abs_mul,
          abs_of_pos he0]
        have := mul_le_mul_of_nonneg_left (q2.trans (mul_le_mul_of_nonneg_left hd2 (by norm_num))) he0.le
        refine this.trans ?_
        have r1 : u * (w * Real.exp (-w)) ≤ u * 0.3679 := mul_le_mul_of_nonneg_left hwe hu.le
        have r2 : η * Real.exp (-w) ≤ η * 1 := mul_le_mul_of_nonneg_left he1 hη.le
        nlinarith
      have d2 : Real.exp (-t') ≤ 1.001 * Real.exp (-w) := by
        rw [e1, mul_comm]
        refine mul_le_mul_of_nonneg_right ?_ he0.le
        have := (abs_le.1 q2).2
        nlinarith
      have t1 := abs_sub_le (F.exp (Flt.num true (R.rd t))).val (Real.exp (-t')) (Real.exp (-w))
      have d3 := mul_le_mul_of_nonneg_left d2 hε
      nlinarith
    · have h200 : (200 : ℝ≥0∞) ≤ R.rd t := by
        have h1 : ((200 : ℕ) : ℝ≥0∞) ≤ t := by
          rw [← ENNReal.ofReal_toReal ht, ← ENNReal.ofReal_natCast]
          exact ENNReal.ofReal_le_ofReal (by push_cast; linarith)
        have h2 := R.mono h1
        rw [rd_nat (by norm_num)] at h2
        exact_mod_cast h2
      rw [F.expSmall _ h200]
      have h3 := exp_neg_small (x := t.toReal) (by linarith)
      have h4 : (2 : ℝ) ^ (-150 : ℤ) = η := by unfold η; norm_num
      rw [h4] at h3
      have v0 : (0 : Flt).val = 0 := by show (Flt.num false 0).val = 0; simp [Flt.val]
      rw [v0, zero_sub, abs_neg, abs_of_pos he0]
      have : 0 ≤ 1.001 * ε * Real.exp (-t.toReal) := by positivity
      linarith
  · rw [hs, F.expZero]
    have v1 : (1 : Flt).val = 1 := by show (Flt.num false 1).val = 1; simp [Flt.val]
    rw [v1]
    simp
    positivity

/-- A quotient of which numerator and denominator have errors. -/
theorem quotient_error {e f E G N ε v : ℝ} (hE0 : 0 < E) (hG0 : 0 < G) (hE : 1 ≤ E) (he : 0 ≤ e) (heE : e ≤ E) (hf : 0 ≤ f) (hfG : f ≤ G)
    (hv : 0 ≤ v) (hv' : v ≤ 1 / 1000) (hN : 1 ≤ N) (hε : 0 ≤ ε) (hε' : ε ≤ 1 / 1000) (h1 : |e - f| ≤ 0.38 * v + 1.001 * ε * f)
    (h2 : |E - G| ≤ 0.38 * N * v + 1.001 * ε * G) : |e / E - f / G| ≤ 0.4 * (N + 1) * v + 2.9 * ε := by
  have e1 : e / E - f / G = ((e - f) - f / G * (E - G)) / E := by field_simp; ring
  have g0 : 0 ≤ f / G := by positivity
  have g1 : f / G ≤ 1 := by rw [div_le_one hG0]; exact hfG
  rw [e1, abs_div, abs_of_pos hE0, div_le_iff₀ hE0]
  have t := abs_sub (e - f) (f / G * (E - G))
  refine t.trans ?_
  rw [abs_mul, abs_of_nonneg g0]
  have t2 : f / G * |E - G| ≤ 0.38 * N * v + 1.001 * ε * f := by
    have a := mul_le_mul_of_nonneg_left h2 g0
    have b : f / G * (0.38 * N * v + 1.001 * ε * G) = f / G * (0.38 * N * v) + 1.001 * ε * f := by field_simp
    rw [b] at a
    have c : f / G * (0.38 * N * v) ≤ 1 * (0.38 * N * v) := mul_le_mul_of_nonneg_right g1 (by positivity)
    linarith
  have t3 : f ≤ e + 0.38 * v + 1.001 * ε * f := by linarith [(abs_le.1 h1).1]
  have t4 : 1.001 * ε * f ≤ 1.001 * (1 / 1000) * f := by gcongr
  have t5 : f ≤ 1.02 * E := by linarith
  have t6 : ε * f ≤ ε * (1.02 * E) := mul_le_mul_of_nonneg_left t5 hε
  have t7 : 0.38 * (N + 1) * v * 1 ≤ 0.38 * (N + 1) * v * E := mul_le_mul_of_nonneg_left hE (by positivity)
  have t8 : 0 ≤ (N + 1) * v * E := by positivity
  have t9 : 0 ≤ ε * E := by positivity
  linarith

/-! ## Softmax -/

section

variable {X Y : Fin B → Fin n → Flt}

/-- The parts of one row. -/
theorem row_error (h : SoftmaxForward R F X Y) (hX : ∀ i j, (X i j).Finite) (hn : n ≤ 2 ^ 20) (i : Fin B) :
    ∃ (m : Flt) (e : Fin n → ℝ) (s : ℝ), IsMax (X i) m ∧ 1 ≤ s ∧ 1 ≤ ∑ r, e r ∧ |s - ∑ r, e r| ≤ 1.07 * (n - 1 + 1 / 1000) * u * ∑ r, e r ∧
      ∀ j, 0 ≤ e j ∧ e j ≤ 1 ∧ e j = (F.exp (sub R (X i j) m)).val ∧ |(Y i j).val - e j / s| ≤ u * (e j / s) + η := by
  obtain ⟨m, s, hm, hs, hY⟩ := h i
  have hn' : n ≤ 2 ^ 24 := hn.trans (by norm_num)
  obtain ⟨z, hz, hzn, rfl, hrow⟩ := row (hX i) hn' hm hs
  have hzt : z ≠ ⊤ := ne_top_of_le_ne_top (ENNReal.natCast_ne_top _) hzn
  have hmf : m.Finite := by obtain ⟨j, rfl⟩ := hm.1; exact hX i j
  have hz1 : 1 ≤ z.toReal := by simpa using ENNReal.toReal_mono hzt hz
  have vz : (Flt.num false z).val = z.toReal := by simp [Flt.val]
  have htot : total (List.ofFn fun j => F.exp (sub R (X i j) m)) = ∑ j, (F.exp (sub R (X i j) m)).val := by
    simp [total, List.map_ofFn, List.sum_ofFn]
  have hunit : ∀ a ∈ List.ofFn fun j => F.exp (sub R (X i j) m), UnitFloat R a := by
    simpa [List.mem_ofFn] using fun j => exp_sub (F := F) (hX i j) hmf (hm.2 j)
  have hpos : ∀ j, 0 ≤ (F.exp (sub R (X i j) m)).val ∧ (F.exp (sub R (X i j) m)).val ≤ 1 := fun j => by
    obtain ⟨y, hy, -, he, -⟩ := hrow j
    rw [he]
    exact ⟨by simp [Flt.val], by simpa [Flt.val] using ENNReal.toReal_mono ENNReal.one_ne_top hy⟩
  have hsum : 1 ≤ ∑ j, (F.exp (sub R (X i j) m)).val := by
    obtain ⟨j, hj⟩ := hm.1
    obtain ⟨y, -, -, he, h1⟩ := hrow j
    have hy := h1 (by rw [hj]; exact hm)
    have : (F.exp (sub R (X i j) m)).val = 1 := by rw [he, hy]; simp [Flt.val]
    rw [← this]
    exact Finset.single_le_sum (f := fun j => (F.exp (sub R (X i j) m)).val) (fun j _ => (hpos j).1) (Finset.mem_univ j)
  have hrel := sum_relative hs hunit (by simpa using hn) (by rw [htot]; exact hsum)
  rw [htot, vz, List.length_ofFn] at hrel
  refine ⟨m, fun j => (F.exp (sub R (X i j) m)).val, z.toReal, hm, hz1, hsum, hrel, fun j => ⟨(hpos j).1, (hpos j).2, rfl, ?_⟩⟩
  obtain ⟨y, hy, -, he, -⟩ := hrow j
  have hyt : y ≠ ⊤ := ne_top_of_le_ne_top ENNReal.one_ne_top hy
  have hy1 := (hpos j).2
  have hy0 := (hpos j).1
  rw [he] at hy1 hy0
  have near := near_div (R := R) (a := F.exp (sub R (X i j) m)) (b := .num false z) (by rw [he]; exact hyt) hzt
    (by rw [vz]; linarith) (by
      rw [he, vz, abs_of_nonneg (by positivity), div_le_iff₀ (by linarith)]
      unfold big
      nlinarith)
  rw [← hY] at near
  have := near.2
  rwa [vz, abs_of_nonneg (a := (F.exp (sub R (X i j) m)).val / z.toReal) (div_nonneg (hpos j).1 (by linarith))] at this

/-- **C103**: the rows sum to 1, up to `1.2 n u`. -/
theorem softmax_sum (h : SoftmaxForward R F X Y) (hX : ∀ i j, (X i j).Finite) (hn : n ≤ 2 ^ 20) (i : Fin B) :
    |∑ j, (Y i j).val - 1| ≤ 1.2 * n * u := by
  obtain ⟨m, e, s, hm, hs, hE, hrel, hY⟩ := row_error h hX hn i
  have hu := u_pos
  have hus := u_small
  have hη := η_pos
  have hn1 : (1 : ℝ) ≤ n := by
    obtain ⟨j, -⟩ := hm.1
    exact_mod_cast (Fin.pos j)
  have hn' : (n : ℝ) ≤ 2 ^ 20 := by exact_mod_cast hn
  have hηu : 2 ^ 30 * η ≤ u := by unfold η u; norm_num
  set E := ∑ r, e r
  have hnu : (n : ℝ) * u ≤ 1 / 16 := by unfold u; linarith
  have h1 : |∑ j, (Y i j).val - E / s| ≤ u * (E / s) + n * η := by
    have : ∑ j, (Y i j).val - E / s = ∑ j, ((Y i j).val - e j / s) := by rw [Finset.sum_sub_distrib, Finset.sum_div]
    rw [this]
    refine (Finset.abs_sum_le_sum_abs _ _).trans ?_
    refine (Finset.sum_le_sum fun j _ => (hY j).2.2.2).trans ?_
    rw [Finset.sum_add_distrib, ← Finset.mul_sum, ← Finset.sum_div]
    simp [E]
  set ρ := 1.07 * (n - 1 + 1 / 1000) * u with hρ
  have hρ0 : 0 ≤ ρ := by rw [hρ]; have : (0 : ℝ) ≤ n - 1 + 1 / 1000 := by linarith
                         positivity
  have hρ1 : ρ ≤ 0.067 := by rw [hρ]; nlinarith
  have hs0 : 0 < s := by linarith
  have hsE : (1 - ρ) * E ≤ s := by nlinarith [(abs_le.1 hrel).1]
  have h2 : |E / s - 1| ≤ 1.072 * ρ := by
    rw [show E / s - 1 = -((s - E) / s) by field_simp; ring, abs_neg, abs_div, abs_of_pos hs0, div_le_iff₀ hs0]
    refine hrel.trans ?_
    have : E ≤ 1.072 * s := by nlinarith
    nlinarith
  have h3 := (abs_le.1 h2).2
  have t := abs_sub_le (∑ j, (Y i j).val) (E / s) 1
  refine t.trans ?_
  have h4 : u * (E / s) ≤ u * 1.072 := mul_le_mul_of_nonneg_left (by nlinarith) hu.le
  have h5 : (n : ℝ) * η ≤ u / 1000 := by nlinarith
  rw [hρ] at h2
  nlinarith

/-- **C103**: each entry differs from the exact softmax by at most `2 (n + 1) u + 3 ε`, if `ε` bounds the relative error of `exp`. -/
theorem softmax_error (h : SoftmaxForward R F X Y) (hX : ∀ i j, (X i j).Finite) (hn : n ≤ 2 ^ 20) {ε : ℝ} (hF : ExpAccurate F ε)
    (hε : 0 ≤ ε) (hε' : ε ≤ 1 / 2 ^ 10) (i : Fin B) (j : Fin n) :
    |(Y i j).val - softmax (fun r => (X i r).val) j| ≤ 2 * (n + 1) * u + 3 * ε := by
  obtain ⟨m, e, s, hm, hs, hE, hrel, hY⟩ := row_error h hX hn i
  have hu := u_pos
  have hus := u_small
  have hη := η_pos
  have hn1 : (1 : ℝ) ≤ n := by exact_mod_cast (Fin.pos j)
  have hn' : (n : ℝ) ≤ 2 ^ 20 := by exact_mod_cast hn
  have hηu : 2 ^ 30 * η ≤ u := by unfold η u; norm_num
  have hmf : m.Finite := by obtain ⟨j, rfl⟩ := hm.1; exact hX i j
  have hnu : (n : ℝ) * u ≤ 1 / 16 := by unfold u; linarith
  set f : Fin n → ℝ := fun r => Real.exp ((X i r).val - m.val) with hf
  have hfpos : ∀ r, 0 < f r := fun r => Real.exp_pos _
  have hsoft : softmax (fun r => (X i r).val) j = f j / ∑ r, f r := by
    have e1 : ∀ r, f r = Real.exp ((X i r).val) * Real.exp (-m.val) := fun r => by rw [hf, ← Real.exp_add]; rfl
    simp only [e1, ← Finset.sum_mul]
    rw [softmax, mul_div_mul_right _ _ (Real.exp_pos _).ne']
  have hef : ∀ r, |e r - f r| ≤ 0.38 * u + 1.001 * ε * f r := fun r => by
    rw [(hY r).2.2.1]
    exact exp_error hF hε (hX i r) hmf (hm.2 r)
  have hsum : |∑ r, e r - ∑ r, f r| ≤ 0.38 * n * u + 1.001 * ε * ∑ r, f r := by
    rw [← Finset.sum_sub_distrib]
    refine (Finset.abs_sum_le_sum_abs _ _).trans ((Finset.sum_le_sum fun r _ => hef r).trans ?_)
    rw [Finset.sum_add_distrib, Finset.sum_const, Finset.card_univ, Fintype.card_fin, nsmul_eq_mul, ← Finset.mul_sum]
    linarith
  have hf1 : 1 ≤ ∑ r, f r := by
    obtain ⟨r, hr⟩ := hm.1
    have : f r = 1 := by rw [hf]; simp [hr]
    rw [← this]
    exact Finset.single_le_sum (fun r _ => (hfpos r).le) (Finset.mem_univ r)
  have hfj : f j ≤ ∑ r, f r := Finset.single_le_sum (fun r _ => (hfpos r).le) (Finset.mem_univ j)
  have hej : e j ≤ ∑ r, e r := Finset.single_le_sum (fun r _ => (hY r).1) (Finset.mem_univ j)
  have hej0 := (hY j).1
  have hYj := (hY j).2.2.2
  have hefj := hef j
  have hfj0 := hfpos j
  rw [hsoft]
  set E := ∑ r, e r
  set G := ∑ r, f r
  have hs0 : 0 < s := by linarith
  have hE0 : 0 < E := by linarith
  have hG0 : 0 < G := by linarith
  set ρ := 1.07 * (n - 1 + 1 / 1000) * u with hρ
  have hρ0 : 0 ≤ ρ := by rw [hρ]; have : (0 : ℝ) ≤ n - 1 + 1 / 1000 := by linarith
                         positivity
  have hρ1 : ρ ≤ 0.067 := by rw [hρ]; nlinarith
  have hEs : E ≤ 1.072 * s := by nlinarith [(abs_le.1 hrel).1]
  -- the division by the rounded sum
  have q0 : e j / E ≤ 1 := by rw [div_le_one hE0]; exact hej
  have q0' : 0 ≤ e j / E := by positivity
  have q1 : |e j / s - e j / E| ≤ 1.072 * ρ := by
    rw [show e j / s - e j / E = e j / E * (-((s - E) / s)) by field_simp; ring, abs_mul, abs_neg, abs_div (s - E), abs_of_pos hs0]
    rw [abs_of_nonneg q0']
    have : |s - E| / s ≤ 1.072 * ρ := by
      rw [div_le_iff₀ hs0]
      refine hrel.trans ?_
      nlinarith
    calc e j / E * (|s - E| / s) ≤ 1 * (1.072 * ρ) := mul_le_mul q0 this (by positivity) (by norm_num)
      _ = _ := one_mul _
  have q2 : e j / s ≤ 1.072 := by
    rw [div_le_iff₀ hs0]
    linarith
  have q3 := quotient_error hE0 hG0 hE hej0 hej hfj0.le hfj hu.le (by linarith) hn1 hε (by norm_num at hε'; linarith) hefj hsum
  have t1 := abs_sub_le (Y i j).val (e j / s) (f j / G)
  have t2 := abs_sub_le (e j / s) (e j / E) (f j / G)
  have t3 : u * (e j / s) ≤ u * 1.072 := mul_le_mul_of_nonneg_left q2 hu.le
  rw [hρ] at q1
  have hnu0 : 0 ≤ n * u := by positivity
  linarith

/-- With the exact `exp`, correctly rounded. -/
theorem libm_accurate : ExpAccurate libm u := by
  intro x hx
  have hu := u_pos
  set w := Real.exp (-x.toReal)
  have hw : 0 < w := Real.exp_pos _
  have hw1 : w ≤ 1 := Real.exp_le_one_iff.2 (by simp)
  have he : libm.exp (.num true x) = .num false (binary32.rd (ENNReal.ofReal w)) := by
    show exp32 (.num true x) = .num false (rd32 (ENNReal.ofReal w))
    simp [exp32, hx, w]
  have := near_num (R := binary32) (s := false) (m := ENNReal.ofReal w) ENNReal.ofReal_ne_top (x := w) (by
    simp [Flt.val, hw.le]) (by rw [abs_of_pos hw]; unfold big; norm_num; linarith)
  rw [he]
  have h2 := this.2
  rwa [abs_of_pos hw] at h2

/-- The gradient of the classification loss in `float`, compared with the exact gradient at the same logits. -/
theorem gradient_at_logits_partial {X P G₀ D : Fin B → Fin n → Flt} {label : Fin B → Fin n} (h : SoftmaxForward R F X P)
    (hX : ∀ i j, (X i j).Finite) (hn : n ≤ 2 ^ 20) (hB : 0 < B) (hB' : B ≤ 2 ^ 24) {ε : ℝ} (hF : ExpAccurate F ε) (hε : 0 ≤ ε)
    (hε' : ε ≤ 1 / 2 ^ 10) (hP : ∀ i, ∃ p : ℝ≥0∞, minNormal ≤ p ∧ P i (label i) = .num false p) (hG₀ : ∀ i j, Zero (G₀ i j))
    (hD : SoftmaxInputGrad R P (lossBackward R P label) G₀ D) (i : Fin B) (j : Fin n) :
    (D i j).Finite ∧ |(D i j).val - (softmax (fun r => (X i r).val) j - if j = label i then 1 else 0) / B| ≤
      (2 * (n + 5) * u + 3 * ε) / B := by
  obtain ⟨h1, h2, -⟩ := gradient_error_partial h hX (hn.trans (by norm_num)) hB hB' hP hG₀ hD i j
  have h3 := softmax_error h hX hn hF hε hε' i j
  have hBr : (0 : ℝ) < B := by exact_mod_cast hB
  refine ⟨h1, ?_⟩
  set c : ℝ := if j = label i then 1 else 0
  have t := abs_sub_le (D i j).val (((P i j).val - c) / B) ((softmax (fun r => (X i r).val) j - c) / B)
  have e : ((P i j).val - c) / B - (softmax (fun r => (X i r).val) j - c) / B = ((P i j).val - softmax (fun r => (X i r).val) j) / B := by
    ring
  rw [e, abs_div, abs_of_pos hBr] at t
  refine t.trans ((add_le_add h2 (div_le_div_of_nonneg_right h3 hBr.le)).trans ?_)
  rw [← add_div]
  refine div_le_div_of_nonneg_right ?_ hBr.le
  linarith

/-- Ten classes: every finite input of `float` as it is. -/
example (X : Fin 3 → Fin 10 → Flt) (hX : ∀ i j, (X i j).Finite) : ∃ Y, SoftmaxForward binary32 libm X Y ∧
    (∀ i, |∑ j, (Y i j).val - 1| ≤ 12 * u) ∧ ∀ i j, |(Y i j).val - softmax (fun r => (X i r).val) j| ≤ 25 * u := by
  obtain ⟨Y, hY⟩ := softmax_exists (R := binary32) (F := libm) hX (by norm_num)
  refine ⟨Y, hY, fun i => ?_, fun i j => ?_⟩
  · have := softmax_sum hY hX (by norm_num) i
    norm_num at this ⊢
    linarith
  · have := softmax_error hY hX (by norm_num) libm_accurate u_pos.le (by unfold u; norm_num) i j
    norm_num at this ⊢
    linarith

end

end

end DW.Props.FloatAccuracyP
