import Verif.Props.FloatImageStep
import Verif.Props.FloatImageBackRun
/-!
# C122: an example

A training step of a convolution, ReLU and a `Linear` layer.
-/

set_option autoImplicit false

namespace DW.Props.FloatImageBackP

open DW.Float DW.Props.FloatDotP DW.Props.FloatAccuracyP DW.Props.FloatNetP DW.Props.FloatImageP DW.Props.FloatGradP DW.Props.FloatSoftmaxP
  DW.Props.FloatLossP DW.Props.FloatActP DW.Props.FloatAdamP DW.Props.FloatAdamStepP
open DW.Props.FloatTrainP hiding tiny slope
open DW.Props.FloatBackP (backLinear weightError biasError FitsLinear lossBounds)
open DW.Spec (Axis)
open scoped ENNReal

noncomputable section

/-- Up to 20, with an error up to 1/10. -/
def Modest (p : Bounds) : Prop := 0 ≤ p.A ∧ p.A ≤ 20 ∧ 0 ≤ p.d ∧ p.d ≤ 1 / 10

theorem power_small {j : ℕ} (hj : j ≤ 9) : 1 ≤ (1 + u) ^ j ∧ (1 + u) ^ j ≤ 1 + 1 / 10 ^ 6 :=
  ⟨one_le_pow₀ (by linarith [u_pos]), (pow_le_pow_right₀ (by linarith [u_pos]) hj).trans (by unfold u; norm_num)⟩

theorem tiny_small {B : ℕ} (hB : B ≤ 4) : gam B ≤ 1 / 10 ^ 6 ∧ tiny B ≤ 1 / 10 ^ 6 :=
  ⟨(gam_mono hB).trans (by unfold gam u; norm_num), (tiny_mono hB).trans (by unfold tiny u η; norm_num)⟩

theorem product_fits {j : ℕ} (hj : j ≤ 9) {y : ℝ} (hy : y ≤ 10 ^ 5) : (1 + u) ^ j * y ≤ big := by
  obtain ⟨h0, h1⟩ := power_small hj
  have h2 := mul_le_mul_of_nonneg_left hy (by linarith : (0 : ℝ) ≤ (1 + u) ^ j)
  have h3 := mul_le_mul_of_nonneg_right h1 (by norm_num : (0 : ℝ) ≤ 10 ^ 5)
  have hbig : (10 ^ 7 : ℝ) ≤ big := by unfold big; norm_num
  linarith

theorem weight_small {B : ℕ} (hB : B ≤ 4) {p e : Bounds} (hp : Modest p) (he : Modest e) :
    0 ≤ weightError B p e ∧ B * (e.A * p.A) + weightError B p e ≤ 10 ^ 4 := by
  obtain ⟨p1, p2, p3, p4⟩ := hp
  obtain ⟨e1, e2, e3, e4⟩ := he
  obtain ⟨g, t⟩ := tiny_small hB
  have g0 := gam_nonneg B
  have t0 := tiny_nonneg B
  have hB' : (B : ℝ) ≤ 4 := by exact_mod_cast hB
  have hB0 : (0 : ℝ) ≤ B := Nat.cast_nonneg B
  have m1 : e.A * p.A ≤ 20 * 20 := mul_le_mul e2 p2 p1 (by norm_num)
  have m2 : e.d * (p.A + p.d) ≤ 1 / 10 * 21 := mul_le_mul e4 (by linarith) (by linarith) (by norm_num)
  have m3 : e.A * p.d ≤ 20 * (1 / 10) := mul_le_mul e2 p4 p3 (by norm_num)
  have m4 : (e.A + e.d) * (p.A + p.d) ≤ 21 * 21 := mul_le_mul (by linarith) (by linarith) (by linarith) (by norm_num)
  have n1 : 0 ≤ e.A * p.A := mul_nonneg e1 p1
  have n2 : 0 ≤ e.d * (p.A + p.d) := mul_nonneg e3 (by linarith)
  have n3 : 0 ≤ e.A * p.d := mul_nonneg e1 p3
  have n4 : 0 ≤ (e.A + e.d) * (p.A + p.d) := mul_nonneg (by linarith) (by linarith)
  have m5 : (B : ℝ) * ((e.A + e.d) * (p.A + p.d)) ≤ 4 * (21 * 21) := mul_le_mul hB' m4 n4 (by norm_num)
  have n5 : 0 ≤ (B : ℝ) * ((e.A + e.d) * (p.A + p.d)) := mul_nonneg hB0 n4
  have m6 : gam B * (B * ((e.A + e.d) * (p.A + p.d))) ≤ 1 / 10 ^ 6 * (4 * (21 * 21)) := mul_le_mul g m5 n5 (by norm_num)
  have n6 : 0 ≤ gam B * (B * ((e.A + e.d) * (p.A + p.d))) := mul_nonneg g0 n5
  have m7 : (B : ℝ) * (e.d * (p.A + p.d) + e.A * p.d) ≤ 4 * 5 := mul_le_mul hB' (by linarith) (by linarith) (by norm_num)
  have n7 : 0 ≤ (B : ℝ) * (e.d * (p.A + p.d) + e.A * p.d) := mul_nonneg hB0 (by linarith)
  have m8 : (B : ℝ) * (e.A * p.A) ≤ 4 * 400 := mul_le_mul hB' (by linarith) n1 (by norm_num)
  unfold weightError
  exact ⟨by linarith, by linarith⟩

theorem bias_small {B : ℕ} (hB : B ≤ 4) {A : ℝ} (hA : A ≤ 10 ^ 4) {e : Bounds} (he : 0 ≤ e.A ∧ 0 ≤ e.d ∧ e.A + e.d ≤ A) :
    0 ≤ biasError B e ∧ B * e.A + biasError B e ≤ 5 * A + 1 := by
  obtain ⟨e1, e2, e3⟩ := he
  obtain ⟨g, t⟩ := power_small (j := B) (by omega)
  have hη := η_pos
  have hηs : η ≤ 1 / 10 ^ 9 := by unfold η; norm_num
  have hB' : (B : ℝ) ≤ 4 := by exact_mod_cast hB
  have hB0 : (0 : ℝ) ≤ B := Nat.cast_nonneg B
  have m1 : (B : ℝ) * (e.A + e.d) ≤ 4 * A := mul_le_mul hB' e3 (by linarith) (by norm_num)
  have n1 : 0 ≤ (B : ℝ) * (e.A + e.d) := mul_nonneg hB0 (by linarith)
  have m2 : ((1 + u) ^ B - 1) * (B * (e.A + e.d)) ≤ 1 / 10 ^ 6 * (4 * A) := mul_le_mul (by linarith) m1 n1 (by norm_num)
  have n2 : 0 ≤ ((1 + u) ^ B - 1) * (B * (e.A + e.d)) := mul_nonneg (by linarith) n1
  have m3 : 2 * (B : ℝ) * η ≤ 2 * 4 * (1 / 10 ^ 9) := mul_le_mul (by linarith) hηs hη.le (by norm_num)
  have n3 : 0 ≤ 2 * (B : ℝ) * η := by positivity
  have m4 : 2 * (B : ℝ) * η * (1 + u) ^ B ≤ 2 * 4 * (1 / 10 ^ 9) * 2 := mul_le_mul m3 (by linarith) (by linarith) (by norm_num)
  have n4 : 0 ≤ 2 * (B : ℝ) * η * (1 + u) ^ B := mul_nonneg n3 (by linarith)
  have n5 : 0 ≤ (B : ℝ) * e.d := mul_nonneg hB0 e2
  have m6 : (B : ℝ) * e.A + B * e.d ≤ 4 * A := by rw [← mul_add]; exact m1
  unfold biasError
  exact ⟨by linarith, by linarith⟩

/-- All weights 1. -/
def full (k n : ℕ) : Fin k → Fin n → Flt := fun _ _ => 1

theorem full_norm (k n : ℕ) [Nonempty (Fin k)] : rowNorm (full k n) = n := by simp [rowNorm, full, val_one]

theorem zero_norm (k : ℕ) [Nonempty (Fin k)] : biasNorm (fun _ : Fin k => (0 : Flt)) = 0 := by simp [biasNorm, val_zero]

theorem full_after {k n : ℕ} [Nonempty (Fin k)] (hn : n ≤ 4) {p : Bounds} (hp : Modest p) :
    (after u u (.linear (full k n) fun _ => 0) p).A = n * p.A ∧ 0 ≤ (after u u (.linear (full k n) fun _ => 0) p).d ∧
      (after u u (.linear (full k n) fun _ => 0) p).d ≤ n * p.d + 1 / 10 ^ 4 ∧ Fits (.linear (full k n) fun _ => 0) p := by
  obtain ⟨p1, p2, p3, p4⟩ := hp
  obtain ⟨g, t⟩ := tiny_small hn
  have g0 := gam_nonneg n
  have t0 := tiny_nonneg n
  have hη := η_pos
  have hηs : η ≤ 1 / 10 ^ 9 := by unfold η; norm_num
  have hn' : (n : ℝ) ≤ 4 := by exact_mod_cast hn
  have hn0 : (0 : ℝ) ≤ n := Nat.cast_nonneg n
  have m1 : (n : ℝ) * (p.A + p.d) ≤ 4 * 21 := mul_le_mul hn' (by linarith) (by linarith) (by norm_num)
  have m0 : 0 ≤ (n : ℝ) * (p.A + p.d) := mul_nonneg hn0 (by linarith)
  have m2 : gam n * ((n : ℝ) * (p.A + p.d)) ≤ 1 / 10 ^ 6 * (4 * 21) := mul_le_mul g m1 m0 (by norm_num)
  have m3 : 0 ≤ gam n * ((n : ℝ) * (p.A + p.d)) := mul_nonneg g0 m0
  have m5 : 0 ≤ (n : ℝ) * p.d := mul_nonneg hn0 p3
  have m6 : 3 * (n : ℝ) * η ≤ 3 * 4 * (1 / 10 ^ 9) := mul_le_mul (by linarith) hηs hη.le (by norm_num)
  refine ⟨?_, ?_, ?_, fun _ _ => finite_one, fun _ => finite_zero, ?_⟩
  · simp only [after, full_norm, zero_norm, add_zero]
  · simp only [after, full_norm, zero_norm, add_zero]; linarith
  · simp only [after, full_norm, zero_norm, add_zero]; linarith
  · rw [full_norm, zero_norm]
    exact product_fits (by omega) (by linarith)

theorem full_back {k n : ℕ} [Nonempty (Fin n)] (hk : k ≤ 4) {e : Bounds} (he : Modest e) :
    (backLinear (full k n) e).A = k * e.A ∧ 0 ≤ (backLinear (full k n) e).d ∧ (backLinear (full k n) e).d ≤ k * e.d + 1 / 10 ^ 4 := by
  have := full_after (k := n) hk he
  simp only [after, full_norm, zero_norm, add_zero] at this
  have e' : rowNorm (fun r j => full k n j r) = k := full_norm n k
  simp only [backLinear, e']
  exact ⟨this.1, this.2.1, this.2.2.1⟩

theorem full_fits {k n B : ℕ} [Nonempty (Fin n)] (hk : k ≤ 4) (hB : B ≤ 4) {p e : Bounds} (hp : Modest p) (he : Modest e) : FitsLinear B (full k n) p e := by
  obtain ⟨p1, p2, p3, p4⟩ := hp
  obtain ⟨e1, e2, e3, e4⟩ := he
  have hη := η_pos
  have hηs : η ≤ 1 / 10 ^ 9 := by unfold η; norm_num
  have hk' : (k : ℝ) ≤ 4 := by exact_mod_cast hk
  have hB' : (B : ℝ) ≤ 4 := by exact_mod_cast hB
  have e' : rowNorm (fun r j => full k n j r) = k := full_norm n k
  have m4 : (e.A + e.d) * (p.A + p.d) ≤ 21 * 21 := mul_le_mul (by linarith) (by linarith) (by linarith) (by norm_num)
  have n4 : 0 ≤ (e.A + e.d) * (p.A + p.d) := mul_nonneg (by linarith) (by linarith)
  have m5 : (B : ℝ) * ((e.A + e.d) * (p.A + p.d)) ≤ 4 * (21 * 21) := mul_le_mul hB' m4 n4 (by norm_num)
  have m1 : (k : ℝ) * (e.A + e.d) ≤ 4 * 21 := mul_le_mul hk' (by linarith) (by linarith) (by norm_num)
  have m2 : (B : ℝ) * (e.A + e.d) ≤ 4 * 21 := mul_le_mul hB' (by linarith) (by linarith) (by norm_num)
  have m6 : 3 * (k : ℝ) * η ≤ 3 * 4 * (1 / 10 ^ 9) := mul_le_mul (by linarith) hηs hη.le (by norm_num)
  have m7 : 3 * (B : ℝ) * η ≤ 3 * 4 * (1 / 10 ^ 9) := mul_le_mul (by linarith) hηs hη.le (by norm_num)
  have m8 : 2 * (B : ℝ) * η ≤ 2 * 4 * (1 / 10 ^ 9) := mul_le_mul (by linarith) hηs hη.le (by norm_num)
  refine ⟨?_, product_fits (by omega) (by linarith), product_fits (by omega) (by linarith)⟩
  rw [e']
  exact product_fits (by omega) (by linarith)

/-- A parameter 0 or 1 and a gradient up to a million. -/
def Tame (e : Bounds) (w : Flt) : Prop := (w = 0 ∨ w = 1) ∧ e.A + e.d ≤ 10 ^ 6

theorem Tame.param {e : Bounds} {w : Flt} (h : Tame e w) : w.Finite ∧ |w.val| ≤ 1 := by
  rcases h.1 with rfl | rfl
  · exact ⟨finite_zero, by rw [val_zero, abs_zero]; exact zero_le_one⟩
  · exact ⟨finite_one, by rw [val_one, abs_one]⟩

theorem Tame.small {e : Bounds} {w : Flt} (h : Tame e w) : Small (1 : Flt).val e w := by
  have big : (10 ^ 6 : ℝ) ≤ 2 ^ 125 := by norm_num
  have h1 := h.param.2
  have h2 := h.2
  rw [Small, val_one, abs_one, one_mul]
  exact ⟨by linarith, by linarith⟩

theorem FitsEach.mono {N : ℕ} {ε ρ : ℝ} {H H' : Bounds → Flt → Prop} (hH : ∀ e w, H e w → H' e w) {s t : Sh} (f : ImgNet s t) {p e : Bounds}
    (h : FitsEach N ε ρ H f p e) : FitsEach N ε ρ H' f p e := by
  induction f generalizing p e with
  | linear W b => exact ⟨fun j r => hH _ _ (h.1 j r), fun j => hH _ _ (h.2 j)⟩
  | conv a b W v => exact ⟨fun j r => hH _ _ (h.1 j r), fun j => hH _ _ (h.2 j)⟩
  | seq f g ihf ihg => exact ⟨ihf h.1, ihg h.2⟩
  | join f g ihf ihg => exact ⟨ihf h.1, ihg h.2⟩
  | skip => trivial
  | act => trivial
  | maxPool => trivial
  | avgPool => trivial
  | flat => trivial

/-- A convolution with one weight 1, ReLU, and `Linear` with 4 inputs, 2 outputs and weights 1. -/
def classify : ImgNet (.img 1 2 2) (.vec 2) :=
  .seq (.conv two two (full 1 1) fun _ => 0) (.seq (.act .relu) (.seq .flat (.linear (full 2 4) fun _ => 0)))

/-- For the image with three elements 1 and one 2, everything that C122 asks of the passes holds, and the gradients are not large. -/
theorem classify_learnable : Learnable libm sqrtLib u u u (fun _ : Fin 1 => picture) classify 2 ∧
    FitsEach 1 u u Tame classify ⟨2, 0⟩ (lossBounds 1 2 u (after' u u classify.net ⟨2, 0⟩).d) := by
  have hu := u_pos
  have hus := u_small
  have hη := η_pos
  have hηs : η ≤ 1 / 10 ^ 9 := by unfold η; norm_num
  have c1 : ((1 : ℕ) : ℝ) = 1 := Nat.cast_one
  have c2 : ((2 : ℕ) : ℝ) = 2 := by norm_num
  have c4 : ((4 : ℕ) : ℝ) = 4 := by norm_num
  set p0 : Bounds := ⟨2, 0⟩ with hp0
  have m0 : Modest p0 := ⟨by norm_num [hp0], by norm_num [hp0], le_rfl, by norm_num [hp0]⟩
  set p1 := after u u (.linear (full 1 1) fun _ => 0) p0 with hp1
  obtain ⟨a1, a2, a3, a4⟩ := full_after (k := 1) (n := 1) (by norm_num) m0
  rw [← hp1] at a1 a2 a3
  rw [c1, one_mul] at a1 a3
  have a1' : p1.A = 2 := a1
  have a3' : p1.d ≤ 1 / 10 ^ 4 := a3.trans (by show (0 : ℝ) + 1 / 10 ^ 4 ≤ _; norm_num)
  have m1 : Modest p1 := ⟨by linarith, by linarith, a2, by linarith⟩
  set p2 := after u u (.linear (full 2 4) fun _ => 0) p1 with hp2
  obtain ⟨b1, b2, b3, b4⟩ := full_after (k := 2) (n := 4) le_rfl m1
  rw [← hp2] at b1 b2 b3
  rw [c4] at b1 b3
  have hnet : after' u u classify.net p0 = p2 := rfl
  set e0 := lossBounds 1 2 u p2.d with he0
  have d1 : e0.A = 1 := by rw [he0]; simp [lossBounds]
  have d2 : e0.d = 17 * u + 3 * p2.d := by rw [he0]; simp only [lossBounds]; push_cast; ring
  have n0 : Modest e0 := ⟨by linarith, by linarith, by linarith, by linarith⟩
  set e1 := backLinear (full 2 4) e0 with he1
  obtain ⟨f1, f2, f3⟩ := full_back (k := 2) (n := 4) (by norm_num) n0
  rw [← he1] at f1 f2 f3
  rw [c2] at f1 f3
  have n1 : Modest e1 := ⟨by linarith, by linarith, f2, by linarith⟩
  have w4 := weight_small (B := 4) le_rfl m0 n1
  have w1 := weight_small (B := 1) (by norm_num) m1 n0
  have v4 := bias_small (B := 4) le_rfl (A := 21) (by norm_num) (e := e1) ⟨by linarith, f2, by linarith⟩
  have v1 := bias_small (B := 1) (by norm_num) (A := 21) (by norm_num) (e := e0) ⟨by linarith, by linarith, by linarith⟩
  have W0 : 0 ≤ (convWeight 4 p0 e1).A := mul_nonneg (Nat.cast_nonneg _) (mul_nonneg (by linarith) m0.1)
  have V0 : 0 ≤ (convBias 4 e1).A := mul_nonneg (Nat.cast_nonneg _) (by linarith)
  have W4 := bias_small (B := 1) (by norm_num) (A := 10 ^ 4) le_rfl (e := convWeight 4 p0 e1) ⟨W0, w4.1, w4.2⟩
  have V4 := bias_small (B := 1) (by norm_num) (A := 10 ^ 4) le_rfl (e := convBias 4 e1) ⟨V0, v4.1, v4.2.trans (by norm_num)⟩
  have fs : ∀ e : Bounds, e.A + e.d ≤ 10 ^ 4 → FitsSum 1 e := fun e h => by
    unfold FitsSum
    rw [c1]
    exact product_fits (by norm_num) (by linarith)
  have conv_val : ∀ i, net (.conv two two (full 1 1) fun _ => 0) (fun i => (picture i).val) i = (picture i).val := fun i => conv_id _ i
  have pos : ∀ i, 1 ≤ (picture i).val := fun i => by rw [picture_val]; split_ifs <;> norm_num
  refine ⟨
    { accurate := ⟨libm_full, hu.le, hus.trans (by norm_num), sqrtLib_near, hu.le, hus.trans (by norm_num)⟩
      fill := fltMin_isFloat
      log := libm_log
      log_nonneg := hu.le
      log_le := hus.trans (by norm_num)
      batch_le := by norm_num
      classes := by norm_num
      inputs := fun _ => picture_close
      forward := ⟨a4, trivial, trivial, b4⟩
      outputs := ?_
      errors := ?_
      backward := ⟨⟨⟨?_, Or.inl le_rfl, trivial⟩, Or.inl le_rfl, trivial⟩, Or.inl le_rfl, ?_⟩
      smooth := ⟨trivial, Or.inr fun n i => Or.inl ?_, trivial, trivial⟩
      clear := ⟨trivial, Or.inr fun n i => ?_, trivial, trivial⟩ }, ?_, trivial, trivial, ?_⟩
  · show p2.A + p2.d ≤ 31
    linarith
  · show p2.d ≤ 1 / 4
    linarith
  · exact full_fits (k := 2) (n := 4) (B := 1) (by norm_num) (by norm_num) m1 n0
  · exact ⟨⟨Nat.one_pos, Nat.one_pos⟩, full_fits (k := 1) (n := 1) (B := 4) (by norm_num) le_rfl m0 n1, fs (convWeight 4 p0 e1) w4.2,
      fs (convBias 4 e1) (v4.2.trans (by norm_num))⟩
  · exact ne_of_gt (lt_of_lt_of_eq (by linarith [pos i]) (conv_val i).symm)
  · refine lt_of_lt_of_eq ?_ (congrArg abs (conv_val i)).symm
    rw [abs_of_nonneg (by linarith [pos i])]
    exact lt_of_le_of_lt a3' (by linarith [pos i])
  · exact ⟨fun _ _ => (⟨Or.inr rfl, W4.2.trans (by norm_num)⟩ : Tame (convBias 1 (convWeight 4 p0 e1)) 1),
      fun _ => (⟨Or.inl rfl, V4.2.trans (by norm_num)⟩ : Tame (convBias 1 (convBias 4 e1)) 0)⟩
  · exact ⟨fun _ _ => (⟨Or.inr rfl, w1.2.trans (by norm_num)⟩ : Tame (convWeight 1 p1 e0) 1),
      fun _ => (⟨Or.inl rfl, v1.2.trans (by norm_num)⟩ : Tame (convBias 1 e0) 0)⟩

/-- With learning rate 1, everything C122 asks for holds. -/
theorem classify_trainable : Trainable libm sqrtLib u u u 1 (fun _ : Fin 1 => picture) classify 2 :=
  { classify_learnable.1 with rate := finite_one, step := classify_learnable.2.mono (fun _ _ h => h.small) classify }

/-- A training step of this network: there are such iterations, and after each the loss and the parameters are finite and near the exact ones. -/
example (label : Fin 1 → Fin 2) : ∃ loss f', classify.Iteration binary32 libm 1 (fun _ : Fin 1 => picture) label loss f' ∧ loss.Finite ∧
    |loss.val - netLoss classify (values classify) (fun _ : Fin 1 => fun i => (picture i).val) label| ≤ 1 / 100 ∧
    ∃ P₀, IsLossGradient classify (fun _ : Fin 1 => fun i => (picture i).val) label P₀ ∧
      ImgStepNear 1 u u (1 : Flt).val classify ⟨2, 0⟩ (lossBounds 1 2 u (after' u u classify.net ⟨2, 0⟩).d) P₀ f' := by
  have hT := classify_trainable
  obtain ⟨loss, f', h⟩ := iteration_exists hT ⟨Nat.one_pos, trivial, trivial, by show 0 < 4; norm_num⟩
    ⟨⟨Nat.one_pos, by show 0 < 2 * 2; norm_num⟩, trivial, trivial, by show 0 < 2; norm_num⟩ (by norm_num) label
  obtain ⟨⟨r1, r2⟩, r3⟩ := image_step hT h
  refine ⟨loss, f', h, r1, r2.trans ?_, r3⟩
  have hus := u_small
  obtain ⟨a1, a2, a3, -⟩ := full_after (k := 1) (n := 1) (p := ⟨2, 0⟩) (by norm_num) ⟨by norm_num, by norm_num, le_rfl, by norm_num⟩
  obtain ⟨-, -, b3, -⟩ := full_after (k := 2) (n := 4) (p := after u u (.linear (full 1 1) fun _ => 0) ⟨2, 0⟩) le_rfl
    ⟨by rw [a1]; norm_num, by rw [a1]; norm_num, a2, by norm_num at a3 ⊢; linarith⟩
  have b : (after' u u classify.net ⟨2, 0⟩).d ≤ 4 * (1 * 0 + 1 / 10 ^ 4) + 1 / 10 ^ 4 := by
    refine le_trans (show _ ≤ ((4 : ℕ) : ℝ) * (after u u (.linear (full 1 1) fun _ => 0) ⟨2, 0⟩).d + 1 / 10 ^ 4 from b3) ?_
    rw [Nat.cast_one] at a3
    rw [show ((4 : ℕ) : ℝ) = 4 by norm_num]
    linarith
  rw [Nat.cast_one, show ((2 : ℕ) : ℝ) = 2 by norm_num]
  linarith

end

end DW.Props.FloatImageBackP
