import Verif.Props.FloatImageBack
/-!
# C121: an example

The gradients of a residual block with a convolution, followed by max pooling.
-/

set_option autoImplicit false

namespace DW.Props.FloatImageBackP

open DW.Float DW.Props.FloatDotP DW.Props.FloatAccuracyP DW.Props.FloatNetP DW.Props.FloatImageP DW.Props.FloatGradP DW.Props.FloatSoftmaxP
  DW.Props.FloatLossP DW.Props.FloatActP DW.Props.FloatAdamP DW.Props.FloatAdamStepP
open DW.Props.FloatTrainP hiding tiny slope
open DW.Props.FloatBackP (slope backLinear backAct weightError biasError FitsLinear FitsAct)
open DW.Spec (Axis)
open DW.FlatL (pair)
open scoped ENNReal

noncomputable section

/-- One window of two elements. -/
def both : Axis := ⟨2, 2, 0, 1, 1, 1⟩

/-- A weight. -/
def ones : Fin 1 → Fin (1 * (two.kernel * two.kernel)) → Flt := fun _ _ => 1

/-- `x + ReLU(conv(x))` on an image of 2 by 2 elements with the weight 1. -/
def inner : ImgNet (.img 1 2 2) (.img 1 2 2) :=
  .join .skip (.seq (.conv two two ones fun _ => 0) (.act .relu))

/-- The largest element of that. -/
def tower : ImgNet (.img 1 2 2) (.img 1 1 1) := .seq inner (.maxPool both both)

theorem conv_id (T : Fin 1 × Fin 2 × Fin 2 → ℝ) (i : Fin 1 × Fin 2 × Fin 2) :
    net (.conv two two ones fun _ => 0) T i = T i := by
  obtain ⟨c, r, s⟩ := i
  have hr := r.isLt
  have hs := s.isLt
  have hc : c = 0 := Subsingleton.elim _ _
  subst hc
  simp only [net, Spec.conv, ones, val_one, val_zero]
  show 0 + ∑ c : Fin 1, ∑ kh : Fin 1, ∑ kw : Fin 1, 1 * Spec.pixel (fun (y : Fin 2) (x : Fin 2) => T (c, y, x)) 0 (two.pos r kh) (two.pos s kw) = T (0, r, s)
  simp only [Fin.sum_univ_one, zero_add, one_mul]
  unfold Spec.pixel Axis.pos two
  rw [dif_pos (by simp; omega)]
  refine congrArg T (Prod.ext rfl (Prod.ext (Fin.ext ?_) (Fin.ext ?_))) <;> simp

theorem inner_net (T : Fin 1 × Fin 2 × Fin 2 → ℝ) (i : Fin 1 × Fin 2 × Fin 2) : net inner.net T i = T i + max 0 (T i) :=
  congrArg (fun z => T i + max 0 z) (conv_id T i)

theorem both_col (Z : Fin 1 × Fin 2 × Fin 2 → ℝ) (c : Fin 1) (p : Fin (1 * 1)) (t : Fin (2 * 2)) :
    poolCol both both Z floatMin c p t = Z (c, t.divNat, t.modNat) := by
  have h1 : (p.divNat : ℕ) = 0 := by have := p.divNat.isLt; omega
  have h2 : (p.modNat : ℕ) = 0 := by have := p.modNat.isLt; omega
  have h3 := t.divNat.isLt
  have h4 := t.modNat.isLt
  show Spec.pixel (fun y x => Z (c, y, x)) floatMin (both.pos (p.divNat : ℕ) (t.divNat : ℕ)) (both.pos (p.modNat : ℕ) (t.modNat : ℕ)) = _
  rw [h1, h2]
  unfold Spec.pixel Axis.pos both
  rw [dif_pos (by simp; omega)]
  refine congrArg Z (Prod.ext rfl (Prod.ext (Fin.ext ?_) (Fin.ext ?_))) <;> simp <;> omega

/-- The bounds of the inner part for inputs up to 2, and of its gradients for a gradient up to 4 with an error `S`. -/
theorem inner_fits : Fits' u u inner.net ⟨2, 0⟩ ∧ (after' u u inner.net ⟨2, 0⟩).d ≤ 1 / 10 ^ 4 ∧
    (after' u u (.conv two two ones fun _ => 0) ⟨2, 0⟩).d ≤ 1 / 10 ^ 4 ∧
    ∀ S, 0 ≤ S → S ≤ 1 / 10 ^ 5 → FitsImgBack 1 u u inner ⟨2, 0⟩ ⟨4, S⟩ ∧ FitsHeap (heap u u inner ⟨2, 0⟩ ⟨4, S⟩) ∧
      (settle (heap u u inner ⟨2, 0⟩ ⟨4, S⟩)).d ≤ 1 / 10 ^ 4 := by
  have hu := u_pos
  have hη := η_pos
  have hN : rowNorm ones = 1 := by
    show (⨆ _ : Fin 1, ∑ _ : Fin 1, |(1 : Flt).val|) = 1
    simp [val_one]
  have hN' : rowNorm (fun r j => ones j r) = 1 := by
    show (⨆ _ : Fin 1, ∑ _ : Fin 1, |(1 : Flt).val|) = 1
    simp [val_one]
  have hβ : biasNorm (fun _ : Fin 1 => (0 : Flt)) = 0 := by simp [biasNorm, val_zero]
  have e2 : (1 + u) ^ 2 ≤ 1 + 1 / 10 ^ 6 := by unfold u; norm_num
  have e3 : (1 + u) ^ 3 ≤ 1 + 1 / 10 ^ 6 := by unfold u; norm_num
  have e9 : (1 + u) ^ 9 ≤ 1 + 1 / 10 ^ 6 := by unfold u; norm_num
  have e4 : (1 + u) ^ 4 ≤ 1 + 1 / 10 ^ 6 := by unfold u; norm_num
  have p2 : 1 ≤ (1 + u) ^ 2 := one_le_pow₀ (by linarith)
  have p3 : 1 ≤ (1 + u) ^ 3 := one_le_pow₀ (by linarith)
  have p4 : 1 ≤ (1 + u) ^ 4 := one_le_pow₀ (by linarith)
  have p9 : 1 ≤ (1 + u) ^ 9 := one_le_pow₀ (by linarith)
  have hus := u_small
  have hηs : η ≤ 1 / 10 ^ 9 := by unfold η; norm_num
  have hbig : (10 ^ 6 : ℝ) ≤ big := by unfold big; norm_num
  have c4 : ((4 : ℕ) : ℝ) = 4 := by norm_num
  have c2 : ((2 : ℕ) : ℝ) = 2 := by norm_num
  have g1 : gam 1 ≤ 1 / 10 ^ 6 := by show (1 + u) ^ 3 - 1 ≤ _; linarith
  have g10 := gam_nonneg 1
  have g4 : gam 4 ≤ 1 / 10 ^ 6 := by show (1 + u) ^ 9 - 1 ≤ _; linarith
  have g40 := gam_nonneg 4
  have t1 : tiny 1 ≤ 1 / 10 ^ 6 := by
    show 3 * ((1 : ℕ) : ℝ) * η * (1 + u) ^ 3 ≤ _
    rw [Nat.cast_one, mul_one]
    have : 3 * η * (1 + u) ^ 3 ≤ 3 * η * 2 := mul_le_mul_of_nonneg_left (by linarith) (by positivity)
    linarith
  have t10 := tiny_nonneg 1
  have t4 : tiny 4 ≤ 1 / 10 ^ 6 := by
    show 3 * ((4 : ℕ) : ℝ) * η * (1 + u) ^ 9 ≤ _
    have : 3 * ((4 : ℕ) : ℝ) * η * (1 + u) ^ 9 ≤ 3 * ((4 : ℕ) : ℝ) * η * 2 := mul_le_mul_of_nonneg_left (by linarith) (by positivity)
    norm_num at this ⊢
    linarith
  have t40 := tiny_nonneg 4
  have hC : after u u (.linear ones fun _ => 0) ⟨2, 0⟩ = ⟨2, gam 1 * 2 + tiny 1⟩ := by
    simp only [after, hN, hβ]
    show (⟨_, _⟩ : Bounds) = _
    congr 1
    · ring
    · show 1 * 0 + gam 1 * (1 * (2 + 0) + 0) + tiny 1 = _
      ring
  set D := gam 1 * 2 + tiny 1 with hD
  have hD0 : 0 ≤ D := by linarith
  have hD1 : D ≤ 3 / 10 ^ 6 := by linarith
  have hJ : after' u u inner.net ⟨2, 0⟩ = ⟨4, D + u * (4 + D) + η⟩ := by
    simp only [inner, ImgNet.net, after']
    rw [hC]
    simp only [actLayer, after]
    congr 1 <;> ring
  have huD : u * (4 + D) ≤ 1 / 10 ^ 5 := by
    have := mul_le_mul hus (by linarith : 4 + D ≤ 5) (by linarith) (by norm_num)
    linarith
  refine ⟨⟨trivial, ⟨⟨fun _ _ => finite_one, fun _ => finite_zero, ?_⟩, trivial⟩, ?_⟩, ?_, ?_, fun S hS hS1 => ?_⟩
  · rw [hN, hβ]
    show (1 + u) ^ 3 * (1 * (2 + 0) + 0 + 3 * ((1 : ℕ) : ℝ) * η) ≤ big
    rw [Nat.cast_one]
    have := mul_le_mul (by linarith : (1 + u) ^ 3 ≤ 2) (by linarith : 1 * (2 + 0) + 0 + 3 * 1 * η ≤ 3) (by positivity) (by norm_num)
    linarith
  · simp only [after', ImgNet.net]
    rw [hC]
    simp only [actLayer, after]
    linarith
  · rw [hJ]
    show D + u * (4 + D) + η ≤ _
    linarith
  · simp only [after']
    rw [hC]
    show D ≤ _
    linarith
  have hB : backLinear ones ⟨4, S⟩ = ⟨4, S + gam 1 * (4 + S) + tiny 1⟩ := by
    simp only [backLinear, hN', one_mul]
  have gS : gam 1 * (4 + S) ≤ 5 / 10 ^ 6 := by
    have := mul_le_mul g1 (by linarith : 4 + S ≤ 5) (by linarith) (by norm_num)
    linarith
  have gS0 : 0 ≤ gam 1 * (4 + S) := by positivity
  have hrelu : settle (heap u u (.act (s := .img 1 2 2) .relu) (after' u u (.conv two two ones fun _ => 0) ⟨2, 0⟩) ⟨4, S⟩) = ⟨4, S⟩ := rfl
  have hH : heap u u inner ⟨2, 0⟩ ⟨4, S⟩ = (single ⟨4, S⟩).plus (spread 1 ⟨4, S + gam 1 * (4 + S) + tiny 1⟩) := by
    rw [← hB]
    rfl
  refine ⟨⟨trivial, trivial, Or.inl le_rfl, ?_⟩, ?_, ?_⟩
  · change FitsImgBack 1 u u (.conv two two ones fun _ => 0) ⟨2, 0⟩ ⟨4, S⟩
    have hw : weightError 4 ⟨2, 0⟩ ⟨4, S⟩ ≤ 1 := by
      show ((4 : ℕ) : ℝ) * (S * (2 + 0) + 4 * 0) + gam 4 * (((4 : ℕ) : ℝ) * ((4 + S) * (2 + 0))) + tiny 4 ≤ 1
      rw [c4]
      have := mul_le_mul g4 (by linarith : 4 * ((4 + S) * (2 + 0)) ≤ 40) (by linarith) (by norm_num)
      linarith
    have hv : biasError 4 ⟨4, S⟩ ≤ 1 := by
      show ((4 : ℕ) : ℝ) * S + ((1 + u) ^ 4 - 1) * (((4 : ℕ) : ℝ) * (4 + S)) + 2 * ((4 : ℕ) : ℝ) * η * (1 + u) ^ 4 ≤ 1
      rw [c4]
      have h1 := mul_le_mul (by linarith : (1 + u) ^ 4 - 1 ≤ 1 / 10 ^ 6) (by linarith : 4 * (4 + S) ≤ 20) (by linarith) (by norm_num)
      have h2 := mul_le_mul (by linarith : 2 * 4 * η ≤ 1 / 10 ^ 6) (by linarith : (1 + u) ^ 4 ≤ 2) (by positivity) (by norm_num)
      linarith
    have ok : ∀ {x y : ℝ}, 0 ≤ x → x ≤ 2 → y ≤ 1000 → x * y ≤ big := fun {x y} h0 h1 h2 => by
      have h3 := mul_le_mul_of_nonneg_left h2 h0
      linarith
    refine ⟨⟨Nat.one_pos, Nat.one_pos⟩, ⟨?_, ?_, ?_⟩, ?_, ?_⟩
    · rw [hN']
      show (1 + u) ^ 3 * (1 * (4 + S) + 3 * ((1 : ℕ) : ℝ) * η) ≤ big
      rw [Nat.cast_one]
      exact ok (by linarith) (by linarith) (by linarith)
    · show (1 + u) ^ 9 * (((4 : ℕ) : ℝ) * ((4 + S) * (2 + 0)) + 3 * ((4 : ℕ) : ℝ) * η) ≤ big
      rw [c4]
      exact ok (by linarith) (by linarith) (by linarith)
    · show (1 + u) ^ 4 * (((4 : ℕ) : ℝ) * (4 + S) + 2 * ((4 : ℕ) : ℝ) * η) ≤ big
      rw [c4]
      exact ok (by linarith) (by linarith) (by linarith)
    · show (1 + u) ^ 1 * (((1 : ℕ) : ℝ) * (((4 : ℕ) : ℝ) * (4 * 2) + weightError 4 ⟨2, 0⟩ ⟨4, S⟩) + 2 * ((1 : ℕ) : ℝ) * η) ≤ big
      rw [c4, Nat.cast_one, pow_one]
      exact ok (by linarith) (by linarith) (by linarith)
    · show (1 + u) ^ 1 * (((1 : ℕ) : ℝ) * (((4 : ℕ) : ℝ) * 4 + biasError 4 ⟨4, S⟩) + 2 * ((1 : ℕ) : ℝ) * η) ≤ big
      rw [c4, Nat.cast_one, pow_one]
      exact ok (by linarith) (by linarith) (by linarith)
  · rw [hH]
    right
    show (1 + u) ^ 2 * (4 + S + ((1 : ℕ) : ℝ) * (4 + (S + gam 1 * (4 + S) + tiny 1)) + 2 * ((2 : ℕ) : ℝ) * η) ≤ big
    rw [c2, Nat.cast_one]
    have h3 := mul_le_mul (by linarith : (1 + u) ^ 2 ≤ 2) (by linarith : 4 + S + 1 * (4 + (S + gam 1 * (4 + S) + tiny 1)) + 2 * 2 * η ≤ 100)
      (by positivity) (by norm_num)
    linarith
  · rw [hH]
    show S + ((1 : ℕ) : ℝ) * (S + gam 1 * (4 + S) + tiny 1) + ((1 + u) ^ 2 - 1) * (4 + S + ((1 : ℕ) : ℝ) * (4 + (S + gam 1 * (4 + S) + tiny 1))) +
      2 * ((2 : ℕ) : ℝ) * η * (1 + u) ^ 2 ≤ 1 / 10 ^ 4
    rw [c2, Nat.cast_one]
    have h1 := mul_le_mul (by linarith : (1 + u) ^ 2 - 1 ≤ 1 / 10 ^ 6) (by linarith : 4 + S + 1 * (4 + (S + gam 1 * (4 + S) + tiny 1)) ≤ 10)
      (by positivity) (by norm_num)
    have h2 := mul_le_mul (by linarith : 2 * 2 * η ≤ 1 / 10 ^ 6) (by linarith : (1 + u) ^ 2 ≤ 2) (by positivity) (by norm_num)
    linarith

/-- The last element of the window. -/
def last : Fin (both.kernel * both.kernel) := ⟨3, by decide⟩

/-- An image with three elements 1 and one 2. -/
def picture (i : Fin 1 × Fin 2 × Fin 2) : Flt := if i = (0, 1, 1) then .num false 2 else 1

theorem picture_val (i : Fin 1 × Fin 2 × Fin 2) : (picture i).val = if i = (0, 1, 1) then 2 else 1 := by
  unfold picture
  split_ifs
  · simp [Flt.val]
  · exact val_one

theorem picture_close : Close binary32 picture (fun i => (picture i).val) ⟨2, 0⟩ := by
  have two : IsFloat binary32 (.num false 2) := by
    have := binary32.exact 1 1 (by norm_num) (by norm_num)
    rw [pow_one, Nat.cast_one, one_mul] at this
    exact this
  have one : IsFloat binary32 1 := by
    have := binary32.exact 1 0 (by norm_num) (by norm_num)
    rw [pow_zero, mul_one, Nat.cast_one] at this
    exact this
  refine inputs_close (fun i => ?_) (fun i => ?_) (by norm_num) fun i => ?_
  · unfold picture
    split_ifs
    · show (2 : ℝ≥0∞) ≠ ⊤
      norm_num
    · exact finite_one
  · unfold picture
    split_ifs
    · exact two
    · exact one
  · rw [picture_val]
    split_ifs <;> norm_num

/-- The gradients of the largest element of `x + ReLU(conv(x))`: the program computes some, and they are within 0.0001 of the exact ones. -/
example : ∃ Y D g D₀ P₀, tower.Gradients binary32 libm (fun _ : Fin 1 => picture) Y (fun _ _ => 1) D g ∧
    IsGradient tower (fun _ : Fin 1 => fun i => (picture i).val) (fun _ _ => 1) D₀ P₀ ∧ ∀ n i, (D n i).Finite ∧ |(D n i).val - D₀ n i| ≤ 1 / 10 ^ 4 := by
  have hu := u_pos
  have hη := η_pos
  have hus := u_small
  have hL : Accurate libm sqrtLib u u := ⟨libm_full, u_pos.le, hus.trans (by norm_num), sqrtLib_near, u_pos.le, hus.trans (by norm_num)⟩
  have one : IsFloat binary32 1 := by
    have := binary32.exact 1 0 (by norm_num) (by norm_num)
    rw [pow_zero, mul_one, Nat.cast_one] at this
    exact this
  have hG : ∀ _ : Fin 1, Close binary32 (fun _ : Fin 1 × Fin 1 × Fin 1 => (1 : Flt)) (fun _ => 1) ⟨1, 0⟩ := fun _ =>
    ⟨⟨zero_le_one, le_rfl⟩, fun _ => finite_one, fun _ => one, fun _ => by rw [abs_one], fun _ => by rw [val_one, sub_self, abs_zero]⟩
  obtain ⟨f1, f2, f3, f4⟩ := inner_fits
  have hf : Fits' u u tower.net ⟨2, 0⟩ := ⟨f1, trivial⟩
  -- the gradient after max pooling
  have e4 : (1 + u) ^ 4 ≤ 1 + 1 / 10 ^ 6 := by unfold u; norm_num
  have p4 : 1 ≤ (1 + u) ^ 4 := one_le_pow₀ (by linarith)
  have hηs : η ≤ 1 / 10 ^ 9 := by unfold η; norm_num
  have hbig : (10 ^ 6 : ℝ) ≤ big := by unfold big; norm_num
  have c4 : ((4 : ℕ) : ℝ) = 4 := by norm_num
  set S := ((1 + u) ^ 4 - 1) * 4 + 8 * η * (1 + u) ^ 4 with hS
  have hpool : settle (heap u u (.maxPool (C := 1) both both) (after' u u inner.net ⟨2, 0⟩) ⟨1, 0⟩) = ⟨4, S⟩ := by
    show (⟨((4 : ℕ) : ℝ) * 1, ((4 : ℕ) : ℝ) * 0 + ((1 + u) ^ 4 - 1) * (((4 : ℕ) : ℝ) * (1 + 0)) + 2 * ((4 : ℕ) : ℝ) * η * (1 + u) ^ 4⟩ : Bounds) = _
    rw [c4]
    congr 1 <;> ring
  have hS0 : 0 ≤ S := by
    have : 0 ≤ (1 + u) ^ 4 - 1 := by linarith
    positivity
  have hS1 : S ≤ 1 / 10 ^ 5 := by
    have := mul_le_mul (by linarith : 8 * η ≤ 1 / 10 ^ 6) (by linarith : (1 + u) ^ 4 ≤ 2) (by positivity) (by norm_num)
    linarith
  obtain ⟨k1, k2, k3⟩ := f4 S hS0 hS1
  have hb : FitsImgBack 1 u u tower ⟨2, 0⟩ ⟨1, 0⟩ := by
    refine ⟨⟨Nat.one_pos, Nat.one_pos⟩, Or.inr ?_, hpool ▸ k1⟩
    show (1 + u) ^ 4 * (((4 : ℕ) : ℝ) * (1 + 0) + 2 * ((4 : ℕ) : ℝ) * η) ≤ big
    rw [c4]
    have := mul_le_mul (by linarith : (1 + u) ^ 4 ≤ 2) (by linarith : 4 * (1 + 0) + 2 * 4 * η ≤ 5) (by positivity) (by norm_num)
    linarith
  have hh : heap u u tower ⟨2, 0⟩ ⟨1, 0⟩ = heap u u inner ⟨2, 0⟩ ⟨4, S⟩ :=
    congrArg (heap u u inner ⟨2, 0⟩) hpool
  -- the exact numbers
  have pos : ∀ i, 1 ≤ (picture i).val := fun i => by rw [picture_val]; split_ifs <;> norm_num
  have hin : ∀ i, net inner.net (fun i => (picture i).val) i = if i = (0, 1, 1) then 4 else 2 := fun i => by
    rw [inner_net, max_eq_right (by linarith [pos i]), picture_val]
    split_ifs <;> norm_num
  have col : ∀ c (x : Fin (both.out * both.out)) (t : Fin (both.kernel * both.kernel)),
      poolCol both both (net inner.net fun i => (picture i).val) floatMin c x t = if t = last then 4 else 2 := fun c x t => by
    refine ((both_col _ c x t).trans (hin _)).trans ?_
    have : c = 0 := Subsingleton.elim _ _
    subst this
    refine if_congr ?_ rfl rfl
    revert t
    decide
  have hs : Smooth tower (fun _ _ => False) fun _ : Fin 1 => fun i => (picture i).val := by
    refine ⟨⟨trivial, trivial, Or.inr fun n i => Or.inl ?_⟩, fun n c x => Or.inl ⟨last, fun t ht => ?_⟩⟩
    · have := pos i
      exact ne_of_gt (lt_of_lt_of_eq (by linarith) (conv_id (fun i => (picture i).val) i).symm)
    · have h1 := col c x t
      have h2 := col c x last
      rw [if_neg ht] at h1
      rw [if_pos rfl] at h2
      exact lt_of_eq_of_lt h1 (lt_of_lt_of_eq (by norm_num) h2.symm)
  have hc : ImgClear u u tower ⟨2, 0⟩ fun _ : Fin 1 => fun i => (picture i).val := by
    refine ⟨⟨trivial, trivial, Or.inr fun n i => ?_⟩, fun n c x t => ?_⟩
    · have := pos i
      refine lt_of_lt_of_eq ?_ (congrArg abs (conv_id (fun i => (picture i).val) i)).symm
      rw [abs_of_nonneg (by linarith)]
      exact lt_of_le_of_lt f3 (by linarith)
    · have h1 := col c x t
      by_cases ht : t = last
      · left
        intro t'
        have h2 := col c x t'
        rw [if_pos ht] at h1
        refine le_of_eq_of_le h2 (le_of_le_of_eq ?_ h1.symm)
        split_ifs <;> norm_num
      · right
        have h2 := col c x last
        rw [if_neg ht] at h1
        rw [if_pos rfl] at h2
        refine ⟨last, lt_of_eq_of_lt (congrArg (· + _) h1) (lt_of_lt_of_eq ?_ h2.symm)⟩
        show (2 : ℝ) + 2 * (after' u u inner.net ⟨2, 0⟩).d < 4
        linarith
  obtain ⟨Y, D, g, hg⟩ := gradients_exist (N := 1) hL fltMin_isFloat tower ⟨⟨trivial, Nat.one_pos, trivial⟩, by show 0 < 2 * 2; norm_num⟩
    ⟨⟨trivial, ⟨Nat.one_pos, by show 0 < 2 * 2; norm_num⟩, trivial⟩, trivial⟩ (fun _ => picture_close) hf fun _ _ => 1
  obtain ⟨D₀, P₀, r1, r2, -⟩ := image_gradients_near hL fltMin_isFloat tower (fun _ => picture_close) hG hf hb (hh ▸ k2) hs hc hg
  exact ⟨Y, D, g, D₀, P₀, hg, r1, fun n i => ⟨(r2 n).finite i, ((r2 n).error i).trans (hh ▸ k3)⟩⟩

end

end DW.Props.FloatImageBackP
