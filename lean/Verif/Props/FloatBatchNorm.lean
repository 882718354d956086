import Verif.Model.FloatBatchNorm
import Verif.Props.FloatImage
/-!
# C116, C117, C118: batch normalization in training mode, in `float`
-/

set_option autoImplicit false

namespace DW.Props.FloatBatchNormP

open DW.Float DW.Props.FloatSoftmaxP DW.Props.FloatLossP DW.Props.FloatDotP DW.Props.FloatGradP DW.Props.FloatActP DW.Props.FloatAccuracyP DW.Props.FloatNormP
  DW.Props.FloatMomentumP DW.Props.FloatTrainP DW.Props.FloatAdamP DW.Props.FloatAdamStepP
open scoped ENNReal

noncomputable section

variable {R : Rounding} {q : Sqrt} {ρ : ℝ} {B : ℕ}

/-! ## Means -/

theorem pow_small {k : ℕ} (hk : k ≤ 2 ^ 21 + 2) : (1 + u) ^ k ≤ 1 + 1.15 * (k * u) := by
  have hu := u_pos
  have hus := u_small
  have hku : (k : ℝ) * u ≤ 0.126 := by
    have : (k : ℝ) ≤ 2 ^ 21 + 2 := by exact_mod_cast hk
    have h2 := mul_le_mul_of_nonneg_right this hu.le
    have h3 : ((2 : ℝ) ^ 21 + 2) * u ≤ 0.126 := by unfold u; norm_num
    linarith
  have h0 : 0 ≤ (k : ℝ) * u := by positivity
  have b := one_add_mul_le_pow (show (-2 : ℝ) ≤ -u by linarith) k
  have c : (1 + u) ^ k * (1 + -u) ^ k ≤ 1 := by
    rw [← mul_pow]
    refine pow_le_one₀ (mul_nonneg (by linarith) (by linarith)) ?_
    nlinarith
  have d : 0 ≤ (1 + u) ^ k := by positivity
  set P := (1 + u) ^ k
  have e : P * (1 - k * u) ≤ 1 := by
    refine le_trans (mul_le_mul_of_nonneg_left ?_ d) c
    linarith
  set x := (k : ℝ) * u
  have f : 1 ≤ (1 + 1.15 * x) * (1 - x) := by nlinarith
  have g : 0 < 1 - x := by linarith
  exact le_of_mul_le_mul_right (e.trans f) g

/-- Division by the number of rows. -/
theorem count_error (hB : 0 < B) (hB' : B ≤ 2 ^ 20) {s : Flt} (hs : s.Finite) {T E : ℝ} (h : |s.val - B * T| ≤ B * E) (hE : |T| + E ≤ 2 ^ 120) :
    (div R s (ofNat R B)).Finite ∧ |(div R s (ofNat R B)).val - T| ≤ E + u * (|T| + E) + η := by
  have hN : (0 : ℝ) < B := by exact_mod_cast hB
  have hu := u_pos
  rw [FloatCountP.ofNat_exact (hB'.trans (by norm_num))]
  have nv : (Flt.num false (B : ℝ≥0∞)).val = B := by simp [Flt.val]
  have e : |s.val / B - T| ≤ E := by
    have : s.val / B - T = (s.val - B * T) / B := by field_simp
    rw [this, abs_div, abs_of_pos hN, div_le_iff₀ hN]
    linarith
  have e' : |s.val / B| ≤ |T| + E := by
    have := abs_sub_abs_le_abs_sub (s.val / B) T
    linarith
  have nd := near_div (R := R) hs (b := .num false (B : ℝ≥0∞)) (ENNReal.natCast_ne_top _) (by rw [nv]; exact hN.ne') (by
    rw [nv]
    refine e'.trans (hE.trans ?_)
    unfold big
    norm_num)
  rw [nv] at nd
  refine ⟨nd.1, ?_⟩
  have h1 := abs_sub_le (div R s (Flt.num false (B : ℝ≥0∞))).val (s.val / B) T
  have h2 := mul_le_mul_of_nonneg_left e' hu.le
  have h3 := nd.2
  linarith

theorem mean_le {f : Fin B → ℝ} {A : ℝ} (hA : 0 ≤ A) (h : ∀ i, |f i| ≤ A) : |Spec.mean f| ≤ A := by
  unfold Spec.mean
  rw [Fintype.card_fin, abs_div, Nat.abs_cast]
  refine div_le_of_le_mul₀ (Nat.cast_nonneg _) hA ?_
  refine (Finset.abs_sum_le_sum_abs _ _).trans ((Finset.sum_le_sum fun i _ => h i).trans (le_of_eq ?_))
  rw [Finset.sum_const, Finset.card_univ, Fintype.card_fin, nsmul_eq_mul, mul_comm]

theorem mul_mean (hB : 0 < B) (f : Fin B → ℝ) : B * Spec.mean f = ∑ i, f i := by
  have hN : (B : ℝ) ≠ 0 := by exact_mod_cast hB.ne'
  unfold Spec.mean
  rw [Fintype.card_fin]
  field_simp

/-- The mean of a column. -/
theorem mean_error {X : Fin B → Flt} {m : Flt} (h : MeanOf R X m) (hB : 0 < B) (hB' : B ≤ 2 ^ 20) (hX : ∀ i, (X i).Finite) {A : ℝ} (hA : A ≤ 2 ^ 100)
    (hXA : ∀ i, |(X i).val| ≤ A) : m.Finite ∧ |m.val - Spec.mean fun i => (X i).val| ≤ 1.3 * (B + 1) * u * A + 4 * η := by
  have hu := u_pos
  have hη := η_pos
  have hus := u_small
  have hηs : η ≤ 1 / 10 ^ 9 := by unfold η; norm_num
  obtain ⟨s, hs, rfl⟩ := h
  have hA0 : 0 ≤ A := (abs_nonneg _).trans (hXA ⟨0, hB⟩)
  have hN1 : (1 : ℝ) ≤ B := by exact_mod_cast hB
  have hN2 : (B : ℝ) ≤ 2 ^ 20 := by exact_mod_cast hB'
  set l := List.ofFn X with hl
  have hlen : l.length = B := by simp [hl]
  have hG := pow_small (k := B) (by omega)
  have hG1 : 1 ≤ (1 + u) ^ B := one_le_pow₀ (by linarith)
  have hBu : (B : ℝ) * u ≤ 0.0625 := by
    have := mul_le_mul_of_nonneg_right hN2 hu.le
    have h2 : (2 : ℝ) ^ 20 * u ≤ 0.0625 := by unfold u; norm_num
    linarith
  have hmass : mass l ≤ B * A := by
    have : mass l = ∑ t, |(X t).val| := by simp [mass, hl, List.map_ofFn, List.sum_ofFn]
    rw [this]
    refine (Finset.sum_le_sum fun t _ => hXA _).trans (le_of_eq ?_)
    rw [Finset.sum_const, Finset.card_univ, Fintype.card_fin, nsmul_eq_mul]
  have htot : total l = B * Spec.mean fun i => (X i).val := by
    rw [mul_mean hB]
    simp [total, hl, List.map_ofFn, List.sum_ofFn]
  have hm0 := mass_nonneg l
  have hBA : 0 ≤ B * A := by positivity
  obtain ⟨sf, se⟩ := sum_good hs (g := (1 + u) ^ B) (fun x hx => by
    obtain ⟨t, rfl⟩ := List.mem_ofFn.1 hx
    exact hX _) (by rw [hlen]) (by
      rw [hlen]
      have e1 : mass l + 2 * B * η ≤ 2 ^ 122 := by
        have := mul_le_mul hN2 hA hA0 (by positivity)
        have := mul_le_mul hN2 hηs hη.le (by positivity)
        linarith
      have e2 := mul_le_mul (by linarith : (1 + u) ^ B ≤ 2) e1 (by positivity) (by norm_num)
      refine e2.trans ?_
      unfold big
      norm_num)
  rw [hlen, htot] at se
  have hT := mean_le hA0 hXA
  set T := Spec.mean fun i => (X i).val
  set G := (1 + u) ^ B
  have hE : |s.val - B * T| ≤ B * (1.15 * (B * u) * A + 2.3 * η) := by
    have e1 := mul_le_mul (by linarith : G - 1 ≤ 1.15 * (B * u)) hmass hm0 (by positivity)
    have e2 : (2 * (B : ℝ) - 1) * η * G ≤ (2 * B * η) * 1.15 := by
      have : (2 * (B : ℝ) - 1) * η ≤ 2 * B * η := by linarith
      exact mul_le_mul this (by linarith) (by linarith) (by positivity)
    linarith
  have hbA : B * u * A ≤ 0.0625 * A := mul_le_mul_of_nonneg_right hBu hA0
  have k := count_error (R := R) hB hB' sf hE (by linarith)
  refine ⟨k.1, k.2.trans ?_⟩
  have e3 : u * (|T| + (1.15 * (B * u) * A + 2.3 * η)) ≤ u * (A + (1.15 * (0.0625 * A) + 2.3 * η)) :=
    mul_le_mul_of_nonneg_left (by linarith) hu.le
  have e4 : u * η ≤ 1 / 10 ^ 7 * η := mul_le_mul_of_nonneg_right hus hη.le
  have e5 : 0 ≤ u * A := by positivity
  have e6 : 0 ≤ B * u * A := by positivity
  linarith

theorem square_nonneg {l : List (Flt × Flt)} {s : Flt} (h : DotOf R l s) (hl : ∀ p ∈ l, p.1 = p.2) (hf : ∀ p ∈ l, p.1.Finite) : Nonneg s := by
  have sq : ∀ (rd : ℝ≥0∞ → ℝ≥0∞) (a : Flt), a.Finite → Nonneg (mulWith rd a a) := by
    intro rd a ha
    rcases a with _ | ⟨s, x⟩
    · exact ha.elim
    · have : ¬(x = 0 ∧ x = ⊤ ∨ x = ⊤ ∧ x = 0) := by
        rintro (⟨_, h⟩ | ⟨h, _⟩) <;> exact ha h
      refine ⟨rd (x * x), ?_⟩
      simp [mulWith, this]
  have zero : Nonneg 0 := ⟨0, rfl⟩
  induction h with
  | one a b =>
    obtain rfl : a = b := hl (a, b) (by simp)
    exact sq _ a (hf (a, a) (by simp))
  | start a b =>
    obtain rfl : a = b := hl (a, b) (by simp)
    exact nonneg_addWith zero (sq _ a (hf (a, a) (by simp)))
  | fmaStart a b =>
    obtain rfl : a = b := hl (a, b) (by simp)
    exact nonneg_addWith (sq _ a (hf (a, a) (by simp))) zero
  | add _ _ ih₁ ih₂ =>
    exact nonneg_addWith (ih₁ (fun p hp => hl p (by simp [hp])) fun p hp => hf p (by simp [hp]))
      (ih₂ (fun p hp => hl p (by simp [hp])) fun p hp => hf p (by simp [hp]))
  | @fma l a b c _ ih =>
    obtain rfl : a = b := hl (a, b) (by simp)
    exact nonneg_addWith (sq _ a (hf (a, a) (by simp))) (ih (fun p hp => hl p (by simp [hp])) fun p hp => hf p (by simp [hp]))
  | perm hp _ ih => exact ih (fun p h => hl p (hp.mem_iff.1 h)) fun p h => hf p (hp.mem_iff.1 h)

theorem dot_ne_nil {l : List (Flt × Flt)} {s : Flt} (h : DotOf R l s) : l ≠ [] := by
  induction h with
  | one | start | fmaStart | fma => simp
  | add _ _ ih => simp [ih]
  | perm hp _ ih => exact fun h => ih (List.perm_nil.1 (h ▸ hp))

/-- The mean of the squares of a column. -/
theorem square_error {C : Fin B → Flt} {v : Flt} (h : SquareMeanOf R C v) (hB : 0 < B) (hB' : B ≤ 2 ^ 20) (hC : ∀ i, (C i).Finite) {M : ℝ} (hM : M ≤ 2 ^ 52)
    (hCM : ∀ i, |(C i).val| ≤ M) : Nonneg v ∧ v.Finite ∧
      |v.val - Spec.mean fun i => (C i).val ^ 2| ≤ 2.5 * (B + 1) * u * (Spec.mean fun i => (C i).val ^ 2) + 5 * η := by
  have hu := u_pos
  have hη := η_pos
  have hus := u_small
  have hηs : η ≤ 1 / 10 ^ 9 := by unfold η; norm_num
  obtain ⟨s, hs, rfl⟩ := h
  have hM0 : 0 ≤ M := (abs_nonneg _).trans (hCM ⟨0, hB⟩)
  have hN1 : (1 : ℝ) ≤ B := by exact_mod_cast hB
  have hN2 : (B : ℝ) ≤ 2 ^ 20 := by exact_mod_cast hB'
  have hnn : Nonneg s := square_nonneg hs (by simp [List.mem_ofFn]) (by simpa [List.mem_ofFn] using hC)
  set l := List.ofFn fun i => (C i, C i) with hl
  have hlen : l.length = B := by simp [hl]
  have hG := pow_small (k := 2 * B) (by omega)
  rw [Nat.cast_mul, Nat.cast_ofNat] at hG
  have hG1 : 1 ≤ (1 + u) ^ (2 * B) := one_le_pow₀ (by linarith)
  have hBu : (B : ℝ) * u ≤ 0.0625 := by
    have := mul_le_mul_of_nonneg_right hN2 hu.le
    have h2 : (2 : ℝ) ^ 20 * u ≤ 0.0625 := by unfold u; norm_num
    linarith
  have hex : exact l = B * Spec.mean fun i => (C i).val ^ 2 := by
    rw [mul_mean hB]
    simp [exact, hl, List.map_ofFn, List.sum_ofFn, sq]
  have hsz : FloatDotP.size l = B * Spec.mean fun i => (C i).val ^ 2 := by
    rw [mul_mean hB]
    simp [FloatDotP.size, hl, List.map_ofFn, List.sum_ofFn, sq]
  have hT : |Spec.mean fun i => (C i).val ^ 2| ≤ 2 ^ 104 := mean_le (by norm_num) fun i => by
    rw [abs_pow]
    have := pow_le_pow_left₀ (abs_nonneg _) ((hCM i).trans hM) 2
    refine this.trans ?_
    norm_num
  have hT0 : 0 ≤ Spec.mean fun i => (C i).val ^ 2 := by
    unfold Spec.mean
    exact div_nonneg (Finset.sum_nonneg fun i _ => sq_nonneg _) (Nat.cast_nonneg _)
  set T := Spec.mean fun i => (C i).val ^ 2
  have hG2 : (1 + u) ^ (2 * B) ≤ 1.15 := by linarith
  have hBT : B * T ≤ 2 ^ 124 := by
    have := mul_le_mul hN2 ((le_abs_self _).trans hT) hT0 (by positivity)
    linarith
  have hBη : B * η ≤ 1 := by
    have := mul_le_mul hN2 hηs hη.le (by positivity)
    linarith
  have hcap : cap l ≤ big := by
    rw [cap_eq, hsz, hlen, show grow B = (1 + u) ^ (2 * B) from rfl]
    have := mul_le_mul hG2 (by linarith : B * T + (3 * (B : ℝ) - 1) * η ≤ 2 ^ 124 + 3) (by
      have : 0 ≤ (3 * (B : ℝ) - 1) * η := mul_nonneg (by linarith) hη.le
      positivity) (by norm_num)
    refine this.trans ?_
    unfold big
    norm_num
  obtain ⟨sf, se⟩ := dot_good hs (by simpa [hl, List.mem_ofFn] using hC) hcap
  unfold bound at se
  rw [hsz, hlen, hex, show grow B = (1 + u) ^ (2 * B) from rfl] at se
  set G := (1 + u) ^ (2 * B)
  have hTB : 0 ≤ B * u * T := by positivity
  have hE : |s.val - B * T| ≤ B * (2.3 * (B * u) * T + 3.5 * η) := by
    have e1 := mul_le_mul (by linarith : G - 1 ≤ 2.3 * (B * u)) (le_refl (B * T)) (by positivity) (by positivity)
    have e2 : (3 * (B : ℝ) - 1) * η * G ≤ (3 * B * η) * 1.15 := by
      have : (3 * (B : ℝ) - 1) * η ≤ 3 * B * η := by linarith
      exact mul_le_mul this (by linarith) (by linarith) (by positivity)
    have e3 : 0 ≤ B * η := by positivity
    linarith
  have hbT : B * u * T ≤ 0.0625 * T := mul_le_mul_of_nonneg_right hBu hT0
  rw [abs_of_nonneg hT0] at hT
  have k := count_error (R := R) hB hB' sf hE (by rw [abs_of_nonneg hT0]; linarith)
  refine ⟨?_, k.1, k.2.trans ?_⟩
  · rw [FloatCountP.ofNat_exact (hB'.trans (by norm_num))]
    obtain ⟨x, rfl⟩ := hnn
    have hx : x ≠ ⊤ := sf
    have : ¬(x = 0 ∧ (B : ℝ≥0∞) = 0 ∨ x = ⊤ ∧ (B : ℝ≥0∞) = ⊤) := by
      rintro (⟨-, h⟩ | ⟨h, -⟩)
      · exact hB.ne' (by exact_mod_cast h)
      · exact hx h
    exact ⟨R.rd (x / B), by simp only [div, divWith, if_neg this]; rfl⟩
  · rw [abs_of_nonneg hT0]
    have e3 : u * (T + (2.3 * (B * u) * T + 3.5 * η)) ≤ u * (T + (2.3 * (0.0625 * T) + 3.5 * η)) :=
      mul_le_mul_of_nonneg_left (by linarith) hu.le
    have e4 : u * η ≤ 1 / 10 ^ 7 * η := mul_le_mul_of_nonneg_right hus hη.le
    have e5 : 0 ≤ u * T := by positivity
    linarith

/-! ## Deviations -/

/-- Changing all elements by at most `D` changes the root of the mean square by at most `D`. -/
theorem deviation_change (hB : 0 < B) {a b : Fin B → ℝ} {D e : ℝ} (he : 0 ≤ e) (h : ∀ i, |a i - b i| ≤ D) :
    √(Spec.mean (fun i => a i ^ 2) + e) ≤ √(Spec.mean (fun i => b i ^ 2) + e) + D := by
  have hN : (0 : ℝ) < B := by exact_mod_cast hB
  have hD : 0 ≤ D := (abs_nonneg _).trans (h ⟨0, hB⟩)
  have hV : 0 ≤ Spec.mean (fun i => b i ^ 2) := div_nonneg (Finset.sum_nonneg fun i _ => sq_nonneg _) (Nat.cast_nonneg _)
  set V := Spec.mean (fun i => b i ^ 2) with hVd
  refine (Real.sqrt_le_left (by positivity)).2 ?_
  have cs : Spec.mean (fun i => |b i|) ≤ √V := by
    refine Real.le_sqrt_of_sq_le ?_
    have k := Finset.sum_mul_sq_le_sq_mul_sq Finset.univ (fun _ : Fin B => (1 : ℝ)) fun i => |b i|
    simp only [one_mul, one_pow, sq_abs, Finset.sum_const, Finset.card_univ, Fintype.card_fin, nsmul_eq_mul, mul_one] at k
    rw [hVd]
    unfold Spec.mean
    rw [Fintype.card_fin, div_pow, div_le_div_iff₀ (by positivity) hN]
    nlinarith
  have m1 : √V ≤ √(V + e) := Real.sqrt_le_sqrt (by linarith)
  have s1 := Real.sq_sqrt (show 0 ≤ V + e by linarith)
  have key : Spec.mean (fun i => a i ^ 2) ≤ V + 2 * D * Spec.mean (fun i => |b i|) + D ^ 2 := by
    have : V + 2 * D * Spec.mean (fun i => |b i|) + D ^ 2 = Spec.mean fun i => b i ^ 2 + 2 * D * |b i| + D ^ 2 := by
      rw [hVd]
      unfold Spec.mean
      rw [Finset.sum_add_distrib, Finset.sum_add_distrib, ← Finset.mul_sum, Finset.sum_const, Finset.card_univ, Fintype.card_fin, nsmul_eq_mul]
      field_simp
    rw [this]
    unfold Spec.mean
    refine div_le_div_of_nonneg_right (Finset.sum_le_sum fun i _ => ?_) (Nat.cast_nonneg _)
    have h1 : |a i| ≤ |b i| + D := by
      have := abs_sub_abs_le_abs_sub (a i) (b i)
      linarith [h i]
    have h2 := pow_le_pow_left₀ (abs_nonneg _) h1 2
    rw [sq_abs] at h2
    have h3 := sq_abs (b i)
    linarith
  have k1 : 2 * D * Spec.mean (fun i => |b i|) ≤ 2 * D * √(V + e) := mul_le_mul_of_nonneg_left (cs.trans m1) (by positivity)
  linarith

/-- No element is larger than the root of the number of rows times the root of the mean square. -/
theorem element_le (a : Fin B → ℝ) (i : Fin B) : |a i| ≤ √B * √(Spec.mean fun i => a i ^ 2) := by
  have hB : 0 < B := i.pos
  rw [← Real.sqrt_mul (Nat.cast_nonneg _), mul_mean hB]
  refine Real.abs_le_sqrt ?_
  exact Finset.single_le_sum (f := fun i => a i ^ 2) (fun i _ => sq_nonneg _) (Finset.mem_univ i)

/-- A relative change under the root. -/
theorem root_change {x y κ : ℝ} (hx : 0 ≤ x) (hy : 0 ≤ y) (h : |x - y| ≤ κ * y) : |√x - √y| ≤ κ * √y := by
  rcases hy.eq_or_lt with rfl | hy
  · rw [mul_zero, sub_zero, abs_of_nonneg hx] at h
    simp [le_antisymm h hx]
  have sy : 0 < √y := Real.sqrt_pos.2 hy
  have e : x - y = (√x - √y) * (√x + √y) := by
    have h1 := Real.mul_self_sqrt hx
    have h2 := Real.mul_self_sqrt hy.le
    linear_combination (-1 : ℝ) * h1 + h2
  have sx := Real.sqrt_nonneg x
  rw [e, abs_mul, abs_of_pos (by linarith : 0 < √x + √y)] at h
  have h3 : |√x - √y| * √y ≤ |√x - √y| * (√x + √y) := mul_le_mul_of_nonneg_left (by linarith) (abs_nonneg _)
  have h4 : κ * y = κ * √y * √y := by rw [mul_assoc, Real.mul_self_sqrt hy.le]
  rw [h4] at h
  exact le_of_mul_le_mul_right (h3.trans h) sy

/-! ## The layer -/

/-- The settings of the layer and the sizes of the numbers. -/
structure Setting (gamma beta eps : Flt) (X : Fin B → Flt) (A : ℝ) : Prop where
  rows : B ≤ 2 ^ 20
  gamma : gamma.Finite ∧ |gamma.val| ≤ 2 ^ 20
  beta : beta.Finite ∧ |beta.val| ≤ 2 ^ 100
  eps : Nonneg eps ∧ eps.Finite ∧ 1 / 2 ^ 40 ≤ eps.val ∧ eps.val ≤ 1
  input : ∀ i, (X i).Finite
  size : ∀ i, |(X i).val| ≤ A
  max : A ≤ 2 ^ 50

variable {gamma beta eps : Flt} {X C Y : Fin B → Flt} {S : Flt} {A : ℝ}

/-- The largest error of an element without its mean. -/
def centerError (B : ℕ) (A : ℝ) : ℝ := 1.3 * (B + 3) * u * A + 6 * η

theorem center_error (hs : Setting gamma beta eps X A) (hB : 0 < B) {i : Fin B} {m c : Flt} (hm : MeanOf R X m) (hc : c = sub R (X i) m) :
    m.Finite ∧ c.Finite ∧ |m.val - Spec.mean fun i => (X i).val| ≤ centerError B A ∧ |c.val - ((X i).val - m.val)| ≤ u * |(X i).val - m.val| + η ∧
      |c.val - ((X i).val - Spec.mean fun i => (X i).val)| ≤ centerError B A ∧ |c.val| ≤ 2 ^ 52 := by
  have hu := u_pos
  have hη := η_pos
  have hus := u_small
  have hηs : η ≤ 1 / 10 ^ 9 := by unfold η; norm_num
  have hA0 : 0 ≤ A := (abs_nonneg _).trans (hs.size i)
  have hA := hs.max
  obtain ⟨mf, me⟩ := mean_error hm hB hs.rows hs.input (hA.trans (by norm_num)) hs.size
  have hμ := mean_le hA0 hs.size
  have hx := hs.size i
  set μ := Spec.mean fun i => (X i).val
  have hN1 : (1 : ℝ) ≤ B := by exact_mod_cast hB
  have hN2 : (B : ℝ) ≤ 2 ^ 20 := by exact_mod_cast hs.rows
  have hBu : (B : ℝ) * u ≤ 0.0625 := by
    have := mul_le_mul_of_nonneg_right hN2 hu.le
    have h2 : (2 : ℝ) ^ 20 * u ≤ 0.0625 := by unfold u; norm_num
    linarith
  have hBA := mul_le_mul_of_nonneg_right hBu hA0
  have huA : u * A ≤ 1 / 10 ^ 7 * A := mul_le_mul_of_nonneg_right hus hA0
  have huA0 : 0 ≤ u * A := by positivity
  have t1 : |(X i).val - m.val| ≤ 2 * A + (1.3 * (B + 1) * u * A + 4 * η) := by
    have e1 := abs_sub_le (X i).val μ m.val
    have e2 := abs_sub (X i).val μ
    rw [abs_sub_comm μ] at e1
    linarith
  have t2 : 1.3 * (B + 1) * u * A ≤ 0.1 * A := by linarith
  have nm := neg_finite mf
  have n := near_addWith (R := R) (hs.input i) nm.1 (by
    rw [nm.2, ← sub_eq_add_neg]
    refine (t1.trans (by linarith : _ ≤ (2 : ℝ) ^ 52)).trans ?_
    unfold big
    norm_num)
  rw [nm.2, ← sub_eq_add_neg] at n
  obtain ⟨cf, ce⟩ : c.Finite ∧ |c.val - ((X i).val - m.val)| ≤ u * |(X i).val - m.val| + η := by
    rw [hc]
    exact n
  have t3 : u * |(X i).val - m.val| ≤ u * (2.1 * A + 4 * η) := mul_le_mul_of_nonneg_left (by linarith) hu.le
  have t4 : u * η ≤ 1 / 10 ^ 7 * η := mul_le_mul_of_nonneg_right hus hη.le
  have t5 : |c.val - ((X i).val - μ)| ≤ centerError B A := by
    have e1 := abs_sub_le c.val ((X i).val - m.val) ((X i).val - μ)
    rw [show (X i).val - m.val - ((X i).val - μ) = -(m.val - μ) by ring, abs_neg] at e1
    unfold centerError
    linarith
  refine ⟨mf, cf, ?_, ce, t5, ?_⟩
  · unfold centerError
    linarith
  · have e1 := abs_sub_le c.val ((X i).val - m.val) 0
    rw [sub_zero, sub_zero] at e1
    linarith

theorem collect {a c d G W W' e t r : ℝ} (h1 : a + 9.6 * c ≤ G) (h2 : W ≤ W') (h3 : e ≤ 1 / 2 ^ 99) (h4 : 0 ≤ d) (h5 : t ≤ 1 / 2 ^ 81) :
    9.6 * c + 1.44 * d + r + t + (W + 12 * e + a) ≤ G + W' + 1.5 * d + r + 1 / 2 ^ 80 := by
  have : (1 : ℝ) / 2 ^ 81 + 12 * (1 / 2 ^ 99) ≤ 1 / 2 ^ 80 := by norm_num
  linarith

theorem train_core (hq : SqrtNear q ρ) (hρ : 0 ≤ ρ) (hρ' : ρ ≤ 1 / 2 ^ 10) (hs : Setting gamma beta eps X A)
    (h : BatchNormTrain R q gamma beta eps X C S Y) (i : Fin B) :
    (Y i).Finite ∧ |(Y i).val| ≤ 1.21 * |gamma.val| * √B + 1.01 * |beta.val| + 1 / 2 ^ 80 ∧
    |(Y i).val - Spec.normalise (Spec.mean fun i => (X i).val) (Spec.variance fun i => (X i).val) eps.val gamma.val beta.val (X i).val| ≤
      |gamma.val| * √B * (4 * (B + 3) * u * (1 + A / √eps.val) + 1.5 * ρ) + (8 * u + 1.2 * ρ) * |beta.val| + 1 / 2 ^ 80 := by
  have hu := u_pos
  have hη := η_pos
  have hus := u_small
  have hηs : η ≤ 1 / 2 ^ 149 := by unfold η; norm_num
  have hB : 0 < B := i.pos
  have hA0 : 0 ≤ A := (abs_nonneg _).trans (hs.size i)
  have hA := hs.max
  obtain ⟨gf, gb⟩ := hs.gamma
  obtain ⟨bf, bb⟩ := hs.beta
  obtain ⟨en, ef, e1, e2⟩ := hs.eps
  have hN1 : (1 : ℝ) ≤ B := by exact_mod_cast hB
  have hN2 : (B : ℝ) ≤ 2 ^ 20 := by exact_mod_cast hs.rows
  have hBu : (B : ℝ) * u ≤ 0.0625 := by
    have := mul_le_mul_of_nonneg_right hN2 hu.le
    have h2 : (2 : ℝ) ^ 20 * u ≤ 0.0625 := by unfold u; norm_num
    linarith
  have r1 : 1 ≤ √(B : ℝ) := Real.one_le_sqrt.2 hN1
  have r2 : √(B : ℝ) ≤ 2 ^ 10 := by
    rw [Real.sqrt_le_left (by positivity)]
    linarith
  -- the columns
  choose mm hmm hCc using h.centered
  have hc := fun j => center_error hs hB (hmm j) (hCc j)
  obtain ⟨v, hv, hS⟩ := h.deviation
  obtain ⟨vn, vf, ve⟩ := square_error hv hB hs.rows (fun j => (hc j).2.1) le_rfl fun j => (hc j).2.2.2.2.2
  have v0 := vn.val_nonneg
  have hV'0 : 0 ≤ Spec.mean fun i => (C i).val ^ 2 := div_nonneg (Finset.sum_nonneg fun i _ => sq_nonneg _) (Nat.cast_nonneg _)
  have hV'1 : |Spec.mean fun i => (C i).val ^ 2| ≤ 2 ^ 104 := mean_le (by norm_num) fun j => by
    rw [abs_pow]
    refine (pow_le_pow_left₀ (abs_nonneg _) (hc j).2.2.2.2.2 2).trans ?_
    norm_num
  rw [abs_of_nonneg hV'0] at hV'1
  set μ := Spec.mean fun i => (X i).val with hμ
  set V := Spec.variance fun i => (X i).val with hV
  have hVe : V = Spec.mean fun i => ((X i).val - μ) ^ 2 := rfl
  set D := centerError B A with hD
  have hD0 : 0 ≤ D := by rw [hD]; unfold centerError; positivity
  set V' := Spec.mean fun i => (C i).val ^ 2 with hV'
  have hs1 : 0 < eps.val := lt_of_lt_of_le (by positivity) e1
  set κ := 2.6 * (B + 1) * u with hκ
  have hκ0 : 0 ≤ κ := by positivity
  have hκ1 : κ ≤ 0.163 := by rw [hκ]; linarith
  have d1 : |√(v.val + eps.val) - √(V' + eps.val)| ≤ κ * √(V' + eps.val) := by
    refine root_change (by linarith) (by linarith) ?_
    rw [add_sub_add_right_eq_sub]
    refine ve.trans ?_
    have k1 : 0 ≤ u * V' := by positivity
    have k2 : 0 ≤ B * u * V' := by positivity
    have k3 : 5 * η ≤ 0.1 * u * eps.val := by
      have : 0.1 * u * (1 / 2 ^ 40) ≤ 0.1 * u * eps.val := mul_le_mul_of_nonneg_left e1 (by positivity)
      have k4 : 5 * (1 / 2 ^ 149) ≤ 0.1 * u * (1 / 2 ^ 40) := by unfold u; norm_num
      linarith
    have k5 : 0 ≤ B * u * eps.val := by positivity
    have k6 : 0 ≤ u * eps.val := by positivity
    rw [hκ]
    linarith
  have d2 : √(V' + eps.val) ≤ √(V + eps.val) + D := by
    rw [hVe]
    exact deviation_change hB hs1.le fun j => (hc j).2.2.2.2.1
  have d3 : √(V + eps.val) ≤ √(V' + eps.val) + D := by
    rw [hVe]
    refine deviation_change hB hs1.le fun j => ?_
    rw [abs_sub_comm]
    exact (hc j).2.2.2.2.1
  have v1 : v.val ≤ 2 ^ 105 := by
    have k1 := (abs_le.1 ve).2
    have k2 : 2.5 * (B + 1) * u * V' ≤ 0.2 * V' := mul_le_mul_of_nonneg_right (by linarith) hV'0
    linarith
  have c1 : |(X i).val - μ| ≤ √B * √(V + eps.val) := by
    refine (element_le (fun i => (X i).val - μ) i).trans (mul_le_mul_of_nonneg_left ?_ (Real.sqrt_nonneg _))
    rw [← hVe]
    exact Real.sqrt_le_sqrt (by linarith)
  have c2 : |(C i).val| ≤ √B * √(V' + eps.val) :=
    (element_le (fun i => (C i).val) i).trans (mul_le_mul_of_nonneg_left (Real.sqrt_le_sqrt (by linarith)) (Real.sqrt_nonneg _))
  have sS1 : √(v.val + eps.val) ≤ 2 ^ 53 := by
    rw [Real.sqrt_le_left (by positivity)]
    linarith
  have sσ : √eps.val ≤ √(v.val + eps.val) := Real.sqrt_le_sqrt (by linarith)
  have sσ0 : 1 / 2 ^ 20 ≤ √eps.val := by
    refine Real.le_sqrt_of_sq_le ?_
    have : ((1 : ℝ) / 2 ^ 20) ^ 2 = 1 / 2 ^ 40 := by norm_num
    linarith
  have hVn : 0 ≤ V := by
    rw [hVe]
    exact div_nonneg (Finset.sum_nonneg fun i _ => sq_nonneg _) (Nat.cast_nonneg _)
  have hTpos : 0 < √(V + eps.val) := Real.sqrt_pos.2 (by linarith)
  have hout := h.output i
  rw [hS, hCc i] at hout
  obtain ⟨mf, -, me, te, -, -⟩ := hc i
  set S₁ := √(v.val + eps.val) with hS₁
  set S₂ := √(V' + eps.val) with hS₂
  set T := √(V + eps.val) with hT
  set σ := √eps.val with hσ
  set b := √(B : ℝ) with hb
  have hσp : 0 < σ := lt_of_lt_of_le (by positivity) sσ0
  have hS₁p : 0 < S₁ := lt_of_lt_of_le hσp sσ
  have hS₂n : 0 ≤ S₂ := Real.sqrt_nonneg _
  have k1 : S₂ ≤ 1.195 * S₁ := by
    have := (abs_le.1 d1).1
    have := mul_le_mul_of_nonneg_right hκ1 hS₂n
    linarith
  -- the centred element, in units of the deviation
  have k2 : |(X i).val - (mm i).val| ≤ 1.2 * b * S₁ := by
    have a1 := abs_sub_abs_le_abs_sub ((X i).val - (mm i).val) (C i).val
    rw [abs_sub_comm ((X i).val - (mm i).val) (C i).val] at a1
    have a2 := mul_le_mul_of_nonneg_right hus (abs_nonneg ((X i).val - (mm i).val))
    have a3 : b * S₂ ≤ b * (1.195 * S₁) := mul_le_mul_of_nonneg_left k1 (by linarith)
    have a4 : η ≤ 1 / 10 ^ 7 * (b * S₁) := by
      have a5 : 1 * (1 / 2 ^ 20) ≤ b * S₁ := mul_le_mul r1 (sσ0.trans sσ) (by positivity) (by linarith)
      have a6 : (1 : ℝ) / 2 ^ 149 ≤ 1 / 10 ^ 7 * (1 * (1 / 2 ^ 20)) := by norm_num
      linarith
    have a7 : 0 ≤ b * S₁ := by positivity
    linarith
  have bS : b * S₁ ≤ 2 ^ 10 * 2 ^ 53 := mul_le_mul r2 sS1 hS₁p.le (by positivity)
  have gS : |gamma.val / S₁| = |gamma.val| / S₁ := by rw [abs_div, abs_of_pos hS₁p]
  have gS' : |gamma.val| / S₁ ≤ 2 ^ 40 := by
    rw [div_le_iff₀ hS₁p]
    have := mul_le_mul_of_nonneg_left (sσ0.trans sσ) (by positivity : (0 : ℝ) ≤ 2 ^ 40)
    have e : (2 : ℝ) ^ 40 * (1 / 2 ^ 20) = 2 ^ 20 := by norm_num
    linarith
  have gM : |gamma.val| / S₁ * (1.2 * b * S₁) = 1.2 * (|gamma.val| * b) := by field_simp
  have gb0 : 0 ≤ |gamma.val| * b := by positivity
  have gb1 : |gamma.val| * b ≤ 2 ^ 20 * 2 ^ 10 := mul_le_mul gb r2 (by positivity) (by positivity)
  obtain ⟨yf, ye⟩ := batchNorm_error (R := R) hq hρ hρ' (mean := mm i) (var := v) (gamma := gamma) (eps := eps) ⟨⟨vn, vf, by linarith⟩, ⟨gf, by linarith⟩, hs.eps⟩
    mf bf (hs.input i) hout k2 gS.le le_rfl (by linarith) (by linarith) (by rw [gM]; linarith)
  rw [gM] at ye
  have tiny : 2 * η * (1.2 * b * S₁ + |gamma.val| / S₁ + 3) ≤ 1 / 2 ^ 81 := by
    have a1 : 1.2 * b * S₁ + |gamma.val| / S₁ + 3 ≤ 2 ^ 64 := by linarith
    have := mul_le_mul (by linarith : 2 * η ≤ 2 * (1 / 2 ^ 149)) a1 (by positivity) (by positivity)
    refine this.trans ?_
    norm_num
  have sc : scaled (mm i).val v.val gamma.val beta.val eps.val (X i).val = gamma.val * (((X i).val - (mm i).val) / S₁) + beta.val := by
    unfold scaled
    ring
  rw [sc] at ye
  refine ⟨yf, ?_, ?_⟩
  · have a1 : |((X i).val - (mm i).val) / S₁| ≤ 1.2 * b := by
      rw [abs_div, abs_of_pos hS₁p, div_le_iff₀ hS₁p]
      exact k2
    have a2 := mul_le_mul_of_nonneg_left a1 (abs_nonneg gamma.val)
    rw [← abs_mul] at a2
    have a3 := abs_add_le (gamma.val * (((X i).val - (mm i).val) / S₁)) beta.val
    have a4 := abs_sub_abs_le_abs_sub (Y i).val (gamma.val * (((X i).val - (mm i).val) / S₁) + beta.val)
    have a5 : (8 * u + 1.2 * ρ) * (1.2 * (|gamma.val| * b) + |beta.val|) ≤ 0.002 * (1.2 * (|gamma.val| * b) + |beta.val|) :=
      mul_le_mul_of_nonneg_right (by linarith) (by positivity)
    have a6 := abs_nonneg beta.val
    have a7 : (1 : ℝ) / 2 ^ 81 ≤ 1 / 2 ^ 80 := by norm_num
    linarith
  · -- the exact layer
    have z : |((X i).val - (mm i).val) / S₁ - ((X i).val - μ) / T| ≤ b * (2 * D / σ + 1.2 * κ) := by
      have a1 : ((X i).val - (mm i).val) / S₁ - ((X i).val - μ) / T = (μ - (mm i).val) / S₁ + ((X i).val - μ) / T * ((T - S₁) / S₁) := by
        field_simp
        ring
      rw [a1]
      refine (abs_add_le _ _).trans ?_
      have a2 : |(μ - (mm i).val) / S₁| ≤ D / σ := by
        rw [abs_div, abs_of_pos hS₁p, abs_sub_comm]
        exact div_le_div₀ hD0 me hσp sσ
      have a3 : |((X i).val - μ) / T| ≤ b := by
        rw [abs_div, abs_of_pos hTpos, div_le_iff₀ hTpos]
        exact c1
      have a4 : |(T - S₁) / S₁| ≤ D / σ + 1.2 * κ := by
        have b1 : |T - S₁| ≤ D + 1.195 * (κ * S₁) := by
          have b2 := abs_sub_le T S₂ S₁
          have b3 : |T - S₂| ≤ D := abs_le.2 ⟨by linarith, by linarith⟩
          have b4 := mul_le_mul_of_nonneg_left k1 hκ0
          rw [abs_sub_comm S₂ S₁] at b2
          linarith
        rw [abs_div, abs_of_pos hS₁p]
        have b5 : |T - S₁| / S₁ ≤ (D + 1.195 * (κ * S₁)) / S₁ := div_le_div_of_nonneg_right b1 hS₁p.le
        have b6 : (D + 1.195 * (κ * S₁)) / S₁ = D / S₁ + 1.195 * κ := by field_simp
        have b7 : D / S₁ ≤ D / σ := div_le_div_of_nonneg_left hD0 hσp sσ
        linarith
      rw [abs_mul]
      have a5 := mul_le_mul a3 a4 (abs_nonneg _) (by linarith)
      have a6 : D / σ ≤ b * (D / σ) := le_mul_of_one_le_left (by positivity) r1
      have a7 : b * (2 * D / σ + 1.2 * κ) = b * (D / σ) + b * (D / σ + 1.2 * κ) := by ring
      linarith
    have z' := mul_le_mul_of_nonneg_left z (abs_nonneg gamma.val)
    rw [← abs_mul, mul_sub] at z'
    have nz : Spec.normalise μ V eps.val gamma.val beta.val (X i).val = gamma.val * (((X i).val - μ) / T) + beta.val := rfl
    rw [nz]
    have a1 := abs_sub_le (Y i).val (gamma.val * (((X i).val - (mm i).val) / S₁) + beta.val) (gamma.val * (((X i).val - μ) / T) + beta.val)
    rw [add_sub_add_right_eq_sub] at a1
    refine a1.trans ((add_le_add ye z').trans ?_)
    -- collect
    set g := |gamma.val| * b with hg
    have p1 : 2 * D / σ = 2.6 * ((B + 3) * u * (A / σ)) + 12 * (η / σ) := by
      rw [hD]
      unfold centerError
      field_simp
      ring
    have p2 : η / σ ≤ 1 / 2 ^ 129 := by
      rw [div_le_iff₀ hσp]
      have : (1 : ℝ) / 2 ^ 129 * (1 / 2 ^ 20) ≤ 1 / 2 ^ 129 * σ := mul_le_mul_of_nonneg_left sσ0 (by positivity)
      have e : (1 : ℝ) / 2 ^ 129 * (1 / 2 ^ 20) = 1 / 2 ^ 149 := by norm_num
      linarith
    have p3 : g * (η / σ) ≤ 1 / 2 ^ 99 := by
      have := mul_le_mul gb1 p2 (by positivity) (by positivity)
      refine this.trans ?_
      norm_num
    have p4 : (3.12 * (B + 1) + 9.6) * u ≤ 4 * (B + 3) * u := mul_le_mul_of_nonneg_right (by linarith) hu.le
    have p5 : 2.6 * ((B + 3) * u * (A / σ)) ≤ 4 * ((B + 3) * u * (A / σ)) := by
      have : 0 ≤ (B + 3) * u * (A / σ) := by positivity
      linarith
    have p6 := mul_le_mul_of_nonneg_left p4 gb0
    have p7 := mul_le_mul_of_nonneg_left p5 gb0
    have p8 : 0 ≤ g * ρ := by positivity
    have p9 : |gamma.val| * (b * (2 * D / σ + 1.2 * κ)) = g * (2.6 * ((B + 3) * u * (A / σ))) + 12 * (g * (η / σ)) + g * (3.12 * (B + 1) * u) := by
      rw [p1, hκ, hg]
      ring
    rw [p9]
    have p10 : g * (4 * (B + 3) * u * (1 + A / σ) + 1.5 * ρ) = g * (4 * (B + 3) * u) + g * (4 * ((B + 3) * u * (A / σ))) + 1.5 * (g * ρ) := by ring
    rw [p10]
    have p11 : g * ((3.12 * (B + 1) + 9.6) * u) = g * (3.12 * (B + 1) * u) + 9.6 * (g * u) := by ring
    rw [p11] at p6
    have p12 : (8 * u + 1.2 * ρ) * (1.2 * g + |beta.val|) = 9.6 * (g * u) + 1.44 * (g * ρ) + (8 * u + 1.2 * ρ) * |beta.val| := by ring
    rw [p12]
    exact collect p6 p7 p3 p8 tiny

end

end DW.Props.FloatBatchNormP
