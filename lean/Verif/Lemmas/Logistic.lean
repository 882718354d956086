import Verif.Spec.Layers
import Verif.Spec.Loss
import Mathlib.Analysis.SpecialFunctions.ExpDeriv
import Mathlib.Analysis.SpecialFunctions.Log.Deriv
import Mathlib.Algebra.BigOperators.Field
import Mathlib.Tactic.Linarith
import Mathlib.Tactic.Positivity
import Mathlib.Tactic.FieldSimp
import Mathlib.Tactic.Ring
/-!
# The loss of a linear classifier

The mean cross entropy of the softmax of numbers that depend linearly on the parameters: it is convex and smooth, and what follows for
gradient descent.
-/

set_option autoImplicit false

namespace DW.LogisticL

open DW.Spec

noncomputable section

variable {B n : ℕ} {ι : Type} [Fintype ι]

/-- Logits that depend linearly on the parameters `t`. -/
def logits (M : Fin B → Fin n → ι → ℝ) (t : ι → ℝ) (i : Fin B) (j : Fin n) : ℝ := ∑ q, M i j q * t q

/-- The loss. -/
def loss (M : Fin B → Fin n → ι → ℝ) (lab : Fin B → Fin n) (t : ι → ℝ) : ℝ := crossEntropy (softmax (logits M t)) lab

/-- The sum of squares. -/
def sq (t : ι → ℝ) : ℝ := ∑ q, t q ^ 2

/-- The inner product. -/
def dot (t s : ι → ℝ) : ℝ := ∑ q, t q * s q

theorem sq_nonneg' (t : ι → ℝ) : 0 ≤ sq t := Finset.sum_nonneg fun _ _ => sq_nonneg _

variable {M : Fin B → Fin n → ι → ℝ} {lab : Fin B → Fin n}

theorem logits_add (t u : ι → ℝ) (s : ℝ) (i : Fin B) (j : Fin n) :
    logits M (fun q => t q + s * u q) i j = logits M t i j + s * logits M u i j := by
  simp only [logits, mul_add, Finset.sum_add_distrib, Finset.mul_sum]
  congr 1
  exact Finset.sum_congr rfl fun q _ => by ring

section row

variable (a : Fin n → ℝ)

/-- Probabilities of one row. -/
def prob (j : Fin n) : ℝ := Real.exp (a j) / ∑ k, Real.exp (a k)

variable {a} (l : Fin n)

include l in
theorem total_pos : 0 < ∑ k, Real.exp (a k) := Finset.sum_pos (fun _ _ => Real.exp_pos _) ⟨l, Finset.mem_univ l⟩

include l in
theorem prob_sum : ∑ j, prob a j = 1 := by
  simp only [prob]
  rw [← Finset.sum_div, div_self (total_pos l).ne']

theorem prob_nonneg (j : Fin n) : 0 ≤ prob a j := div_nonneg (Real.exp_pos _).le (Finset.sum_nonneg fun _ _ => (Real.exp_pos _).le)

include l in
theorem prob_le_one (j : Fin n) : prob a j ≤ 1 := by
  rw [← prob_sum (a := a) l]
  exact Finset.single_le_sum (fun k _ => prob_nonneg k) (Finset.mem_univ j)

/-- The loss of one row. -/
theorem neg_log_prob : -Real.log (prob a l) = Real.log (∑ k, Real.exp (a k)) - a l := by
  rw [prob, Real.log_div (Real.exp_ne_zero _) (total_pos l).ne', Real.log_exp]
  ring

include l in
theorem lse_shift (d : Fin n → ℝ) : ∑ k, Real.exp (a k + d k) = (∑ k, Real.exp (a k)) * ∑ k, prob a k * Real.exp (d k) := by
  rw [Finset.mul_sum]
  refine Finset.sum_congr rfl fun k _ => ?_
  have := (total_pos (a := a) l).ne'
  rw [prob, Real.exp_add]
  field_simp

include l in
theorem mgf_pos (d : Fin n → ℝ) : 0 < ∑ k, prob a k * Real.exp (d k) :=
  Finset.sum_pos (fun _ _ => mul_pos (div_pos (Real.exp_pos _) (total_pos l)) (Real.exp_pos _)) ⟨l, Finset.mem_univ l⟩

include l in
theorem lse_log (d : Fin n → ℝ) :
    Real.log (∑ k, Real.exp (a k + d k)) = Real.log (∑ k, Real.exp (a k)) + Real.log (∑ k, prob a k * Real.exp (d k)) := by
  rw [lse_shift l, Real.log_mul (total_pos l).ne' (mgf_pos l d).ne']

include l in
/-- Convexity. -/
theorem lse_lower (d : Fin n → ℝ) : ∑ k, prob a k * d k ≤ Real.log (∑ k, prob a k * Real.exp (d k)) := by
  rw [Real.le_log_iff_exp_le (mgf_pos l d)]
  set m := ∑ k, prob a k * d k with hm
  have h : 1 ≤ ∑ k, prob a k * Real.exp (d k - m) := by
    calc (1 : ℝ) = ∑ k, prob a k * (d k - m + 1) := by
          simp only [mul_add, mul_sub, Finset.sum_add_distrib, Finset.sum_sub_distrib, ← Finset.sum_mul, prob_sum l, ← hm]
          ring
      _ ≤ _ := Finset.sum_le_sum fun k _ => mul_le_mul_of_nonneg_left (Real.add_one_le_exp _) (prob_nonneg k)
  have e : ∑ k, prob a k * Real.exp (d k) = Real.exp m * ∑ k, prob a k * Real.exp (d k - m) := by
    rw [Finset.mul_sum]
    refine Finset.sum_congr rfl fun k _ => ?_
    rw [Real.exp_sub]
    have := Real.exp_ne_zero m
    field_simp
  rw [e]
  exact le_mul_of_one_le_right (Real.exp_pos _).le h

include l in
/-- Smoothness. -/
theorem lse_upper {d : Fin n → ℝ} (hd : ∀ k, |d k| ≤ 1) :
    Real.log (∑ k, prob a k * Real.exp (d k)) ≤ ∑ k, prob a k * d k + ∑ k, d k ^ 2 := by
  have h : ∑ k, prob a k * Real.exp (d k) ≤ 1 + (∑ k, prob a k * d k + ∑ k, d k ^ 2) := by
    calc ∑ k, prob a k * Real.exp (d k) ≤ ∑ k, (prob a k * 1 + (prob a k * d k + d k ^ 2)) := Finset.sum_le_sum fun k _ => by
          have h1 := (abs_le.1 (Real.abs_exp_sub_one_sub_id_le (hd k))).2
          have h2 := mul_le_mul_of_nonneg_left h1 (prob_nonneg (a := a) k)
          have h3 := mul_le_mul_of_nonneg_right (prob_le_one (a := a) l k) (sq_nonneg (d k))
          linarith
      _ = _ := by rw [Finset.sum_add_distrib, Finset.sum_add_distrib, ← Finset.sum_mul, prob_sum l, one_mul]
  have := Real.log_le_sub_one_of_pos (mgf_pos (a := a) l d)
  linarith

theorem lse_deriv (d : Fin n → ℝ) :
    HasDerivAt (fun s => Real.log (∑ k, Real.exp (a k + s * d k)) - (a l + s * d l)) (∑ k, prob a k * d k - d l) 0 := by
  have h1 : ∀ k, HasDerivAt (fun s : ℝ => a k + s * d k) (d k) 0 := fun k => by
    simpa using ((hasDerivAt_id (0 : ℝ)).mul_const (d k)).const_add (a k)
  have h2 : HasDerivAt (fun s : ℝ => ∑ k, Real.exp (a k + s * d k)) (∑ k, Real.exp (a k) * d k) 0 := by
    have := HasDerivAt.fun_sum (u := Finset.univ) fun k _ => (h1 k).exp
    simpa using this
  have h3 := (h2.log (by simpa using (total_pos (a := a) l).ne')).sub (h1 l)
  have e : ∑ k, prob a k * d k = (∑ k, Real.exp (a k) * d k) / ∑ k, Real.exp (a k + 0 * d k) := by
    simp only [zero_mul, add_zero, prob, Finset.sum_div]
    exact Finset.sum_congr rfl fun k _ => by ring
  rw [e]
  exact h3

end row

theorem loss_eq (t : ι → ℝ) : loss M lab t = (∑ i, (Real.log (∑ k, Real.exp (logits M t i k)) - logits M t i (lab i))) / B := by
  unfold loss crossEntropy
  rw [← Finset.sum_neg_distrib]
  congr 1
  exact Finset.sum_congr rfl fun i _ => neg_log_prob (a := logits M t i) (lab i)

/-- The derivative of the loss in direction `u`. -/
def slope (M : Fin B → Fin n → ι → ℝ) (lab : Fin B → Fin n) (t u : ι → ℝ) : ℝ :=
  (∑ i, (∑ k, prob (logits M t i) k * logits M u i k - logits M u i (lab i))) / B

theorem loss_deriv (t u : ι → ℝ) : HasDerivAt (fun s => loss M lab fun q => t q + s * u q) (slope M lab t u) 0 := by
  simp only [loss_eq, logits_add]
  exact (HasDerivAt.fun_sum fun i _ => lse_deriv (a := logits M t i) (lab i) (logits M u i)).div_const _

theorem loss_add (t u : ι → ℝ) : loss M lab (fun q => t q + u q) =
    loss M lab t + (∑ i, (Real.log (∑ k, prob (logits M t i) k * Real.exp (logits M u i k)) - logits M u i (lab i))) / B := by
  have h : ∀ i j, logits M (fun q => t q + u q) i j = logits M t i j + logits M u i j := fun i j => by
    simpa using logits_add (M := M) t u 1 i j
  simp only [loss_eq, h]
  rw [← add_div, ← Finset.sum_add_distrib]
  congr 1
  refine Finset.sum_congr rfl fun i _ => ?_
  rw [lse_log (lab i)]
  ring

/-- The loss is convex. -/
theorem loss_lower (t u : ι → ℝ) : loss M lab t + slope M lab t u ≤ loss M lab fun q => t q + u q := by
  rw [loss_add]
  refine add_le_add le_rfl (div_le_div_of_nonneg_right (Finset.sum_le_sum fun i _ => ?_) (Nat.cast_nonneg B))
  exact sub_le_sub_right (lse_lower (lab i) _) _

/-- The rows of `M` are bounded by `A`. -/
def Bounded (M : Fin B → Fin n → ι → ℝ) (A : ℝ) : Prop := ∀ i u, ∑ k, logits M u i k ^ 2 ≤ A * sq u

theorem mean_le {f : Fin B → ℝ} {c : ℝ} (hc : 0 ≤ c) (h : ∀ i, f i ≤ c) : (∑ i, f i) / B ≤ c := by
  rcases Nat.eq_zero_or_pos B with rfl | hB
  · simpa using hc
  · rw [div_le_iff₀ (by exact_mod_cast hB)]
    calc ∑ i, f i ≤ ∑ _i : Fin B, c := Finset.sum_le_sum fun i _ => h i
      _ = c * B := by simp [mul_comm]

/-- And smooth. -/
theorem loss_upper {A : ℝ} (hA : 0 ≤ A) (hM : Bounded M A) (t : ι → ℝ) {u : ι → ℝ} (hu : A * sq u ≤ 1) :
    loss M lab (fun q => t q + u q) ≤ loss M lab t + slope M lab t u + A * sq u := by
  rw [loss_add, add_assoc]
  refine add_le_add le_rfl ?_
  have hA0 : 0 ≤ A * sq u := mul_nonneg hA (sq_nonneg' u)
  unfold slope
  rw [← sub_le_iff_le_add', ← sub_div, ← Finset.sum_sub_distrib]
  refine mean_le hA0 fun i => ?_
  have hd : ∀ k, |logits M u i k| ≤ 1 := fun k => by
    rw [← sq_le_one_iff_abs_le_one]
    exact ((Finset.single_le_sum (f := fun k => logits M u i k ^ 2) (fun _ _ => sq_nonneg _) (Finset.mem_univ k)).trans (hM i u)).trans hu
  have h1 := lse_upper (a := logits M t i) (lab i) hd
  have h2 := hM i u
  linarith

theorem loss_nonneg (t : ι → ℝ) : 0 ≤ loss M lab t := by
  unfold loss crossEntropy
  rw [← Finset.sum_neg_distrib]
  refine div_nonneg (Finset.sum_nonneg fun i _ => ?_) (Nat.cast_nonneg B)
  rw [neg_nonneg]
  exact Real.log_nonpos (prob_nonneg (a := logits M t i) _) (prob_le_one (a := logits M t i) (lab i) _)

/-- `g` is the gradient of the loss at `t`. -/
def Gradient (M : Fin B → Fin n → ι → ℝ) (lab : Fin B → Fin n) (t g : ι → ℝ) : Prop :=
  ∀ u, HasDerivAt (fun s => loss M lab fun q => t q + s * u q) (dot g u) 0

theorem Gradient.dot_eq {t g : ι → ℝ} (h : Gradient M lab t g) (u : ι → ℝ) : dot g u = slope M lab t u := (h u).unique (loss_deriv t u)

theorem dot_self (g : ι → ℝ) : dot g g = sq g := Finset.sum_congr rfl fun q _ => by ring

/-- Gradients are not large. -/
theorem Gradient.bound {A : ℝ} (hA : 0 < A) (hM : Bounded M A) {t g : ι → ℝ} (h : Gradient M lab t g) : sq g ≤ 2 * A := by
  have h1 : sq g ≤ A + sq g / 2 := by
    conv_lhs => rw [← dot_self, h.dot_eq]
    refine mean_le (by have := sq_nonneg' g; linarith) fun i => ?_
    have hp := prob_sum (a := logits M t i) (lab i)
    have hl := prob_nonneg (a := logits M t i) (lab i)
    have h2 : ∑ k, prob (logits M t i) k * logits M g i k - logits M g i (lab i) =
        ∑ k, (prob (logits M t i) k - if k = lab i then 1 else 0) * logits M g i k := by
      simp [sub_mul, Finset.sum_sub_distrib]
    have h3 : ∑ k, (prob (logits M t i) k - if k = lab i then 1 else 0) ^ 2 ≤ 2 := by
      calc ∑ k, (prob (logits M t i) k - if k = lab i then 1 else 0) ^ 2 ≤ ∑ k, (prob (logits M t i) k + if k = lab i then 1 else 0) :=
            Finset.sum_le_sum fun k _ => by
              have := prob_nonneg (a := logits M t i) k
              have := prob_le_one (a := logits M t i) (lab i) k
              split_ifs <;> nlinarith
        _ = 2 := by simp [Finset.sum_add_distrib, hp]; norm_num
    have h4 : ∑ k, (prob (logits M t i) k - if k = lab i then 1 else 0) * logits M g i k ≤
        ∑ k, (A / 2 * (prob (logits M t i) k - if k = lab i then 1 else 0) ^ 2 + 1 / (2 * A) * logits M g i k ^ 2) :=
      Finset.sum_le_sum fun k _ => by
        set x := prob (logits M t i) k - if k = lab i then 1 else 0
        set y := logits M g i k
        have : A / 2 * x ^ 2 + 1 / (2 * A) * y ^ 2 - x * y = (A * x - y) ^ 2 / (2 * A) := by field_simp; ring
        have : 0 ≤ (A * x - y) ^ 2 / (2 * A) := by positivity
        linarith
    rw [Finset.sum_add_distrib, ← Finset.mul_sum, ← Finset.mul_sum] at h4
    have h5 : 1 / (2 * A) * ∑ k, logits M g i k ^ 2 ≤ 1 / (2 * A) * (A * sq g) := mul_le_mul_of_nonneg_left (hM i g) (by positivity)
    have h6 : 1 / (2 * A) * (A * sq g) = sq g / 2 := by field_simp
    have h7 : A / 2 * ∑ k, (prob (logits M t i) k - if k = lab i then 1 else 0) ^ 2 ≤ A / 2 * 2 := mul_le_mul_of_nonneg_left h3 (by positivity)
    rw [h2]
    linarith
  linarith

/-- One step of gradient descent. -/
theorem step_lowers {A lr : ℝ} (hA : 0 < A) (hM : Bounded M A) (h0 : 0 ≤ lr) (h1 : lr * (2 * A) ≤ 1) {t g : ι → ℝ} (h : Gradient M lab t g) :
    loss M lab (fun q => t q - lr * g q) ≤ loss M lab t - lr / 2 * sq g := by
  have hs : sq (fun q => -lr * g q) = lr ^ 2 * sq g := by
    unfold sq
    rw [Finset.mul_sum]
    exact Finset.sum_congr rfl fun q _ => by ring
  have hg := h.bound hA hM
  have hg0 := sq_nonneg' g
  have hb : A * sq (fun q => -lr * g q) ≤ lr / 2 * sq g := by
    rw [hs]
    have := mul_le_mul_of_nonneg_right h1 (by positivity : 0 ≤ lr / 2 * sq g)
    nlinarith
  have hb1 : A * sq (fun q => -lr * g q) ≤ 1 := by
    have : lr / 2 * sq g ≤ lr / 2 * (2 * A) := mul_le_mul_of_nonneg_left hg (by positivity)
    linarith
  have h2 := loss_upper (lab := lab) hA.le hM t hb1
  have h3 : slope M lab t (fun q => -lr * g q) = -lr * sq g := by
    rw [← h.dot_eq, ← dot_self]
    unfold dot
    rw [Finset.mul_sum]
    exact Finset.sum_congr rfl fun q _ => by ring
  have h4 : (fun q => t q - lr * g q) = fun q => t q + -lr * g q := funext fun q => by ring
  rw [h4]
  linarith

/-- A small loss has a small gradient. -/
theorem Gradient.self_bound {A : ℝ} (hA : 0 < A) (hM : Bounded M A) {t g : ι → ℝ} (h : Gradient M lab t g) : sq g ≤ 4 * A * loss M lab t := by
  have h1 := step_lowers hA hM (lr := 1 / (2 * A)) (by positivity) (by field_simp; norm_num) h
  have h2 := loss_nonneg (M := M) (lab := lab) fun q => t q - 1 / (2 * A) * g q
  have h3 : 1 / (2 * A) / 2 * sq g ≤ loss M lab t := by linarith
  have h4 : 4 * A * (1 / (2 * A) / 2 * sq g) = sq g := by field_simp; ring
  have := mul_le_mul_of_nonneg_left h3 (by positivity : 0 ≤ 4 * A)
  linarith

/-- The distance to any other parameters `s` after a step. -/
theorem distance_step (t g s : ι → ℝ) (lr : ℝ) :
    sq (fun q => t q - lr * g q - s q) = sq (fun q => t q - s q) - 2 * lr * dot g (fun q => t q - s q) + lr ^ 2 * sq g := by
  unfold sq dot
  rw [Finset.mul_sum, Finset.mul_sum, ← Finset.sum_sub_distrib, ← Finset.sum_add_distrib]
  exact Finset.sum_congr rfl fun q _ => by ring

theorem Gradient.lower {t g : ι → ℝ} (h : Gradient M lab t g) (s : ι → ℝ) : loss M lab t - loss M lab s ≤ dot g fun q => t q - s q := by
  have h1 := loss_lower (M := M) (lab := lab) t fun q => s q - t q
  rw [← h.dot_eq] at h1
  have h2 : (fun q => t q + (s q - t q)) = s := funext fun q => by ring
  have h3 : dot g (fun q => s q - t q) = -dot g fun q => t q - s q := by
    unfold dot
    rw [← Finset.sum_neg_distrib]
    exact Finset.sum_congr rfl fun q _ => by ring
  rw [h2, h3] at h1
  linarith

/-- Gradient descent on a sequence of losses. -/
theorem regret {A lr : ℝ} (hA : 0 < A) (h0 : 0 < lr) {Ms : ℕ → Fin B → Fin n → ι → ℝ} {labs : ℕ → Fin B → Fin n} {N : ℕ}
    (hM : ∀ k < N, Bounded (Ms k) A) {t g : ℕ → ι → ℝ} (hg : ∀ k < N, Gradient (Ms k) (labs k) (t k) (g k))
    (ht : ∀ k < N, t (k + 1) = fun q => t k q - lr * g k q) (s : ι → ℝ) :
    (1 - 2 * lr * A) * ∑ k ∈ Finset.range N, loss (Ms k) (labs k) (t k) ≤
      ∑ k ∈ Finset.range N, loss (Ms k) (labs k) s + (sq (fun q => t 0 q - s q) - sq fun q => t N q - s q) / (2 * lr) := by
  induction N with
  | zero => simp
  | succ N ih =>
    have ih := ih (fun k hk => hM k (by omega)) (fun k hk => hg k (by omega)) fun k hk => ht k (by omega)
    have G := hg N (by omega)
    have d := distance_step (t N) (g N) s lr
    have e : sq (fun q => t (N + 1) q - s q) = sq fun q => t N q - lr * g N q - s q := by rw [ht N (by omega)]
    rw [← e] at d
    have l := G.lower s
    have b := G.self_bound hA (hM N (by omega))
    rw [Finset.sum_range_succ, Finset.sum_range_succ]
    set f := loss (Ms N) (labs N) (t N)
    set f' := loss (Ms N) (labs N) s
    set D := dot (g N) fun q => t N q - s q
    have h1 : (sq (fun q => t 0 q - s q) - sq fun q => t (N + 1) q - s q) / (2 * lr) =
        (sq (fun q => t 0 q - s q) - sq fun q => t N q - s q) / (2 * lr) + D - lr / 2 * sq (g N) := by
      rw [d]
      field_simp
      ring
    have h2 : lr / 2 * sq (g N) ≤ lr / 2 * (4 * A * f) := mul_le_mul_of_nonneg_left b (by positivity)
    rw [h1]
    linarith

/-- Gradient descent on one loss. -/
theorem converges {A lr : ℝ} (hA : 0 < A) (h0 : 0 < lr) (h1 : lr * (2 * A) ≤ 1) {N : ℕ}
    (hM : Bounded M A) {t g : ℕ → ι → ℝ} (hg : ∀ k < N, Gradient M lab (t k) (g k))
    (ht : ∀ k < N, t (k + 1) = fun q => t k q - lr * g k q) (s : ι → ℝ) :
    (∀ k < N, loss M lab (t (k + 1)) ≤ loss M lab (t k)) ∧
      N * (loss M lab (t N) - loss M lab s) ≤ (sq (fun q => t 0 q - s q) - sq fun q => t N q - s q) / (2 * lr) := by
  have hdec : ∀ k < N, loss M lab (t (k + 1)) ≤ loss M lab (t k) - lr / 2 * sq (g k) := fun k hk => by
    rw [ht k hk]
    exact step_lowers hA hM h0.le h1 (hg k hk)
  refine ⟨fun k hk => (hdec k hk).trans (sub_le_self _ (mul_nonneg (by linarith) (sq_nonneg' _))), ?_⟩
  clear h1
  induction N with
  | zero => simp
  | succ N ih =>
    have ih := ih (fun k hk => hg k (by omega)) (fun k hk => ht k (by omega)) fun k hk => hdec k (by omega)
    have G := hg N (by omega)
    have d := distance_step (t N) (g N) s lr
    have e : sq (fun q => t (N + 1) q - s q) = sq fun q => t N q - lr * g N q - s q := by rw [ht N (by omega)]
    rw [← e] at d
    have l := G.lower s
    have b := hdec N (by omega)
    set f := loss M lab (t N)
    set f' := loss M lab s
    set D := dot (g N) fun q => t N q - s q
    have h2 : (sq (fun q => t 0 q - s q) - sq fun q => t (N + 1) q - s q) / (2 * lr) =
        (sq (fun q => t 0 q - s q) - sq fun q => t N q - s q) / (2 * lr) + D - lr / 2 * sq (g N) := by
      rw [d]
      field_simp
      ring
    have h3 : N * loss M lab (t (N + 1)) ≤ N * f := by
      refine mul_le_mul_of_nonneg_left (b.trans (sub_le_self _ (mul_nonneg (by linarith) (sq_nonneg' _)))) (Nat.cast_nonneg N)
    rw [h2]
    push_cast
    linarith

end

end DW.LogisticL
