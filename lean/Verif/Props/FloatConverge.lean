import Verif.Props.FloatStep
import Verif.Props.Converge
import Verif.Lemmas.LogisticNoise
/-!
# Training a linear classifier in float (C125)

The runs of `SGD` on the model `Softmax(Linear(x))` in `float`, each iteration as in C104. `exactLoss` is the loss over the reals.
The facts about gradient descent with errors are in `Verif/Lemmas/LogisticNoise.lean`.
-/

set_option autoImplicit false

namespace DW.Props.FloatConvergeP

open DW.Float DW.Props.FloatSoftmaxP DW.Props.FloatLossP DW.Props.FloatDotP DW.Props.FloatGradP DW.Props.FloatAccuracyP
open DW.Props.FloatTrainP (exactLoss weightSlope biasSlope weightSlope_eq biasSlope_eq Setting deviation step_error StepWithin LogAccurate)
open DW.LogisticL (noise noisy_regret noisy_within noisy_converges)
open DW.Props.ConvergeP (coeff coeff_logits coeff_bounded)

variable {R : Rounding} {F : Libm R} {B n k : ℕ}

noncomputable section

/-- The parameters of a classifier with `n` inputs and `k` classes. -/
abbrev Ix (k n : ℕ) : Type := Fin k × Fin n ⊕ Fin k

/-- Weights and biases as one vector. -/
def join (w : Fin k → Fin n → ℝ) (b : Fin k → ℝ) : Ix k n → ℝ
  | .inl p => w p.1 p.2
  | .inr j => b j

/-- The square of the distance of two sets of parameters. -/
def apart (w w' : Fin k → Fin n → ℝ) (b b' : Fin k → ℝ) : ℝ := ∑ j, ∑ r, (w j r - w' j r) ^ 2 + ∑ j, (b j - b' j) ^ 2

/-- The values of the numbers. -/
def vals (W : Fin k → Fin n → Flt) : Fin k → Fin n → ℝ := fun j r => (W j r).val

/-- The values of the numbers. -/
def vals₁ (b : Fin k → Flt) : Fin k → ℝ := fun j => (b j).val

theorem apart_eq (w w' : Fin k → Fin n → ℝ) (b b' : Fin k → ℝ) : LogisticL.sq (fun q => join w b q - join w' b' q) = apart w w' b b' := by
  unfold LogisticL.sq apart
  rw [Fintype.sum_sum_type, Fintype.sum_prod_type]
  rfl

theorem loss_eq (x : Fin B → Fin n → ℝ) (label : Fin B → Fin k) (w : Fin k → Fin n → ℝ) (b : Fin k → ℝ) :
    LogisticL.loss (coeff (Equiv.refl (Ix k n)) x) label (join w b) = exactLoss x label w b := by
  unfold LogisticL.loss
  rw [coeff_logits]
  rfl

/-- The partial derivatives are the gradient. -/
theorem gradient (x : Fin B → Fin n → ℝ) (label : Fin B → Fin k) (w : Fin k → Fin n → ℝ) (b : Fin k → ℝ) :
    LogisticL.Gradient (coeff (Equiv.refl (Ix k n)) x) label (join w b) (join (weightSlope x label w b) (biasSlope x label w b)) := fun v => by
  have h := LogisticL.loss_deriv (M := coeff (Equiv.refl (Ix k n)) x) (lab := label) (join w b) v
  have e : LogisticL.dot (join (weightSlope x label w b) (biasSlope x label w b)) v =
      LogisticL.slope (coeff (Equiv.refl (Ix k n)) x) label (join w b) v := by
    unfold LogisticL.dot LogisticL.slope
    rw [coeff_logits, coeff_logits, Fintype.sum_sum_type, Fintype.sum_prod_type, ← Finset.sum_add_distrib]
    simp only [join, weightSlope_eq, biasSlope_eq]
    obtain ⟨p, hp⟩ : ∃ p : Fin B → Fin k → ℝ, p = fun i j => softmax (fun j' => ∑ r, x i r * w j' r + b j') j := ⟨_, rfl⟩
    have e1 : ∀ i j, softmax (fun j' => ∑ r, x i r * w j' r + b j') j = p i j := fun i j => by rw [hp]
    have e2 : ∀ i j, LogisticL.prob (Spec.linear x (fun k j => w k j) (fun k => b k) i) j = p i j := fun i j => by rw [hp]; rfl
    simp only [e1]
    have e3 : ∀ i, ∑ j, LogisticL.prob (Spec.linear x (fun k j => w k j) (fun k => b k) i) j *
        Spec.linear x (fun k j => v (.inl (k, j))) (fun k => v (.inr k)) i j -
        Spec.linear x (fun k j => v (.inl (k, j))) (fun k => v (.inr k)) i (label i) =
        ∑ j, (p i j - if j = label i then 1 else 0) * (∑ r, x i r * v (.inl (j, r)) + v (.inr j)) := fun i => by
      simp only [e2, sub_mul, Finset.sum_sub_distrib, ite_mul, one_mul, zero_mul, Finset.sum_ite_eq', Finset.mem_univ, if_true]
      rfl
    refine Eq.trans ?_ (congrArg (· / (B : ℝ)) (Finset.sum_congr rfl fun i _ => (e3 i).symm))
    rw [Finset.sum_div]
    simp only [Finset.sum_div]
    rw [Finset.sum_comm]
    refine Finset.sum_congr rfl fun j _ => ?_
    simp only [Finset.sum_mul]
    rw [Finset.sum_comm, ← Finset.sum_add_distrib]
    refine Finset.sum_congr rfl fun i _ => ?_
    have e4 : ∀ r, (p i j - if j = label i then 1 else 0) / B * x i r * v (.inl (j, r)) =
        (p i j - if j = label i then 1 else 0) / B * (x i r * v (.inl (j, r))) := fun r => by ring
    simp only [e4]
    rw [← Finset.mul_sum]
    ring
  rw [e]
  exact h

variable {ε ε' A S V D Q : ℝ} {lr : Flt} {X : Fin B → Fin n → Flt} {label : Fin B → Fin k}

/-- The error of a parameter after one iteration, for parameters up to `V`. -/
def stepError (B n k : ℕ) (ε A S V lr : ℝ) : ℝ := u * V + lr * A * deviation B n k ε S + 3 * η

/-- The error of the loss that is reported. -/
def lossError (B n k : ℕ) (ε ε' S : ℝ) : ℝ := (80 * B + 1.3 * k + 2.2 * (2 * n + 1) * S + 250) * u + 2.5 * ε + 76 * ε'

/-- What the errors of one iteration add to the square of the distance. -/
def drift (B n k : ℕ) (ε A S V D lr : ℝ) : ℝ := k * (n + 1) * (stepError B n k ε A S V lr * (2 * D + stepError B n k ε A S V lr))

/-- What training is given: `N` batches of `B` rows of `n` finite inputs up to `A`, the learning rate, finite parameters to start from,
and parameters `ws`, `bs` to compare with: the start is so near to them, and their losses are so small, that `D` is not exceeded. -/
structure Course (F : Libm R) (ε ε' A S V D Q : ℝ) (lr : Flt) (N : ℕ) (X : ℕ → Fin B → Fin n → Flt) (label : ℕ → Fin B → Fin k)
    (W₀ : Fin k → Fin n → Flt) (b₀ : Fin k → Flt) (ws : Fin k → Fin n → ℝ) (bs : Fin k → ℝ) : Prop where
  batch : 0 < B
  batchLe : B ≤ 2 ^ 18
  classes : k ≤ 2 ^ 18
  inputs : n ≤ 2 ^ 15
  expErr : ExpAccurate F ε
  logErr : LogAccurate F ε'
  ε0 : 0 ≤ ε
  ε1 : ε ≤ 1 / 2 ^ 10
  ε'0 : 0 ≤ ε'
  ε'1 : ε' ≤ 1 / 2 ^ 10
  finX : ∀ t < N, ∀ i r, (X t i r).Finite
  leX : ∀ t < N, ∀ i r, |(X t i r).val| ≤ A
  A1 : 1 ≤ A
  A2 : A ≤ 2 ^ 60
  rows : ∀ t < N, ∀ i, 1 + ∑ r, (X t i r).val ^ 2 ≤ Q
  finLr : lr.Finite
  lr0 : 0 < lr.val
  lrQ : lr.val * (2 * Q) ≤ 1
  finW : ∀ j r, (W₀ j r).Finite
  finb : ∀ j, (b₀ j).Finite
  D0 : 0 ≤ D
  leW : ∀ j r, |ws j r| + D ≤ V
  leb : ∀ j, |bs j| + D ≤ V
  S1 : 1 ≤ S
  S2 : S ≤ 30
  leS : (n * A + 1) * V ≤ S
  budget : apart (vals W₀) ws (vals₁ b₀) bs + 2 * lr.val * ∑ t ∈ Finset.range N, exactLoss (vals (X t)) (label t) ws bs +
    N * drift B n k ε A S V D lr.val ≤ D ^ 2

theorem stepError_nonneg {l : ℝ} (hε : 0 ≤ ε) (hA : 0 ≤ A) (hS : 0 ≤ S) (hV : 0 ≤ V) (hl : 0 ≤ l) : 0 ≤ stepError B n k ε A S V l := by
  have hu := u_pos
  have he : 0 ≤ η := by unfold η; positivity
  unfold stepError deviation
  positivity

theorem card_ix : Fintype.card (Ix k n) = k * (n + 1) := by
  simp [Fintype.card_sum, Fintype.card_prod, mul_add]

theorem noise_eq {l : ℝ} : noise (Fintype.card (Ix k n)) (stepError B n k ε A S V l) D = drift B n k ε A S V D l := by
  unfold noise drift
  rw [card_ix]
  push_cast
  ring

section course

variable {N : ℕ} {X : ℕ → Fin B → Fin n → Flt} {label : ℕ → Fin B → Fin k} {W₀ : Fin k → Fin n → Flt} {b₀ : Fin k → Flt}
  {ws : Fin k → Fin n → ℝ} {bs : Fin k → ℝ} {W : ℕ → Fin k → Fin n → Flt} {b : ℕ → Fin k → Flt} {loss : ℕ → Flt}

theorem Course.Q1 (h : Course F ε ε' A S V D Q lr N X label W₀ b₀ ws bs) (hN : 0 < N) : 1 ≤ Q := by
  have := h.rows 0 hN ⟨0, h.batch⟩
  have h2 : 0 ≤ ∑ r, (X 0 ⟨0, h.batch⟩ r).val ^ 2 := Finset.sum_nonneg fun _ _ => sq_nonneg _
  linarith

/-- Parameters within `D` of those compared with can be trained further. -/
theorem Course.setting (h : Course F ε ε' A S V D Q lr N X label W₀ b₀ ws bs) {t : ℕ} (ht : t < N) {w : Fin k → Fin n → Flt} {c : Fin k → Flt}
    (hw : ∀ j r, (w j r).Finite) (hc : ∀ j, (c j).Finite) (hd : apart (vals w) ws (vals₁ c) bs ≤ D ^ 2) :
    Setting F ε ε' A S lr (X t) w c ∧ (∀ j r, |(w j r).val| ≤ V) ∧ ∀ j, |(c j).val| ≤ V := by
  rw [← apart_eq] at hd
  have hle := LogisticL.abs_le_of_sq h.D0 hd
  have h1 : ∀ j r, |(w j r).val| ≤ V := fun j r => by
    have a : |(w j r).val - ws j r| ≤ D := hle (.inl (j, r))
    have b := abs_add_le ((w j r).val - ws j r) (ws j r)
    rw [sub_add_cancel] at b
    linarith [h.leW j r]
  have h2 : ∀ j, |(c j).val| ≤ V := fun j => by
    have a : |(c j).val - bs j| ≤ D := hle (.inr j)
    have b := abs_add_le ((c j).val - bs j) (bs j)
    rw [sub_add_cancel] at b
    linarith [h.leb j]
  have hA := h.A1
  have hQ := h.Q1 (by omega)
  have hl := h.lrQ
  have hlr : lr.val ≤ 1 := by
    have := mul_le_mul_of_nonneg_left hQ h.lr0.le
    linarith [h.lr0]
  have hV : ∀ j : Fin k, V ≤ 30 := fun j => by
    have a := (abs_nonneg _).trans (h2 j)
    have b : 0 ≤ n * A * V := by positivity
    linarith [h.leS, h.S2]
  refine ⟨⟨h.batch, h.batchLe, h.classes, h.inputs, h.expErr, h.logErr, h.ε0, h.ε1, h.ε'0, h.ε'1, h.finX t ht, hw, hc, h.finLr, h.leX t ht, ?_, ?_, ?_,
    h.A1, h.A2, h.S1, h.S2, ?_⟩, h1, h2⟩
  · exact fun j r => (h1 j r).trans ((hV j).trans (by norm_num))
  · exact fun j => (h2 j).trans ((hV j).trans (by norm_num))
  · rw [abs_of_pos h.lr0]
    exact hlr.trans (by norm_num)
  · intro i j
    unfold linearSize
    have : ∀ r ∈ Finset.univ, |(X t i r).val| * |(w j r).val| ≤ A * V := fun r _ =>
      mul_le_mul (h.leX t ht i r) (h1 j r) (abs_nonneg _) (by linarith)
    have s := Finset.sum_le_sum this
    rw [Finset.sum_const, Finset.card_univ, Fintype.card_fin, nsmul_eq_mul] at s
    linarith [h2 j, h.leS]

/-- The parameters after `t` iterations, as a vector. -/
def path (W : ℕ → Fin k → Fin n → Flt) (b : ℕ → Fin k → Flt) (t : ℕ) : Ix k n → ℝ := join (vals (W t)) (vals₁ (b t))

/-- The gradient there. -/
def slopes (X : ℕ → Fin B → Fin n → Flt) (label : ℕ → Fin B → Fin k) (W : ℕ → Fin k → Fin n → Flt) (b : ℕ → Fin k → Flt) (t : ℕ) : Ix k n → ℝ :=
  join (weightSlope (vals (X t)) (label t) (vals (W t)) (vals₁ (b t))) (biasSlope (vals (X t)) (label t) (vals (W t)) (vals₁ (b t)))

/-- An iteration, from parameters within `D` of those compared with. -/
theorem Course.moved (h : Course F ε ε' A S V D Q lr N X label W₀ b₀ ws bs) (hr : Run R F lr N X label W₀ b₀ W b loss) {t : ℕ} (ht : t < N)
    (hw : ∀ j r, (W t j r).Finite) (hc : ∀ j, (b t j).Finite) (hd : apart (vals (W t)) ws (vals₁ (b t)) bs ≤ D ^ 2) :
    ((loss t).Finite ∧ |(loss t).val - exactLoss (vals (X t)) (label t) (vals (W t)) (vals₁ (b t))| ≤ lossError B n k ε ε' S) ∧
    (∀ j r, (W (t + 1) j r).Finite) ∧ (∀ j, (b (t + 1) j).Finite) ∧
    ∀ q, |path W b (t + 1) q - (path W b t q - lr.val * slopes X label W b t q)| ≤ stepError B n k ε A S V lr.val := by
  obtain ⟨hs, h1, h2⟩ := h.setting ht hw hc hd
  obtain ⟨hl, hW, hb⟩ := step_error hs (hr.step t ht)
  have hu := u_pos
  refine ⟨hl, fun j r => (hW j r).1, fun j => (hb j).1, ?_⟩
  have hdev : 0 ≤ deviation B n k ε S := by
    have := h.S1
    have := h.ε0
    unfold deviation
    positivity
  rintro (⟨j, r⟩ | j)
  · have := (hW j r).2
    unfold StepWithin at this
    rw [abs_of_pos h.lr0] at this
    unfold stepError
    refine this.trans ?_
    have := mul_le_mul_of_nonneg_left (h1 j r) hu.le
    linarith
  · have := (hb j).2
    unfold StepWithin at this
    rw [abs_of_pos h.lr0] at this
    unfold stepError
    refine this.trans ?_
    have a := mul_le_mul_of_nonneg_left (h2 j) hu.le
    have c := mul_le_mul_of_nonneg_right (mul_le_mul_of_nonneg_left h.A1 h.lr0.le) hdev
    linarith

theorem Course.V0 (h : Course F ε ε' A S V D Q lr N X label W₀ b₀ ws bs) : 0 ≤ V := by
  have a := h.leb (label 0 ⟨0, h.batch⟩)
  linarith [abs_nonneg (bs (label 0 ⟨0, h.batch⟩)), h.D0]

theorem Course.error0 (h : Course F ε ε' A S V D Q lr N X label W₀ b₀ ws bs) : 0 ≤ stepError B n k ε A S V lr.val :=
  stepError_nonneg h.ε0 (by linarith [h.A1]) (by linarith [h.S1]) h.V0 h.lr0.le

theorem exactLoss_nonneg (x : Fin B → Fin n → ℝ) (l : Fin B → Fin k) (w : Fin k → Fin n → ℝ) (c : Fin k → ℝ) : 0 ≤ exactLoss x l w c := by
  rw [← loss_eq]
  exact LogisticL.loss_nonneg _

theorem Course.drift0 (h : Course F ε ε' A S V D Q lr N X label W₀ b₀ ws bs) : 0 ≤ drift B n k ε A S V D lr.val := by
  have := h.error0
  have := h.D0
  unfold drift
  positivity

/-- The first iterations. -/
theorem Course.first (h : Course F ε ε' A S V D Q lr N X label W₀ b₀ ws bs) {m : ℕ} (hm : m ≤ N) :
    Course F ε ε' A S V D Q lr m X label W₀ b₀ ws bs :=
  { h with
    finX := fun t ht => h.finX t (by omega)
    leX := fun t ht => h.leX t (by omega)
    rows := fun t ht => h.rows t (by omega)
    budget := by
      have a : (m : ℝ) ≤ N := by exact_mod_cast hm
      have b := mul_le_mul_of_nonneg_right a h.drift0
      have c := Finset.sum_le_sum_of_subset_of_nonneg (Finset.range_mono hm) fun t _ _ => exactLoss_nonneg (vals (X t)) (label t) ws bs
      have d := mul_le_mul_of_nonneg_left c (by linarith [h.lr0] : 0 ≤ 2 * lr.val)
      linarith [h.budget] }

theorem run_first (hr : Run R F lr N X label W₀ b₀ W b loss) {m : ℕ} (hm : m ≤ N) : Run R F lr m X label W₀ b₀ W b loss :=
  ⟨hr.startW, hr.startb, fun t ht => hr.step t (by omega)⟩

/-- The budget, for the parameters as vectors. -/
theorem Course.budget' (h : Course F ε ε' A S V D Q lr N X label W₀ b₀ ws bs) (hr : Run R F lr N X label W₀ b₀ W b loss) :
    LogisticL.sq (fun q => path W b 0 q - join ws bs q) + 2 * lr.val * ∑ t ∈ Finset.range N,
      LogisticL.loss (coeff (Equiv.refl (Ix k n)) (vals (X t))) (label t) (join ws bs) +
      N * noise (Fintype.card (Ix k n)) (stepError B n k ε A S V lr.val) D ≤ D ^ 2 := by
  unfold path
  rw [apart_eq, noise_eq, hr.startW, hr.startb]
  simp only [loss_eq]
  exact h.budget

/-- The parameters stay finite and near those compared with. -/
theorem Course.within (h : Course F ε ε' A S V D Q lr N X label W₀ b₀ ws bs) (hr : Run R F lr N X label W₀ b₀ W b loss) {t : ℕ} (ht : t ≤ N) :
    ((∀ j r, (W t j r).Finite) ∧ ∀ j, (b t j).Finite) ∧ apart (vals (W t)) ws (vals₁ (b t)) bs ≤ D ^ 2 := by
  induction t using Nat.strong_induction_on with
  | _ t ih =>
    have hd : apart (vals (W t)) ws (vals₁ (b t)) bs ≤ D ^ 2 := by
      rw [← apart_eq]
      have hc := h.first ht
      rcases Nat.eq_zero_or_pos t with rfl | h0
      · have := hc.budget
        simp only [Finset.range_zero, Finset.sum_empty, mul_zero, add_zero, Nat.cast_zero, zero_mul] at this
        rw [apart_eq, hr.startW, hr.startb]
        exact this
      refine noisy_within (t := path W b) (g := slopes X label W b) (lt_of_lt_of_le one_pos (hc.Q1 h0)) h.lr0 h.lrQ h.D0 h.error0
        (fun m hm => coeff_bounded _ (h.rows m (by omega))) (fun m _ => gradient _ _ _ _) _ (hc.budget' (run_first hr ht)) fun m hm _ => ?_
      obtain ⟨⟨f1, f2⟩, d⟩ := ih m hm (by omega)
      exact (h.moved hr (by omega) f1 f2 d).2.2.2
    refine ⟨?_, hd⟩
    rcases t with _ | t
    · rw [hr.startW, hr.startb]
      exact ⟨h.finW, h.finb⟩
    · obtain ⟨⟨f1, f2⟩, d⟩ := ih t (by omega) (by omega)
      have := h.moved hr (by omega) f1 f2 d
      exact ⟨this.2.1, this.2.2.1⟩

/-- **C125, changing batches.** Training in `float`, whatever the orders of the additions: parameters stay finite and within `D` of
those compared with; the losses that are reported are the exact ones up to rounding; and their sum is, up to a factor and rounding,
not above that of any such parameters but for their distance from the start. -/
theorem float_regret (h : Course F ε ε' A S V D Q lr N X label W₀ b₀ ws bs) (hr : Run R F lr N X label W₀ b₀ W b loss) :
    (∀ t ≤ N, ((∀ j r, (W t j r).Finite) ∧ ∀ j, (b t j).Finite) ∧ apart (vals (W t)) ws (vals₁ (b t)) bs ≤ D ^ 2) ∧
    (∀ t < N, (loss t).Finite ∧ |(loss t).val - exactLoss (vals (X t)) (label t) (vals (W t)) (vals₁ (b t))| ≤ lossError B n k ε ε' S) ∧
    (1 - 2 * lr.val * Q) * ∑ t ∈ Finset.range N, (loss t).val ≤ ∑ t ∈ Finset.range N, exactLoss (vals (X t)) (label t) ws bs +
      apart (vals W₀) ws (vals₁ b₀) bs / (2 * lr.val) + N * (drift B n k ε A S V D lr.val / (2 * lr.val) + lossError B n k ε ε' S) := by
  have hw := fun t (ht : t ≤ N) => h.within hr ht
  have hm := fun t (ht : t < N) => h.moved hr ht (hw t ht.le).1.1 (hw t ht.le).1.2 (hw t ht.le).2
  refine ⟨hw, fun t ht => (hm t ht).1, ?_⟩
  rcases Nat.eq_zero_or_pos N with rfl | h0
  · simp only [Finset.range_zero, Finset.sum_empty, mul_zero, Nat.cast_zero, zero_mul, zero_add, add_zero]
    have : 0 ≤ apart (vals W₀) ws (vals₁ b₀) bs := by
      rw [← apart_eq]
      exact LogisticL.sq_nonneg' _
    exact div_nonneg this (by linarith [h.lr0])
  have hQ := h.Q1 h0
  have key := noisy_regret (Ms := fun t => coeff (Equiv.refl (Ix k n)) (vals (X t))) (labs := label) (t := path W b) (g := slopes X label W b) (lt_of_lt_of_le one_pos hQ) h.lr0 h.lrQ h.D0 h.error0
    (fun m hm => coeff_bounded _ (h.rows m hm)) (fun m _ => gradient _ _ _ _) _ (h.budget' hr) fun t ht _ => (hm t ht).2.2.2
  unfold path at key
  simp only [loss_eq, apart_eq] at key
  rw [noise_eq, hr.startW, hr.startb] at key
  have hE : ∑ t ∈ Finset.range N, (loss t).val ≤ ∑ t ∈ Finset.range N, exactLoss (vals (X t)) (label t) (vals (W t)) (vals₁ (b t)) +
      N * lossError B n k ε ε' S := by
    have : ∀ t ∈ Finset.range N, (loss t).val ≤ exactLoss (vals (X t)) (label t) (vals (W t)) (vals₁ (b t)) + lossError B n k ε ε' S :=
      fun t ht => by linarith [(abs_le.1 (hm t (Finset.mem_range.1 ht)).1.2).2]
    refine (Finset.sum_le_sum this).trans ?_
    rw [Finset.sum_add_distrib, Finset.sum_const, Finset.card_range, nsmul_eq_mul]
  have hl0 := h.lr0
  have c0 : 0 ≤ 1 - 2 * lr.val * Q := by linarith [h.lrQ]
  have c1 : 1 - 2 * lr.val * Q ≤ 1 := by
    have := mul_pos hl0 (by linarith : 0 < Q)
    linarith
  have e0 : 0 ≤ N * lossError B n k ε ε' S := mul_nonneg (Nat.cast_nonneg N) ((abs_nonneg _).trans (hm 0 h0).1.2)
  have e1 := mul_le_mul_of_nonneg_left hE c0
  have e2 := mul_le_mul_of_nonneg_right c1 e0
  have e3 : 0 ≤ apart (vals (W N)) ws (vals₁ (b N)) bs := by
    rw [← apart_eq]
    exact LogisticL.sq_nonneg' _
  obtain ⟨L, hL⟩ : ∃ L, L = ∑ t ∈ Finset.range N, exactLoss (vals (X t)) (label t) (vals (W t)) (vals₁ (b t)) := ⟨_, rfl⟩
  obtain ⟨L', hL'⟩ : ∃ L, L = ∑ t ∈ Finset.range N, exactLoss (vals (X t)) (label t) ws bs := ⟨_, rfl⟩
  rw [← hL, ← hL'] at key
  rw [← hL] at e1
  rw [← hL']
  obtain ⟨a0, ha0⟩ : ∃ a, a = apart (vals W₀) ws (vals₁ b₀) bs := ⟨_, rfl⟩
  obtain ⟨d, hd⟩ : ∃ d, d = drift B n k ε A S V D lr.val := ⟨_, rfl⟩
  rw [← ha0, ← hd] at key ⊢
  have e4 : (1 - 2 * lr.val * Q) * L ≤ L' + a0 / (2 * lr.val) + N * (d / (2 * lr.val)) := by
    have : 2 * lr.val * ((1 - 2 * lr.val * Q) * L) ≤ 2 * lr.val * (L' + a0 / (2 * lr.val) + N * (d / (2 * lr.val))) := by
      have q : 2 * lr.val * (L' + a0 / (2 * lr.val) + N * (d / (2 * lr.val))) = 2 * lr.val * L' + a0 + N * d := by field_simp
      rw [q]
      linarith
    exact le_of_mul_le_mul_left this (by linarith)
  linarith

end course

theorem softmax_sub_le (z : Fin k → ℝ) (l j : Fin k) : |softmax z j - if j = l then 1 else 0| ≤ 1 := by
  have a := LogisticL.prob_nonneg (a := z) j
  have b := LogisticL.prob_le_one (a := z) l j
  have e : softmax z j = LogisticL.prob z j := rfl
  rw [e, abs_le]
  split_ifs <;> constructor <;> linarith

/-- Partial derivatives are not above the inputs. -/
theorem slopes_le (hB : 0 < B) {x : Fin B → Fin n → ℝ} (l : Fin B → Fin k) (w : Fin k → Fin n → ℝ) (c : Fin k → ℝ) (hA : 1 ≤ A)
    (hx : ∀ i r, |x i r| ≤ A) (q : Ix k n) : |join (weightSlope x l w c) (biasSlope x l w c) q| ≤ A := by
  have hBr : (0 : ℝ) < B := by exact_mod_cast hB
  have h1 : ∀ i j, |(softmax (fun j' => ∑ r, x i r * w j' r + c j') j - if j = l i then 1 else 0) / B| ≤ 1 / B := fun i j => by
    rw [abs_div, abs_of_pos hBr]
    exact div_le_div_of_nonneg_right (softmax_sub_le _ _ _) hBr.le
  rcases q with ⟨j, r⟩ | j
  · show |weightSlope x l w c j r| ≤ A
    rw [weightSlope_eq]
    refine (Finset.abs_sum_le_sum_abs _ _).trans ((Finset.sum_le_sum (g := fun _ => 1 / B * A) fun i _ => ?_).trans ?_)
    · rw [abs_mul]
      exact mul_le_mul (h1 i j) (hx i r) (abs_nonneg _) (by positivity)
    · rw [Finset.sum_const, Finset.card_univ, Fintype.card_fin, nsmul_eq_mul]
      apply le_of_eq
      field_simp
  · show |biasSlope x l w c j| ≤ A
    rw [biasSlope_eq]
    refine (Finset.abs_sum_le_sum_abs _ _).trans ((Finset.sum_le_sum fun i _ => h1 i j).trans ?_)
    rw [Finset.sum_const, Finset.card_univ, Fintype.card_fin, nsmul_eq_mul]
    refine le_trans (le_of_eq ?_) hA
    field_simp

section exists_run

variable {N : ℕ} {X : ℕ → Fin B → Fin n → Flt} {label : ℕ → Fin B → Fin k} {W₀ : Fin k → Fin n → Flt} {b₀ : Fin k → Flt}
  {ws : Fin k → Fin n → ℝ} {bs : Fin k → ℝ}

/-- Training can be carried out. -/
theorem Course.run_exists (h : Course F ε ε' A S V D Q lr N X label W₀ b₀ ws bs) (hn : 0 < n) :
    ∃ W b loss, Run R F lr N X label W₀ b₀ W b loss := by
  suffices hm : ∀ m ≤ N, ∃ W b loss, Run R F lr m X label W₀ b₀ W b loss from hm N le_rfl
  intro m
  induction m with
  | zero => exact fun _ => ⟨fun _ => W₀, fun _ => b₀, fun _ => 0, rfl, rfl, fun t ht => absurd ht (by omega)⟩
  | succ m ih =>
    intro hm
    obtain ⟨W, b, loss, hr⟩ := ih (by omega)
    obtain ⟨⟨f1, f2⟩, d⟩ := (h.first (by omega : m ≤ N)).within hr le_rfl
    obtain ⟨hs, -⟩ := h.setting (by omega : m < N) f1 f2 d
    obtain ⟨l, w, c, hit⟩ := iteration_exists (R := R) (F := F) lr (X := X m) (label := label m) (W := W m) (b := b m) h.batch hn
      (Fin.pos (label 0 ⟨0, h.batch⟩)) fun Y hY i j => (hs.logits_error hY i j).1
    refine ⟨fun t => if t = m + 1 then w else W t, fun t => if t = m + 1 then c else b t, fun t => if t = m then l else loss t, ?_, ?_, fun t ht => ?_⟩
    · simpa using hr.startW
    · simpa using hr.startb
    · rcases Nat.lt_succ_iff_lt_or_eq.1 ht with h1 | rfl
      · simp only [show t ≠ m + 1 by omega, show t + 1 ≠ m + 1 by omega, show t ≠ m by omega, if_false]
        exact hr.step t h1
      · simpa using hit

end exists_run

section fixed

variable {N : ℕ} {W₀ : Fin k → Fin n → Flt} {b₀ : Fin k → Flt}
  {ws : Fin k → Fin n → ℝ} {bs : Fin k → ℝ} {W : ℕ → Fin k → Fin n → Flt} {b : ℕ → Fin k → Flt} {loss : ℕ → Flt}

/-- How much the loss may increase in one iteration. -/
def rise (B n k : ℕ) (ε A S V lr : ℝ) : ℝ := k * (n + 1) * (A * stepError B n k ε A S V lr)

/-- **C125, one batch.** Training in `float` on the same batch: the loss never increases by more than rounding errors, and after `t`
iterations it is not above that of any parameters as above, but for a term that vanishes like `1 / t` and rounding errors. -/
theorem float_converges (h : Course F ε ε' A S V D Q lr N (fun _ => X) (fun _ => label) W₀ b₀ ws bs)
    (hr : Run R F lr N (fun _ => X) (fun _ => label) W₀ b₀ W b loss) :
    (∀ t < N, exactLoss (vals X) label (vals (W (t + 1))) (vals₁ (b (t + 1))) ≤
      exactLoss (vals X) label (vals (W t)) (vals₁ (b t)) + rise B n k ε A S V lr.val) ∧
    ∀ t ≤ N, 0 < t → exactLoss (vals X) label (vals (W t)) (vals₁ (b t)) ≤ exactLoss (vals X) label ws bs +
      apart (vals W₀) ws (vals₁ b₀) bs / (2 * lr.val * t) + (t + 1) * rise B n k ε A S V lr.val + drift B n k ε A S V D lr.val / (2 * lr.val) := by
  have hrise : Fintype.card (Ix k n) * (A * stepError B n k ε A S V lr.val) = rise B n k ε A S V lr.val := by
    unfold rise
    rw [card_ix]
    push_cast
    ring
  have key : ∀ m ≤ N, 0 < m → _ := fun m hm h0 =>
    noisy_converges (t := path W b) (g := slopes (fun _ => X) (fun _ => label) W b) (lt_of_lt_of_le one_pos ((h.first hm).Q1 h0)) h.lr0 h.lrQ
      h.D0 h.error0 (by linarith [h.A1] : 0 ≤ A) (M := coeff (Equiv.refl (Ix k n)) (vals X)) (lab := label) (N := m)
      (coeff_bounded _ (h.rows 0 (by omega))) (fun t => gradient _ _ _ _)
      (fun t q => slopes_le h.batch _ _ _ h.A1 (h.leX 0 (by omega)) q) (join ws bs)
      (by
        have := (h.first hm).budget' (run_first hr hm)
        rw [Finset.sum_const, Finset.card_range, nsmul_eq_mul] at this
        linarith)
      fun t ht _ => (h.moved hr (by omega) (h.within hr (by omega)).1.1 (h.within hr (by omega)).1.2 (h.within hr (by omega)).2).2.2.2
  constructor
  · intro t ht
    have := (key N le_rfl (by omega)).1 t ht
    unfold path at this
    rw [loss_eq, loss_eq, hrise] at this
    exact this
  · intro t ht h0
    have := (key t ht h0).2
    unfold path at this
    rw [loss_eq, loss_eq, hrise, apart_eq, noise_eq, hr.startW, hr.startb] at this
    have hl := h.lr0
    have ht0 : (0 : ℝ) < t := by exact_mod_cast h0
    obtain ⟨a0, ha0⟩ : ∃ a, a = apart (vals W₀) ws (vals₁ b₀) bs := ⟨_, rfl⟩
    obtain ⟨d, hd⟩ : ∃ d, d = drift B n k ε A S V D lr.val := ⟨_, rfl⟩
    obtain ⟨c, hc⟩ : ∃ c, c = rise B n k ε A S V lr.val := ⟨_, rfl⟩
    rw [← ha0, ← hd, ← hc] at this ⊢
    obtain ⟨x, hx⟩ : ∃ x, x = exactLoss (vals X) label (vals (W t)) (vals₁ (b t)) := ⟨_, rfl⟩
    obtain ⟨y, hy⟩ : ∃ x, x = exactLoss (vals X) label ws bs := ⟨_, rfl⟩
    rw [← hx, ← hy] at this ⊢
    have e : 2 * lr.val * t * (y + a0 / (2 * lr.val * t) + (t + 1) * c + d / (2 * lr.val)) =
        2 * lr.val * t * y + a0 + t * (2 * lr.val * ((t + 1) * c) + d) := by
      field_simp
      ring
    refine le_of_mul_le_mul_left ?_ (by positivity : 0 < 2 * lr.val * t)
    rw [e]
    linarith

end fixed

/-! ### An example: one row, two classes -/

/-- The weights `1` and `-1`. -/
def sides : Fin 2 → Fin 1 → ℝ := fun j _ => if j = 0 then 1 else -1

/-- Their loss on the input `1` of class `0`. -/
theorem sides_loss : exactLoss (B := 1) (fun _ _ => 1) (fun _ => 0) sides (fun _ => 0) ≤ 0.14 := by
  have e : exactLoss (B := 1) (fun _ _ => 1) (fun _ => 0) sides (fun _ => 0) = Real.log (1 + Real.exp (-2)) := by
    unfold exactLoss softmax sides
    simp only [Finset.univ_unique, Finset.sum_singleton, Fin.sum_univ_two, Nat.cast_one, div_one, one_mul, add_zero, if_true]
    norm_num
    rw [← Real.log_inv, inv_div]
    congr 1
    rw [add_div, div_self (Real.exp_pos 1).ne', ← Real.exp_sub]
    norm_num
  have h1 : (2.7 : ℝ) ≤ Real.exp 1 := by linarith [Real.exp_one_gt_d9]
  have h2 : Real.exp (-2) ≤ 0.14 := by
    have : (2.7 : ℝ) ^ 2 ≤ Real.exp 1 ^ 2 := pow_le_pow_left₀ (by norm_num) h1 2
    rw [← Real.exp_nat_mul] at this
    norm_num at this
    rw [Real.exp_neg]
    rw [inv_le_comm₀ (Real.exp_pos 2) (by norm_num)]
    refine le_trans ?_ this
    norm_num
  rw [e]
  have := Real.log_le_sub_one_of_pos (by positivity : 0 < 1 + Real.exp (-2))
  linarith

/-- The learning rate `1/8`. -/
def rate : Flt := .num false (1 / 8)

theorem rate_val : rate.val = 1 / 8 := by
  simp [rate, Flt.val]

/-- 40 iterations from zero, compared with `sides`. -/
theorem course_example : Course (B := 1) (n := 1) (k := 2) libm u u 1 8 3 2 2 rate 40 (fun _ _ _ => .num false 1) (fun _ _ => 0)
    (fun _ _ => 0) (fun _ => 0) sides (fun _ => 0) where
  batch := by norm_num
  batchLe := by norm_num
  classes := by norm_num
  inputs := by norm_num
  expErr := libm_accurate
  logErr := FloatTrainP.libm_log
  ε0 := u_pos.le
  ε1 := by unfold u; norm_num
  ε'0 := u_pos.le
  ε'1 := by unfold u; norm_num
  finX _ _ _ _ := by simp [Flt.Finite]
  leX _ _ _ _ := by simp [Flt.val]
  A1 := le_rfl
  A2 := by norm_num
  rows _ _ _ := by simp [Flt.val]; norm_num
  finLr := by simp [rate, Flt.Finite]
  lr0 := by rw [rate_val]; norm_num
  lrQ := by rw [rate_val]; norm_num
  finW _ _ := by show Flt.Finite (.num false 0); simp [Flt.Finite]
  finb _ := by show Flt.Finite (.num false 0); simp [Flt.Finite]
  D0 := by norm_num
  leW j r := by unfold sides; split_ifs <;> norm_num
  leb _ := by norm_num
  S1 := by norm_num
  S2 := by norm_num
  leS := by norm_num
  budget := by
    have h1 : apart (vals (fun (_ : Fin 2) (_ : Fin 1) => (0 : Flt))) sides (vals₁ fun _ => (0 : Flt)) (fun _ => 0) = 2 := by
      have z : (0 : Flt).val = 0 := by show Flt.val (.num false 0) = 0; simp [Flt.val]
      simp only [apart, vals, vals₁, z, Fin.sum_univ_two, Finset.univ_unique, Finset.sum_singleton, sides]
      norm_num
    have h2 : vals (fun (_ : Fin 1) (_ : Fin 1) => Flt.num false 1) = fun _ _ => (1 : ℝ) := by
      funext i j
      simp [vals, Flt.val]
    have h3 : drift 1 1 2 u 1 8 3 2 (1 / 8) ≤ 1 / 1000 := by
      unfold drift stepError deviation u η
      norm_num
    rw [h1, rate_val, h2, Finset.sum_const, Finset.card_range, nsmul_eq_mul]
    have h4 := sides_loss
    push_cast
    linarith

/-- From a loss of `log 2`, about `0.69`, these iterations reach one below `0.35`, whatever the orders of the additions. -/
example {W : ℕ → Fin 2 → Fin 1 → Flt} {b : ℕ → Fin 2 → Flt} {loss : ℕ → Flt}
    (hr : Run binary32 libm rate 40 (fun _ _ _ => .num false 1) (fun _ (_ : Fin 1) => 0) (fun _ _ => 0) (fun _ => 0) W b loss) :
    exactLoss (B := 1) (fun _ _ => 1) (fun _ => 0) (vals (W 40)) (vals₁ (b 40)) ≤ 0.35 := by
  have h := (float_converges course_example hr).2 40 le_rfl (by norm_num)
  have h1 : apart (vals (fun (_ : Fin 2) (_ : Fin 1) => (0 : Flt))) sides (vals₁ fun _ => (0 : Flt)) (fun _ => 0) = 2 := by
    have z : (0 : Flt).val = 0 := by show Flt.val (.num false 0) = 0; simp [Flt.val]
    simp only [apart, vals, vals₁, z, Fin.sum_univ_two, Finset.univ_unique, Finset.sum_singleton, sides]
    norm_num
  have h2 : vals (fun (_ : Fin 1) (_ : Fin 1) => Flt.num false 1) = fun _ _ => (1 : ℝ) := by
    funext i j
    simp [vals, Flt.val]
  have h3 : drift 1 1 2 u 1 8 3 2 (1 / 8) ≤ 1 / 10000 := by
    unfold drift stepError deviation u η
    norm_num
  have h4 : rise 1 1 2 u 1 8 3 (1 / 8) ≤ 1 / 10000 := by
    unfold rise stepError deviation u η
    norm_num
  rw [h1, rate_val, h2] at h
  have h5 := sides_loss
  norm_num at h
  linarith

/-- There are such runs. -/
example : ∃ W b loss, Run binary32 libm rate 40 (fun _ (_ : Fin 1) (_ : Fin 1) => .num false 1) (fun _ (_ : Fin 1) => (0 : Fin 2)) (fun _ _ => 0)
    (fun _ => 0) W b loss := course_example.run_exists Nat.one_pos

end

end DW.Props.FloatConvergeP
