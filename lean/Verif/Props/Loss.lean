import Verif.Lemmas.Metric
import Mathlib.Analysis.SpecialFunctions.Log.Deriv
/-!
# The loss and the metrics (C45-C49)
-/

set_option autoImplicit false

namespace DW.Props.LossP

open DW.Spec DW.MatL DW.Loss DW.LossL DW.Metric DW.MetricL

variable {B n : Nat}

/-- Predictions `P` as a tensor of shape `{B, n}`. -/
noncomputable def predTensor (P : Fin B → Fin n → ℝ) : Buf := ⟨[B, n], rowMajor P⟩

/-- Class labels as a tensor of shape `{B, 1}`. -/
noncomputable def labelTensor (L : Fin B → Fin n) : Buf := ⟨[B, 1], List.ofFn fun i => ((L i).val : ℝ)⟩

/-! ## C45 -/

/-- **C45**: the loss is the mean negative log-likelihood, for every batch and class count whose
element count fits an `int`. -/
theorem loss_forward (hsz : B * n ≤ 2147483647) (P : Fin B → Fin n → ℝ) (L : Fin B → Fin n) :
    ∃ log, forward (predTensor P) (labelTensor L) = .ok (crossEntropy P L, log) := by
  refine ⟨⟨[B, n], cpuLog (rowMajor P)⟩, ?_⟩
  rw [predTensor, labelTensor, forward_eq, cpuLog, rowMajor_map]
  have := nllLoss_labels hsz (fun i j => Real.log (P i j)) L
  rw [labelVals] at this
  rw [this]
  rfl

/-- **C45**: it is non-negative for rows of probabilities. -/
theorem loss_nonneg (P : Fin B → Fin n → ℝ) (L : Fin B → Fin n) (h0 : ∀ i j, 0 ≤ P i j)
    (h1 : ∀ i, ∑ j, P i j = 1) : 0 ≤ crossEntropy P L := by
  unfold crossEntropy
  apply div_nonneg _ (Nat.cast_nonneg _)
  rw [neg_nonneg]
  refine Finset.sum_nonpos fun i _ => ?_
  refine Real.log_nonpos (h0 _ _) ?_
  rw [← h1 i]
  exact Finset.single_le_sum (f := fun j => P i j) (fun j _ => h0 i j) (Finset.mem_univ (L i))

/-- **C45**: it is zero exactly when every label is predicted with certainty. -/
theorem loss_zero_iff (hB : 0 < B) (P : Fin B → Fin n → ℝ) (L : Fin B → Fin n) (h0 : ∀ i, 0 < P i (L i))
    (h1 : ∀ i, P i (L i) ≤ 1) : crossEntropy P L = 0 ↔ ∀ i, P i (L i) = 1 := by
  unfold crossEntropy
  have hB' : (B : ℝ) ≠ 0 := by exact_mod_cast hB.ne'
  rw [div_eq_zero_iff, or_iff_left hB', neg_eq_zero,
    Finset.sum_eq_zero_iff_of_nonpos (fun i _ => Real.log_nonpos (h0 i).le (h1 i))]
  refine ⟨fun h i => ?_, fun h i _ => by rw [h i, Real.log_one]⟩
  exact Real.eq_one_of_pos_of_log_eq_zero (h0 i) (h i (Finset.mem_univ _))

/-- **C45**: predictions that are not a matrix, and labels that are not a column of the same
height, throw, whatever their contents. -/
theorem loss_throws (pred target : Buf) (h : ¬ ∃ b c, pred.shape = [b, c] ∧ target.shape = [b, 1]) :
    forward pred target = .throw .dw := by
  unfold forward
  rw [(checks_eq pred target).2 h, Out.bind_throw]

example : forward (predTensor (B := 2) (n := 2) fun _ _ => 1) ⟨[2], [0, 1]⟩ = .throw .dw :=
  loss_throws _ _ (by rintro ⟨b, c, -, h⟩; simp at h)

/-- Two rows of two classes. -/
noncomputable def demoP : Fin 2 → Fin 2 → ℝ := ![![1 / 4, 3 / 4], ![1 / 2, 1 / 2]]

/-- Their labels. -/
def demoL : Fin 2 → Fin 2 := ![1, 0]

example : ∃ log, forward (predTensor demoP) (labelTensor demoL) =
    .ok (-(Real.log (3 / 4) + Real.log (1 / 2)) / 2, log) := by
  obtain ⟨log, h⟩ := loss_forward (by norm_num) demoP demoL
  refine ⟨log, h.trans ?_⟩
  simp [crossEntropy, demoP, demoL, Fin.sum_univ_two]

example : 0 ≤ crossEntropy demoP demoL :=
  loss_nonneg _ _ (by intro i j; fin_cases i <;> fin_cases j <;> norm_num [demoP, demoL])
    (by intro i; fin_cases i <;> norm_num [demoP, Fin.sum_univ_two])

/-! ## C46 -/

/-- The gradient the loss should produce. -/
noncomputable def lossGrad (P : Fin B → Fin n → ℝ) (L : Fin B → Fin n) (i : Fin B) (j : Fin n) : ℝ :=
  if j = L i then -1 / (B * P i j) else 0

/-- **C46**: `backward` writes that gradient, whatever the gradient tensor held before. -/
theorem loss_backward (hsz : B * n ≤ 2147483647) (P : Fin B → Fin n → ℝ) (L : Fin B → Fin n) (old : List ℝ)
    (hold : old.length = B * n) :
    backward (predTensor P) (labelTensor L) ⟨[B, n], old⟩ = .ok (predTensor (lossGrad P L)) := by
  have hc := (checks_eq (predTensor P) (labelTensor L)).1 B n rfl rfl
  have h1 : ((B : Int) * (n : Int)).toNat = B * n := by rw [← Int.natCast_mul]; exact Int.toNat_natCast _
  unfold backward
  rw [hc]
  simp only [predTensor, labelTensor, List.length_cons, List.length_nil, beq_self_eq_true, Out.check_true,
    Out.bind_ok, h1, Int.toNat_natCast]
  rw [firstN_all _ _ (by simp), Out.bind_ok, firstN_all _ _ (by simp), Out.bind_ok,
    firstN_all _ _ (by simpa using hold), Out.bind_ok]
  have hs := slice_labels hsz L
  rw [labelVals] at hs
  rw [hs, Out.bind_ok]
  obtain ⟨g, e, hlen, hq⟩ := scatter_spec (rowMajor P) (List.ofFn fun i : Fin B => ((i.val * n + (L i).val : Nat) : Int))
    (List.replicate old.length 0) (by simp [hold]) (fun k hk => by
      obtain ⟨i, rfl⟩ := (List.mem_ofFn' _ _).1 hk
      refine ⟨by positivity, ?_⟩
      rw [rowMajor_length, Int.toNat_natCast]
      exact index_lt i (L i))
  rw [e, Out.bind_ok]
  have hdrop : (List.replicate old.length (0 : ℝ)).drop (B * n) = [] := by simp [hold]
  rw [hdrop, List.append_nil]
  congr 2
  apply eq_rowMajor
  · simpa [hold] using hlen
  · intro i j
    obtain ⟨h1, h2⟩ := hq _ _ (rowMajor_getElem? P i j)
    rw [List.getElem?_map]
    by_cases hj : j = L i
    · rw [h1 ((mem_slice L i j).2 hj)]
      simp only [Option.map_some, lossGrad, if_pos hj, Int.cast_natCast]
      rw [div_div, mul_comm]
    · rw [h2 (fun h => hj ((mem_slice L i j).1 h)),
        List.getElem?_replicate_of_lt (by rw [hold]; exact index_lt i j)]
      simp only [Option.map_some, lossGrad, if_neg hj, zero_div]

/-- **C46**: it is the derivative of the loss `forward` computes, with respect to the predictions. -/
theorem loss_gradient (P : Fin B → Fin n → ℝ) (L : Fin B → Fin n) (hP : ∀ i, P i (L i) ≠ 0) :
    HasGradient (fun x : Fin B × Fin n → ℝ => crossEntropy (fun i j => x (i, j)) L) (fun q => P q.1 q.2)
      (fun q => lossGrad P L q.1 q.2) := by
  let pr : Fin B → (Fin B × Fin n → ℝ) →L[ℝ] ℝ := fun i => ContinuousLinearMap.proj (i, L i)
  have hlog : ∀ i : Fin B, HasFDerivAt (fun x : Fin B × Fin n → ℝ => Real.log (x (i, L i)))
      ((P i (L i))⁻¹ • pr i) (fun q => P q.1 q.2) := fun i =>
    HasFDerivAt.log (f := fun x : Fin B × Fin n → ℝ => x (i, L i)) (x := fun q => P q.1 q.2) (pr i).hasFDerivAt (hP i)
  have hsum := HasFDerivAt.fun_sum (u := Finset.univ) fun i _ => hlog i
  have hall := (hsum.neg).mul_const ((B : ℝ)⁻¹)
  refine ⟨(B : ℝ)⁻¹ • -∑ i, (P i (L i))⁻¹ • pr i, ?_, ?_⟩
  · have e : (fun x : Fin B × Fin n → ℝ => crossEntropy (fun i j => x (i, j)) L) =
        fun x => (-(fun y => ∑ i, Real.log (y (i, L i)))) x * (B : ℝ)⁻¹ := by
      funext x; simp [crossEntropy, div_eq_mul_inv]
    rw [e]
    exact hall
  · intro v
    simp only [ContinuousLinearMap.smul_apply, ContinuousLinearMap.neg_apply, ContinuousLinearMap.sum_apply, smul_eq_mul,
      Fintype.sum_prod_type, lossGrad, ite_mul, zero_mul, Finset.sum_ite_eq', Finset.sum_ite_eq, Finset.mem_univ, if_true]
    rw [mul_neg, Finset.mul_sum, ← Finset.sum_neg_distrib]
    refine Finset.sum_congr rfl fun i _ => ?_
    show -((B : ℝ)⁻¹ * ((P i (L i))⁻¹ * v (i, L i))) = _
    rw [neg_div, one_div, mul_inv]; ring

/-- The gradient tensor must have the shape of the predictions. -/
theorem loss_backward_throws (pred target grad : Buf)
    (h : ¬ ∃ b c, pred.shape = [b, c] ∧ target.shape = [b, 1] ∧ grad.shape = [b, c]) :
    backward pred target grad = .throw .dw := by
  unfold backward
  by_cases h2 : pred.shape.length = 2
  · by_cases h3 : grad.shape = pred.shape
    · have : ¬ ∃ b c, pred.shape = [b, c] ∧ target.shape = [b, 1] := by
        rintro ⟨b, c, e1, e2⟩; exact h ⟨b, c, e1, e2, by rw [h3, e1]⟩
      simp [h2, h3, (checks_eq pred target).2 this]
    · simp [h2, h3, Out.check]
  · simp [h2, Out.check]

example : backward (predTensor demoP) (labelTensor demoL) ⟨[2, 2], [7, 7, 7, 7]⟩ =
    .ok ⟨[2, 2], [0, -2 / 3, -1, 0]⟩ := by
  refine (loss_backward (by norm_num) demoP demoL [7, 7, 7, 7] rfl).trans ?_
  simp only [predTensor, rowMajor]
  congr 2
  simp [List.ofFn_succ, Fin.divNat, Fin.modNat, lossGrad, demoP, demoL, Fin.ext_iff]
  norm_num

example : HasGradient (fun x : Fin 2 × Fin 2 → ℝ => crossEntropy (fun i j => x (i, j)) demoL)
    (fun q => demoP q.1 q.2) (fun q => lossGrad demoP demoL q.1 q.2) :=
  loss_gradient _ _ (by intro i; fin_cases i <;> norm_num [demoP, demoL])

/-! ## C47 -/

/-- The property: whatever the labels, the loss computes or throws. -/
def LabelsAreSafe : Prop := ∀ (B n : Nat) (P : Fin B → Fin n → ℝ) (T : Fin B → ℝ), B * n ≤ 2147483647 →
  (forward (predTensor P) ⟨[B, 1], List.ofFn T⟩).isUb = false

/-- **C47**, what holds: the call never throws, and it is defined exactly when row `i`'s label,
rounded towards zero, added to `n * i` is an index into the whole matrix. -/
theorem loss_defined_iff (hsz : B * n ≤ 2147483647) (P : Fin B → Fin n → ℝ) (T : Fin B → ℝ) :
    ((∃ r, forward (predTensor P) ⟨[B, 1], List.ofFn T⟩ = .ok r) ↔
      ∀ i : Fin B, 0 ≤ trunc (T i) + (n : Int) * i.val ∧ trunc (T i) + (n : Int) * i.val < (B : Int) * n) ∧
    ((¬ ∃ r, forward (predTensor P) ⟨[B, 1], List.ofFn T⟩ = .ok r) →
      (forward (predTensor P) ⟨[B, 1], List.ofFn T⟩).isUb = true) := by
  rw [predTensor, forward_eq]
  have h := nllLoss_ok_iff (B := B) (n := n) (cpuLog (rowMajor P)) (by simp [cpuLog]) hsz T
  change ((∃ x, _) ↔ (∀ i : Fin B, _)) ∧ _ at h
  rw [← h.1]
  have hnt := h.2
  cases hl : nllLoss (cpuLog (rowMajor P)) (List.ofFn T) B n with
  | ok x => simp
  | throw e => exact absurd hl (hnt e)
  | ub u => simp [Out.isUb]

/-- **C47** is false: the label 1 with one class reads past the predictions. -/
theorem labels_safe_refuted : ¬ LabelsAreSafe := by
  intro h
  have h1 := h 1 1 (fun _ _ => 1) (fun _ => 1) (by norm_num)
  have h2 := (loss_defined_iff (B := 1) (n := 1) (by norm_num) (fun _ _ => 1) (fun _ => 1)).2 (fun hr => by
    have := ((loss_defined_iff (B := 1) (n := 1) (by norm_num) (fun _ _ => 1) (fun _ => 1)).1.1 hr 0).2
    simp [trunc] at this)
  rw [h1] at h2
  exact absurd h2 (by simp)

/-- A negative label is no better: with label -1 in the first row, whatever the sizes and the
other labels, the access is outside the predictions. -/
theorem negative_label_ub (hsz : B * n ≤ 2147483647) (P : Fin B → Fin n → ℝ) (T : Fin B → ℝ) (hB : 0 < B)
    (hT : T ⟨0, hB⟩ ≤ -1) : (forward (predTensor P) ⟨[B, 1], List.ofFn T⟩).isUb = true := by
  refine (loss_defined_iff hsz P T).2 fun hr => ?_
  have := ((loss_defined_iff hsz P T).1.1 hr ⟨0, hB⟩).1
  have h2 : trunc (T ⟨0, hB⟩) ≤ -1 := by
    unfold trunc
    rw [if_neg (by linarith)]
    exact Int.ceil_le.2 (by exact_mod_cast hT)
  simp only [Nat.cast_zero, mul_zero, add_zero] at this
  omega

/-- **C47**, the part that holds: labels that round to a class, of any (also fractional) value,
are safe. What is missing: labels outside `[0, n)` are not rejected. -/
theorem labels_safe_partial (hsz : B * n ≤ 2147483647) (P : Fin B → Fin n → ℝ) (T : Fin B → ℝ)
    (hT : ∀ i, 0 ≤ T i ∧ T i < n) : ∃ r, forward (predTensor P) ⟨[B, 1], List.ofFn T⟩ = .ok r := by
  refine (loss_defined_iff hsz P T).1.2 fun i => ?_
  obtain ⟨h0, h1⟩ := hT i
  have e : trunc (T i) = ⌊T i⌋ := by rw [trunc, if_pos h0]
  have h2 : 0 ≤ ⌊T i⌋ := Int.floor_nonneg.2 h0
  have h3 : ⌊T i⌋ < (n : Int) := Int.floor_lt.2 (by exact_mod_cast h1)
  rw [e]
  have h4 : (n : Int) * i.val + n ≤ (B : Int) * n := by
    have : n * i.val + n ≤ B * n := by
      calc n * i.val + n = (i.val + 1) * n := by ring
        _ ≤ B * n := Nat.mul_le_mul_right _ i.2
    exact_mod_cast this
  have h5 : (0 : Int) ≤ (n : Int) * i.val := by positivity
  omega

/-- A label outside its row but inside the matrix silently reads another row: label `-1` in the
second row of a two-class batch scores the first row's last class. -/
theorem label_reads_other_row : ∃ log, forward (predTensor demoP) ⟨[2, 1], [0, -1]⟩ =
    .ok (-(Real.log (1 / 4) + Real.log (3 / 4)) / 2, log) := by
  refine ⟨⟨[2, 2], cpuLog (rowMajor demoP)⟩, ?_⟩
  have h := forward_eq demoP ![0, -1]
  have e : List.ofFn ![(0 : ℝ), -1] = [0, -1] := by simp [List.ofFn_succ]
  rw [e] at h
  refine Eq.trans (h : forward (predTensor demoP) ⟨[2, 1], [0, -1]⟩ = _) ?_
  have hl : cpuLog (rowMajor demoP) = [Real.log (1 / 4), Real.log (3 / 4), Real.log (1 / 2), Real.log (1 / 2)] := by
    simp [cpuLog, rowMajor, List.ofFn_succ, Fin.divNat, Fin.modNat, demoP, Fin.ext_iff]
  have hm : matchTarget (2 : Int) [0, -1] 0 = .ok [0, 1] := by
    have h0 : toInt 0 = .ok 0 := by simp [toInt]
    have h1 : toInt (-1) = .ok (-1) := by
      have : trunc (-1) = -1 := by
        rw [trunc, if_neg (by norm_num)]
        exact_mod_cast Int.ceil_intCast (R := ℝ) (-1)
      rw [toInt_eq, this]; norm_num
    simp [matchTarget, h0, h1]
  simp [nllLoss, hl, hm, at1d, Out.idx, List.mapM_cons]

example : ∃ r, forward (predTensor demoP) ⟨[2, 1], List.ofFn ![(0.5 : ℝ), 1.75]⟩ = .ok r :=
  labels_safe_partial (by norm_num) _ _ (by intro i; fin_cases i <;> norm_num)

/-! ## C48 -/

/-- **C48**: the fraction of rows whose first maximal column is the label. The label tensor may
have any shape with `B` elements. -/
theorem accuracy_eq (hn : 0 < n) (P : Fin B → Fin n → ℝ) (shape : List Int) (T : Fin B → ℝ) :
    accuracy (predTensor P) ⟨shape, List.ofFn T⟩ = .ok (fraction fun i => Hit (P i) (T i)) := by
  have h1 : ((B : Int) * (n : Int)).toNat = B * n := by rw [← Int.natCast_mul]; exact Int.toNat_natCast _
  unfold accuracy
  simp only [predTensor, dim, Out.idx, List.length_cons, List.length_nil, beq_self_eq_true, Out.check_true, Out.bind_ok,
    List.getElem?_cons_zero, List.getElem?_cons_succ, List.length_ofFn, h1, Int.toNat_natCast]
  rw [firstN_all _ _ (by simp), Out.bind_ok]
  have := accLoop_spec hn P T B 0 (by omega)
  rw [show countBelow (fun i => Hit (P i) (T i)) 0 = 0 from rfl] at this
  rw [this, Out.bind_ok, countBelow_all]
  simp [fraction]

theorem fraction_mem (p : Fin B → Prop) : 0 ≤ fraction p ∧ fraction p ≤ 1 := by
  classical
  unfold fraction
  refine ⟨by positivity, ?_⟩
  rcases Nat.eq_zero_or_pos B with rfl | hB
  · simp
  · rw [div_le_one (by exact_mod_cast hB)]
    have := Finset.card_filter_le (Finset.univ : Finset (Fin B)) p
    simp only [Finset.card_univ, Fintype.card_fin] at this
    exact_mod_cast (by convert this)

/-- **C48**: 1 exactly when every row matches. -/
theorem accuracy_one_iff (hB : 0 < B) (hn : 0 < n) (P : Fin B → Fin n → ℝ) (shape : List Int) (T : Fin B → ℝ) :
    accuracy (predTensor P) ⟨shape, List.ofFn T⟩ = .ok 1 ↔ ∀ i, Hit (P i) (T i) := by
  classical
  rw [accuracy_eq hn, Out.ok.injEq, fraction, div_eq_one_iff_eq (by exact_mod_cast hB.ne')]
  have : ∀ s : Finset (Fin B), ((s.card : ℝ) = B) ↔ s = Finset.univ := fun s => by
    rw [← Finset.card_eq_iff_eq_univ, Fintype.card_fin]; exact_mod_cast Iff.rfl
  rw [this, Finset.eq_univ_iff_forall]
  simp

/-- **C48**: it lies in `[0, 1]`. -/
theorem accuracy_range (hn : 0 < n) (P : Fin B → Fin n → ℝ) (shape : List Int) (T : Fin B → ℝ) :
    ∃ a, accuracy (predTensor P) ⟨shape, List.ofFn T⟩ = .ok a ∧ 0 ≤ a ∧ a ≤ 1 :=
  ⟨_, accuracy_eq hn P shape T, fraction_mem _⟩

theorem firstMax_mono {r : Fin n → ℝ} {f : ℝ → ℝ} (hf : StrictMono f) (k : Fin n) :
    FirstMax (fun j => f (r j)) k ↔ FirstMax r k := by
  simp [FirstMax, hf.le_iff_le, hf.lt_iff_lt]

/-- **C48**: unchanged by a strictly increasing transform, which may differ from row to row. -/
theorem accuracy_mono (hn : 0 < n) (P : Fin B → Fin n → ℝ) (shape : List Int) (T : Fin B → ℝ) (f : Fin B → ℝ → ℝ)
    (hf : ∀ i, StrictMono (f i)) :
    accuracy (predTensor fun i j => f i (P i j)) ⟨shape, List.ofFn T⟩ =
      accuracy (predTensor P) ⟨shape, List.ofFn T⟩ := by
  rw [accuracy_eq hn, accuracy_eq hn]
  simp only [Hit, firstMax_mono (hf _)]

/-- **C48**: unchanged by permuting the rows of both arguments together. -/
theorem accuracy_perm (hn : 0 < n) (P : Fin B → Fin n → ℝ) (shape : List Int) (T : Fin B → ℝ)
    (σ : Equiv.Perm (Fin B)) :
    accuracy (predTensor fun i => P (σ i)) ⟨shape, List.ofFn fun i => T (σ i)⟩ =
      accuracy (predTensor P) ⟨shape, List.ofFn T⟩ := by
  classical
  rw [accuracy_eq hn, accuracy_eq hn]
  congr 1
  unfold fraction
  congr 2
  refine Finset.card_bij (fun i _ => σ i) (fun i hi => ?_) (fun _ _ _ _ h => σ.injective h) (fun i hi => ?_)
  · simpa using hi
  · exact ⟨σ.symm i, by simpa using hi, by simp⟩

/-- Predictions that are not a matrix, or another number of labels, throw. -/
theorem accuracy_throws (pred labels : Buf)
    (h : ¬ ∃ b c, pred.shape = [b, c] ∧ (labels.vals.length : Int) = b) : accuracy pred labels = .throw .dw := by
  rcases pred with ⟨s, v⟩
  unfold accuracy dim
  match s, h with
  | [], _ => simp [Out.check]
  | [_], _ => simp [Out.check]
  | _ :: _ :: _ :: _, _ => simp [Out.check]
  | [B, n], h =>
    have : ¬ (labels.vals.length : Int) = B := fun e => h ⟨B, n, rfl, e⟩
    simp [Out.check, Out.idx, this]

theorem demo_hits : Hit (demoP 0) 1 ∧ Hit (demoP 1) 0 := by
  constructor
  · refine ⟨1, ⟨?_, ?_⟩, by simp⟩
    · intro j; fin_cases j <;> norm_num [demoP, demoL]
    · intro j hj; fin_cases j
      · norm_num [demoP, demoL]
      · simp at hj
  · refine ⟨0, ⟨?_, ?_⟩, by simp⟩
    · intro j; fin_cases j <;> norm_num [demoP, demoL]
    · intro j hj; exact absurd hj (by simp)

example : accuracy (predTensor demoP) ⟨[2, 1], List.ofFn ![1, 0]⟩ = .ok 1 := by
  refine (accuracy_one_iff (by norm_num) (by norm_num) demoP [2, 1] ![1, 0]).2 fun i => ?_
  fin_cases i
  · exact demo_hits.1
  · exact demo_hits.2

example : accuracy (predTensor demoP) ⟨[2, 1], List.ofFn ![1, 1]⟩ ≠ .ok 1 := by
  rw [Ne, accuracy_one_iff (by norm_num) (by norm_num)]
  intro h
  obtain ⟨k, hk, e⟩ := h 1
  obtain ⟨k', hk', e'⟩ := demo_hits.2
  rw [firstMax_unique hk hk', e'] at e
  simp at e

/-! ## C49 -/

/-- The one-hot encoding of labels. -/
noncomputable def oneHot (L : Fin B → Fin n) (i : Fin B) (j : Fin n) : ℝ := if j = L i then 1 else 0

theorem oneHot_firstMax (L : Fin B → Fin n) (i : Fin B) : FirstMax (oneHot L i) (L i) := by
  constructor
  · intro j; simp only [oneHot, if_true]; split <;> norm_num
  · intro j hj; simp [oneHot, hj.ne]

/-- `accuracyOneHot` compares first maxima row by row, whatever the second matrix is. -/
theorem accuracyOneHot_eq (hn : 0 < n) (P Y : Fin B → Fin n → ℝ) :
    accuracyOneHot (predTensor P) (predTensor Y) = .ok (fraction fun i => ∃ k, FirstMax (P i) k ∧ FirstMax (Y i) k) := by
  have h1 : ((B : Int) * (n : Int)).toNat = B * n := by rw [← Int.natCast_mul]; exact Int.toNat_natCast _
  unfold accuracyOneHot
  simp only [predTensor, dim, Out.idx, List.length_cons, List.length_nil, beq_self_eq_true, Out.check_true, Out.bind_ok,
    List.getElem?_cons_zero, List.getElem?_cons_succ, h1, Int.toNat_natCast]
  rw [firstN_all _ _ (by simp), Out.bind_ok, firstN_all _ _ (by simp), Out.bind_ok]
  have := accOneHotLoop_spec hn P Y B 0 (by omega)
  rw [show countBelow (fun i => SameClass (P i) (Y i)) 0 = 0 from rfl] at this
  rw [this, Out.bind_ok, countBelow_all]
  simp only [fraction, Int.cast_natCast]
  rfl

/-- **C49**: on one-hot labels it agrees with `accuracy`. -/
theorem accuracyOneHot_agrees (hn : 0 < n) (P : Fin B → Fin n → ℝ) (L : Fin B → Fin n) (shape : List Int) :
    accuracyOneHot (predTensor P) (predTensor (oneHot L)) =
      accuracy (predTensor P) ⟨shape, List.ofFn fun i => ((L i).val : ℝ)⟩ := by
  rw [accuracyOneHot_eq hn, accuracy_eq hn]
  congr 2
  funext i
  apply propext
  constructor
  · rintro ⟨k, h1, h2⟩
    exact ⟨k, h1, by rw [firstMax_unique h2 (oneHot_firstMax L i)]⟩
  · rintro ⟨k, h1, h2⟩
    have : k = L i := Fin.ext (by exact_mod_cast h2)
    exact ⟨k, h1, by rw [this]; exact oneHot_firstMax L i⟩

/-- Tensors of different shapes throw. -/
theorem accuracyOneHot_throws (pred labels : Buf) (h : labels.shape ≠ pred.shape) :
    accuracyOneHot pred labels = .throw .dw := by
  simp [accuracyOneHot, Out.check, h]

example : accuracyOneHot (predTensor demoP) (predTensor (oneHot demoL)) = .ok 1 := by
  rw [accuracyOneHot_agrees (by norm_num) demoP demoL [2], accuracy_one_iff (by norm_num) (by norm_num)]
  intro i
  fin_cases i
  · simpa [demoL] using demo_hits.1
  · simpa [demoL] using demo_hits.2

end DW.Props.LossP
