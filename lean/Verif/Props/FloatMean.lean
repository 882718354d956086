import Verif.Model.FloatMean
import Verif.Props.FloatBatchNorm
import Verif.Props.FloatConverge
/-!
# The averages that the samples print (C126)
-/

set_option autoImplicit false

namespace DW.Props.FloatMeanP

open DW.Float DW.Props.FloatSoftmaxP DW.Props.FloatDotP DW.Props.FloatGradP DW.Props.FloatCountP DW.Props.FloatBatchNormP
open DW.Props.FloatTrainP (exactLoss)
open DW.Props.FloatConvergeP (Course apart vals vals₁ drift lossError float_regret)
open scoped ENNReal

noncomputable section

variable {R : Rounding} {B n N : ℕ}

theorem runningSum_sum (x : ℕ → Flt) : ∀ N, 0 < N → SumOf R (List.ofFn fun i : Fin N => x i) (runningSum R x N)
  | 1, _ => by
    simpa [runningSum] using SumOf.start (R := R) (x 0)
  | N + 2, _ => by
    have h := SumOf.add (runningSum_sum x (N + 1) (Nat.succ_pos _)) (SumOf.one (R := R) (x (N + 1)))
    rw [List.ofFn_succ_last]
    simpa [runningSum] using h

/-- **C126, errors.** The average of finite numbers up to `A` that is printed. -/
theorem printed_error {x : ℕ → Flt} (hN : 0 < N) (hN' : N ≤ 2 ^ 20) (hx : ∀ t < N, (x t).Finite) {A : ℝ} (hA : A ≤ 2 ^ 100)
    (hxA : ∀ t < N, |(x t).val| ≤ A) :
    (printedMean R x N).Finite ∧ |(printedMean R x N).val - (∑ t ∈ Finset.range N, (x t).val) / N| ≤ 1.3 * (N + 1) * u * A + 4 * η := by
  have h := mean_error (R := R) (X := fun i : Fin N => x i) ⟨_, runningSum_sum x N hN, rfl⟩ hN hN' (fun i => hx i i.2) hA fun i => hxA i i.2
  rw [Finset.sum_range fun t => (x t).val]
  unfold Spec.mean at h
  rw [Fintype.card_fin] at h
  exact h

/-- **C126, no batch.** Nothing was added and nothing is divided by zero: NaN. -/
theorem printed_empty (x : ℕ → Flt) : printedMean R x 0 = .nan := by
  have r0 : R.rd 0 = 0 := by simpa using rd_nat (R := R) (k := 0) (by norm_num)
  show divWith R.rd (.num false 0) (.num false (R.rd ((0 : ℕ) : ℝ≥0∞))) = .nan
  simp [divWith, r0]

/-- Sums of numbers between 0 and 1. -/
theorem sum_units {a : ℕ → ℝ≥0∞} {x : ℕ → Flt} (hN : N ≤ 2 ^ 24) (hx : ∀ t < N, x t = .num false (a t)) (ha : ∀ t < N, a t ≤ 1 ∧ R.rd (a t) = a t) :
    ∃ y : ℝ≥0∞, runningSum R x N = .num false y ∧ y ≤ N ∧ R.rd y = y ∧ (∀ t < N, a t ≤ y) ∧ ((∀ t < N, a t = 1) → y = N) ∧
      ((∀ t < N, a t = 0) → y = 0) := by
  induction N with
  | zero =>
    have r0 : R.rd 0 = 0 := by simpa using rd_nat (R := R) (k := 0) (by norm_num)
    exact ⟨0, rfl, by simp, r0, fun t ht => absurd ht (by omega), by simp, fun _ => rfl⟩
  | succ N ih =>
    obtain ⟨y, h1, h2, h3, h4, h5, h6⟩ := ih (by omega) (fun t ht => hx t (by omega)) fun t ht => ha t (by omega)
    obtain ⟨a1, a2⟩ := ha N (by omega)
    refine ⟨R.rd (y + a N), ?_, ?_, R.idem _, fun t ht => ?_, fun h => ?_, fun h => ?_⟩
    · show add R (runningSum R x N) (x N) = _
      rw [h1, hx N (by omega)]
      simp [add, addWith]
    · exact rd_le_nat hN (by push_cast; exact add_le_add h2 a1)
    · rcases Nat.lt_succ_iff_lt_or_eq.1 ht with h | rfl
      · exact (h4 t h).trans (h3 ▸ R.mono (by rw [h3]; exact le_self_add))
      · exact a2 ▸ R.mono (by rw [a2]; exact le_add_self)
    · rw [h5 fun t ht => h t (by omega), h N (by omega)]
      exact_mod_cast rd_nat (R := R) hN
    · rw [h6 fun t ht => h t (by omega), h N (by omega)]
      simpa using rd_nat (R := R) (k := 0) (by norm_num)

/-- **C126, accuracy.** What the validation loop prints: with `right t` rows of batch `t` predicted right, a number between 0 and 1 near
the fraction of all rows that are right; 1 if all are, and 0 exactly if none is. -/
theorem validation {P : ℕ → Fin B → Fin n → Flt} {c : ℕ → Fin B → Fin n} {r : Flt} (hB : 0 < B) (hB' : B ≤ 2 ^ 24) (hn : n ≤ 2 ^ 24 + 1)
    (hN : 0 < N) (hN' : N ≤ 2 ^ 20) (h : Validation R P (fun t i => ofNat R (c t i)) N r) :
    ∃ pick : ℕ → Fin B → Fin n, (∀ t < N, ∀ i, IsMax (P t i) (P t i (pick t i))) ∧
      r.Finite ∧ 0 ≤ r.val ∧ r.val ≤ 1 ∧
      |r.val - ((∑ t ∈ Finset.range N, (Finset.univ.filter fun i => pick t i = c t i).card : ℕ) : ℝ) / (N * B)| ≤ (1.3 * N + 2.5) * u ∧
      ((∀ t < N, ∀ i, pick t i = c t i) → r = 1) ∧ (r.val = 0 ↔ ∀ t < N, ∀ i, pick t i ≠ c t i) := by
  classical
  obtain ⟨acc, hacc, rfl⟩ := h
  have hex : ∀ t, ∃ pick : Fin B → Fin n, t < N → (∀ i, IsMax (P t i) (P t i (pick i))) ∧
      acc t = .num false (R.rd (((Finset.univ.filter fun i => pick i = c t i).card : ℝ≥0∞) / B)) := fun t => by
    by_cases ht : t < N
    · obtain ⟨pick, h1, h2⟩ := accuracy_partial (hacc t ht) hB hB' hn
      exact ⟨pick, fun _ => ⟨h1, h2⟩⟩
    · exact ⟨c t, fun h => absurd h ht⟩
  choose pick hpick using hex
  obtain ⟨right, hright⟩ : ∃ right : ℕ → ℕ, right = fun t => (Finset.univ.filter fun i => pick t i = c t i).card := ⟨_, rfl⟩
  have hr : ∀ t, (Finset.univ.filter fun i => pick t i = c t i).card = right t := fun t => by rw [hright]
  have hle : ∀ t, right t ≤ B := fun t => by
    rw [← hr]
    exact (Finset.card_le_univ _).trans (by simp)
  have hall : ∀ t, right t = B ↔ ∀ i, pick t i = c t i := fun t => by
    rw [← hr]
    constructor
    · intro h i
      have := Finset.eq_univ_of_card _ (h.trans (by simp))
      have hm : i ∈ Finset.univ.filter fun i => pick t i = c t i := by
        rw [this]
        exact Finset.mem_univ i
      exact (Finset.mem_filter.1 hm).2
    · intro h
      rw [Finset.filter_true_of_mem fun i _ => h i]
      simp
  have hnone : ∀ t, right t = 0 ↔ ∀ i, pick t i ≠ c t i := fun t => by
    rw [← hr, Finset.card_eq_zero, Finset.filter_eq_empty_iff]
    simp
  have hx : ∀ t < N, acc t = .num false (R.rd ((right t : ℝ≥0∞) / B)) := fun t ht => by
    rw [(hpick t ht).2, hr]
  have hread := fun t => fraction_reads (R := R) (hle t) hB hB'
  obtain ⟨y, y1, y2, y3, y4, y5, y6⟩ := sum_units (R := R) (hN'.trans (by norm_num)) hx fun t _ => ⟨(hread t).1, R.idem _⟩
  have hu := u_pos
  have hη0 := η_pos
  have hη : η ≤ u * u / 10 := by unfold η u; norm_num
  have hu1 : u ≤ 1 / 10 ^ 7 := FloatGradP.u_small
  have hN0 : (N : ℝ≥0∞) ≠ 0 := by exact_mod_cast hN.ne'
  have hNr : (0 : ℝ) < N := by exact_mod_cast hN
  have hBr : (0 : ℝ) < B := by exact_mod_cast hB
  have hp : printedMean R acc N = .num false (R.rd (y / N)) := by
    unfold printedMean
    rw [y1, ofNat_exact (hN'.trans (by norm_num))]
    simp [div, divWith, hN0]
  have hyN : y / N ≤ 1 := ENNReal.div_le_of_le_mul (by rw [one_mul]; exact y2)
  have r1 : R.rd 1 = 1 := by simpa using rd_nat (R := R) (k := 1) (by norm_num)
  have r0 : R.rd 0 = 0 := by simpa using rd_nat (R := R) (k := 0) (by norm_num)
  have hle1 : R.rd (y / N) ≤ 1 := r1 ▸ R.mono hyN
  have hval : (printedMean R acc N).val = (R.rd (y / N)).toReal := by rw [hp]; simp [Flt.val]
  have hfin : R.rd (y / N) ≠ ⊤ := ne_top_of_le_ne_top ENNReal.one_ne_top hle1
  have aval : ∀ t < N, (acc t).val = (R.rd ((right t : ℝ≥0∞) / B)).toReal := fun t ht => by rw [hx t ht]; simp [Flt.val]
  have afin : ∀ t, R.rd ((right t : ℝ≥0∞) / B) ≠ ⊤ := fun t => ne_top_of_le_ne_top ENNReal.one_ne_top (hread t).1
  refine ⟨pick, fun t ht => (hpick t ht).1, by rw [hp]; exact hfin, by rw [hval]; exact ENNReal.toReal_nonneg, ?_, ?_, fun h => ?_, fun h => ?_, fun h => ?_⟩
  · rw [hval]
    simpa using ENNReal.toReal_mono ENNReal.one_ne_top hle1
  · obtain ⟨-, e⟩ := printed_error (R := R) (x := acc) hN hN' (fun t ht => by rw [hx t ht]; exact afin t) (A := 1) (by norm_num) fun t ht => by
      rw [aval t ht, abs_of_nonneg ENNReal.toReal_nonneg]
      simpa using ENNReal.toReal_mono ENNReal.one_ne_top (hread t).1
    have d : |(∑ t ∈ Finset.range N, (acc t).val) / N - ((∑ t ∈ Finset.range N, right t : ℕ) : ℝ) / (N * B)| ≤ 1.1 * u := by
      have e1 : ((∑ t ∈ Finset.range N, right t : ℕ) : ℝ) / (N * B) = (∑ t ∈ Finset.range N, (right t : ℝ) / B) / N := by
        rw [← Finset.sum_div]
        push_cast
        field_simp
      rw [e1, ← sub_div, ← Finset.sum_sub_distrib, abs_div, abs_of_pos hNr, div_le_iff₀ hNr]
      refine (Finset.abs_sum_le_sum_abs _ _).trans ((Finset.sum_le_sum (g := fun _ => 1.1 * u) fun t ht => ?_).trans ?_)
      · rw [aval t (Finset.mem_range.1 ht)]
        exact (hread t).2.1
      · rw [Finset.sum_const, Finset.card_range, nsmul_eq_mul, mul_comm]
    simp only [hr]
    have t1 := abs_sub_le (printedMean R acc N).val ((∑ t ∈ Finset.range N, (acc t).val) / N)
      (((∑ t ∈ Finset.range N, right t : ℕ) : ℝ) / (N * B))
    have hη2 : 4 * η ≤ 0.1 * u := by
      have := mul_le_mul_of_nonneg_left hu1 hu.le
      linarith
    linarith
  · have : y = N := y5 fun t ht => (hread t).2.2.1.2 ((hall t).2 (h t ht))
    rw [hp, this, ENNReal.div_self hN0 (ENNReal.natCast_ne_top N), r1]
    rfl
  · intro t ht
    rw [← hnone]
    by_contra hne
    have h0 : R.rd (y / N) = 0 := by
      rw [hval] at h
      exact (ENNReal.toReal_eq_zero_iff _).1 h |>.resolve_right hfin
    have yt : y ≠ ⊤ := ne_top_of_le_ne_top (ENNReal.natCast_ne_top N) y2
    have ay := y4 t ht
    have ar : u / 2 ≤ y.toReal := by
      have e1 := (abs_le.1 (hread t).2.1).1
      have p : R.rd ((right t : ℝ≥0∞) / B) ≠ 0 := fun h => hne ((hread t).2.2.2.1 h)
      have e2 : u ≤ (right t : ℝ) / B := by
        rw [le_div_iff₀ hBr]
        have a : (1 : ℝ) ≤ right t := by exact_mod_cast Nat.one_le_iff_ne_zero.2 hne
        have b : u * B ≤ 1 := by
          have : (B : ℝ) ≤ 2 ^ 24 := by exact_mod_cast hB'
          unfold u
          linarith
        linarith
      have xt : (right t : ℝ≥0∞) / B ≠ ⊤ := ENNReal.div_ne_top (ENNReal.natCast_ne_top _) (by exact_mod_cast hB.ne')
      have xr : ((right t : ℝ≥0∞) / B).toReal = (right t : ℝ) / B := by simp
      have x1 : (right t : ℝ) / B ≤ 1 := by rw [div_le_one hBr]; exact_mod_cast hle t
      obtain ⟨-, e3⟩ := rd_error (R := R) xt (by rw [xr]; unfold big; linarith [show (1 : ℝ) ≤ 16777215 * 2 ^ 104 by norm_num])
      rw [xr] at e3
      have e4 := (abs_le.1 e3).1
      have e5 := ENNReal.toReal_mono yt ay
      have e6 : u * ((right t : ℝ) / B) ≤ 1 / 10 ^ 7 * ((right t : ℝ) / B) := mul_le_mul_of_nonneg_right hu1 (by positivity)
      have e7 := mul_le_mul_of_nonneg_left hu1 hu.le
      linarith
    have zt : y / N ≠ ⊤ := ne_top_of_le_ne_top ENNReal.one_ne_top hyN
    have zr : (y / N).toReal = y.toReal / N := by simp
    have z1 : y.toReal / N ≤ 1 := by
      rw [← zr]
      simpa using ENNReal.toReal_mono ENNReal.one_ne_top hyN
    obtain ⟨-, e⟩ := rd_error (R := R) zt (by rw [zr]; unfold big; linarith [show (1 : ℝ) ≤ 16777215 * 2 ^ 104 by norm_num])
    rw [h0, zr] at e
    have z2 : u / 2 / 2 ^ 20 ≤ y.toReal / N :=
      div_le_div₀ (by linarith) ar hNr (by exact_mod_cast hN')
    have z0 : 0 ≤ y.toReal / N := by positivity
    have e1 := (abs_le.1 e).1
    have e2 : u * (y.toReal / N) ≤ 1 / 10 ^ 7 * (y.toReal / N) := mul_le_mul_of_nonneg_right hu1 z0
    have e3 : η < u / 2 ^ 22 := by unfold η u; norm_num
    simp at e1
    linarith
  · have : y = 0 := y6 fun t ht => (hread t).2.2.2.2 ((hnone t).2 (h t ht))
    rw [hval, this]
    simp [r0]

/-- **C126, counts.** As long as there are not too many rows, what is printed says how many of them are right, and 1 means all. -/
theorem validation_count {P : ℕ → Fin B → Fin n → Flt} {c : ℕ → Fin B → Fin n} {r : Flt} (hB : 0 < B) (hn : n ≤ 2 ^ 24 + 1) (hN : 0 < N)
    (hNB : N * B * (13 * N + 25) < 5 * 2 ^ 24) (h : Validation R P (fun t i => ofNat R (c t i)) N r) :
    ∃ pick : ℕ → Fin B → Fin n, (∀ t < N, ∀ i, IsMax (P t i) (P t i (pick t i))) ∧
      round (r.val * (N * B)) = ((∑ t ∈ Finset.range N, (Finset.univ.filter fun i => pick t i = c t i).card : ℕ) : ℤ) ∧
      (r = 1 ↔ ∀ t < N, ∀ i, pick t i = c t i) := by
  have hB' : B ≤ 2 ^ 24 := by
    have h1 : 1 * B * 25 ≤ N * B * (13 * N + 25) := Nat.mul_le_mul (Nat.mul_le_mul_right B hN) (by omega)
    omega
  have hN' : N ≤ 2 ^ 20 := by
    by_contra hc
    have h1 : N * 1 * (13 * 2 ^ 20) ≤ N * B * (13 * N + 25) := Nat.mul_le_mul (Nat.mul_le_mul_left N hB) (by omega)
    omega
  obtain ⟨pick, h1, -, -, -, h5, h6, -⟩ := validation hB hB' hn hN hN' h
  obtain ⟨K, hK⟩ : ∃ K : ℕ, K = ∑ t ∈ Finset.range N, (Finset.univ.filter fun i => pick t i = c t i).card := ⟨_, rfl⟩
  rw [← hK] at h5
  have hNr : (0 : ℝ) < N := by exact_mod_cast hN
  have hBr : (0 : ℝ) < B := by exact_mod_cast hB
  have hM : (0 : ℝ) < N * B := mul_pos hNr hBr
  have near : |r.val * (N * B) - (K : ℤ)| < 1 / 2 := by
    have e : r.val * (N * B) - (K : ℤ) = (r.val - K / (N * B)) * (N * B) := by
      push_cast
      field_simp
    rw [e, abs_mul, abs_of_pos hM]
    have hlt : ((N : ℝ) * B) * (13 * N + 25) < 5 * 2 ^ 24 := by exact_mod_cast hNB
    refine (mul_le_mul_of_nonneg_right h5 hM.le).trans_lt ?_
    unfold u
    linarith
  have hround : round (r.val * (N * B)) = (K : ℤ) := by
    rw [round_eq, Int.floor_eq_iff]
    have := abs_lt.1 near
    constructor <;> linarith
  refine ⟨pick, h1, by rw [hround, hK], fun h => ?_, h6⟩
  have hr1 : r.val = 1 := by
    rw [h]
    show (Flt.num false 1).val = 1
    simp [Flt.val]
  rw [hr1, one_mul] at hround
  have hKB : N * B = K := by
    have : round (((N * B : ℕ) : ℤ) : ℝ) = (K : ℤ) := by rw [← hround]; push_cast; rfl
    rw [round_intCast] at this
    exact_mod_cast this
  have hle : ∀ t ∈ Finset.range N, (Finset.univ.filter fun i => pick t i = c t i).card ≤ B := fun t _ => (Finset.card_le_univ _).trans (by simp)
  have hsum : ∑ t ∈ Finset.range N, (Finset.univ.filter fun i => pick t i = c t i).card = ∑ _t ∈ Finset.range N, B := by
    rw [← hK, ← hKB]
    simp
  intro t ht i
  have hc := (Finset.sum_eq_sum_iff_of_le hle).1 hsum t (Finset.mem_range.2 ht)
  have := Finset.eq_univ_of_card _ (hc.trans (by simp))
  have hm : i ∈ Finset.univ.filter fun i => pick t i = c t i := by
    rw [this]
    exact Finset.mem_univ i
  exact (Finset.mem_filter.1 hm).2

/-- MNIST and CIFAR have 10000 images for validation: 312 batches of 32. -/
example : 312 * 32 * (13 * 312 + 25) < 5 * 2 ^ 24 := by norm_num

/-- At least one batch of one row, and a run of the loop on it: the prediction is right. -/
example : Validation binary32 (B := 1) (n := 2) (fun _ _ j => if j = 0 then 1 else 0) (fun _ _ => ofNat binary32 (0 : Fin 2)) 1 1 := by
  have hm : IsMax (fun j : Fin 2 => if j = 0 then (1 : Flt) else 0) 1 := by
    refine ⟨⟨0, rfl⟩, fun j => ?_⟩
    have l10 : ¬(1 : Flt).lt 0 := show ¬(1 : ℝ≥0∞) < 0 from not_lt.2 zero_le_one
    have l11 : ¬(1 : Flt).lt 1 := show ¬(1 : ℝ≥0∞) < 1 from lt_irrefl _
    show ¬(1 : Flt).lt (if j = 0 then (1 : Flt) else 0)
    split_ifs <;> assumption
  have r0 : binary32.rd 0 = 0 := by simpa using rd_nat (R := binary32) (k := 0) (by norm_num)
  have r1 : binary32.rd 1 = 1 := by simpa using rd_nat (R := binary32) (k := 1) (by norm_num)
  have a : Accuracy binary32 (B := 1) (n := 2) (fun _ j => if j = 0 then 1 else 0) (fun _ => ofNat binary32 (0 : Fin 2)) 1 := by
    refine ⟨fun _ => 0, fun _ => hm, ?_⟩
    rw [fraction (by simp [hits]; split_ifs <;> simp) (by norm_num) (by norm_num)]
    have : hits (List.ofFn fun _ : Fin 1 => (ofNat binary32 ((0 : Fin 2) : ℕ)).eq (ofNat binary32 ((0 : Fin 2) : ℕ))) = 1 := by
      simp [hits, eq_iff]
    rw [this]
    simp [r1]
    rfl
  refine ⟨fun _ => 1, fun _ _ => a, ?_⟩
  show (1 : Flt) = divWith _ (addWith _ (.num false 0) (.num false 1)) (.num false (binary32.rd ((1 : ℕ) : ℝ≥0∞)))
  simp [addWith, divWith, r1]
  rfl

section training

variable {k : ℕ} {F : Libm R} {ε ε' A S V D Q : ℝ} {lr : Flt} {X : ℕ → Fin B → Fin n → Flt} {label : ℕ → Fin B → Fin k} {W₀ : Fin k → Fin n → Flt}
  {b₀ : Fin k → Flt} {ws : Fin k → Fin n → ℝ} {bs : Fin k → ℝ} {W : ℕ → Fin k → Fin n → Flt} {b : ℕ → Fin k → Flt} {loss : ℕ → Flt}

/-- The exact loss is not above that of logits that differ by `2 S`. -/
theorem exactLoss_le (hB : 0 < B) {x : Fin B → Fin n → ℝ} {l : Fin B → Fin k} {w : Fin k → Fin n → ℝ} {c : Fin k → ℝ}
    (h : ∀ i j, |∑ r, x i r * w j r + c j| ≤ S) : exactLoss x l w c ≤ Real.log k + 2 * S := by
  have hBr : (0 : ℝ) < B := by exact_mod_cast hB
  unfold exactLoss
  rw [← Finset.sum_neg_distrib, div_le_iff₀ hBr]
  refine (Finset.sum_le_sum (g := fun _ => Real.log k + 2 * S) fun i _ => ?_).trans (le_of_eq ?_)
  · rw [FloatTrainP.log_softmax]
    have hk : (0 : ℝ) < k := by exact_mod_cast (l i).pos
    have h1 : ∑ j, Real.exp (∑ r, x i r * w j r + c j) ≤ k * Real.exp S := by
      refine (Finset.sum_le_sum (g := fun _ => Real.exp S) fun j _ => Real.exp_le_exp.2 (le_of_abs_le (h i j))).trans ?_
      rw [Finset.sum_const, Finset.card_univ, Fintype.card_fin, nsmul_eq_mul]
    have h2 := Real.log_le_log (Finset.sum_pos (fun j _ => Real.exp_pos _) ⟨l i, Finset.mem_univ _⟩) h1
    rw [Real.log_mul hk.ne' (Real.exp_pos S).ne', Real.log_exp] at h2
    linarith [(abs_le.1 (h i (l i))).1]
  · rw [Finset.sum_const, Finset.card_univ, Fintype.card_fin, nsmul_eq_mul, mul_comm]

/-- Losses of a run as in C125 are not above 75. -/
theorem loss_small (h : Course F ε ε' A S V D Q lr N X label W₀ b₀ ws bs) (hr : Run R F lr N X label W₀ b₀ W b loss) {t : ℕ} (ht : t < N) :
    |(loss t).val| ≤ 75 := by
  obtain ⟨hw, hl, -⟩ := float_regret h hr
  obtain ⟨⟨f1, f2⟩, d⟩ := hw t ht.le
  obtain ⟨hs, -⟩ := h.setting ht f1 f2 d
  have e := (hl t ht).2
  have h0 := FloatConvergeP.exactLoss_nonneg (vals (X t)) (label t) (vals (W t)) (vals₁ (b t))
  have h1 : exactLoss (vals (X t)) (label t) (vals (W t)) (vals₁ (b t)) ≤ Real.log k + 2 * S := exactLoss_le h.batch fun i j => by
    refine le_trans ?_ (hs.leS i j)
    unfold linearSize
    refine (abs_add_le _ _).trans (add_le_add ((Finset.abs_sum_le_sum_abs _ _).trans (le_of_eq (Finset.sum_congr rfl fun r _ => ?_))) le_rfl)
    rw [abs_mul]
    rfl
  have hk : Real.log k ≤ 12.6 := by
    have k0 : (0 : ℝ) < k := by exact_mod_cast (label t ⟨0, h.batch⟩).pos
    have k1 : (k : ℝ) ≤ 2 ^ 18 := by exact_mod_cast h.classes
    have := Real.log_le_log k0 k1
    rw [Real.log_pow] at this
    have := Real.log_two_lt_d9
    push_cast at *
    linarith
  have hL : lossError B n k ε ε' S ≤ 2.3 := by
    have b1 : (B : ℝ) ≤ 2 ^ 18 := by exact_mod_cast h.batchLe
    have k1 : (k : ℝ) ≤ 2 ^ 18 := by exact_mod_cast h.classes
    have n1 : (n : ℝ) ≤ 2 ^ 15 := by exact_mod_cast h.inputs
    have S0 := h.S1
    have m1 : (2 * n + 1 : ℝ) * S ≤ (2 * 2 ^ 15 + 1) * 30 := mul_le_mul (by linarith) h.S2 (by linarith) (by norm_num)
    have m2 : (80 * B + 1.3 * k + 2.2 * (2 * n + 1) * S + 250 : ℝ) ≤ 80 * 2 ^ 18 + 1.3 * 2 ^ 18 + 2.2 * ((2 * 2 ^ 15 + 1) * 30) + 250 := by linarith
    have m3 := mul_le_mul_of_nonneg_right m2 u_pos.le
    have m4 : (80 * 2 ^ 18 + 1.3 * 2 ^ 18 + 2.2 * ((2 * 2 ^ 15 + 1) * 30) + 250 : ℝ) * u ≤ 1.6 := by unfold u; norm_num
    unfold lossError
    linarith [h.ε1, h.ε'1]
  have e1 := abs_le.1 e
  rw [abs_le]
  constructor <;> linarith [h.S2, e1.1, e1.2]

/-- **C126, loss.** The average loss that is printed while a linear classifier is trained: nearly as good as that of any parameters
as in C125, but for their distance from the start divided by the number of iterations. -/
theorem printed_loss (h : Course F ε ε' A S V D Q lr N X label W₀ b₀ ws bs) (hr : Run R F lr N X label W₀ b₀ W b loss) (hN : 0 < N)
    (hN' : N ≤ 2 ^ 20) : (printedMean R loss N).Finite ∧ (1 - 2 * lr.val * Q) * (printedMean R loss N).val ≤
      (∑ t ∈ Finset.range N, exactLoss (vals (X t)) (label t) ws bs) / N + apart (vals W₀) ws (vals₁ b₀) bs / (2 * lr.val * N) +
        drift B n k ε A S V D lr.val / (2 * lr.val) + lossError B n k ε ε' S + 98 * (N + 1) * u := by
  obtain ⟨-, hl, hs⟩ := float_regret h hr
  obtain ⟨f, e⟩ := printed_error (R := R) (x := loss) hN hN' (fun t ht => (hl t ht).1) (A := 75) (by norm_num) fun t ht => loss_small h hr ht
  refine ⟨f, ?_⟩
  have hNr : (0 : ℝ) < N := by exact_mod_cast hN
  have hl0 := h.lr0
  have hQ := h.Q1 hN
  have hu := u_pos
  have hη : 4 * η ≤ 0.5 * u := by unfold η u; norm_num
  have c0 : 0 ≤ 1 - 2 * lr.val * Q := by linarith [h.lrQ]
  have c1 : 1 - 2 * lr.val * Q ≤ 1 := by
    have := mul_pos hl0 (by linarith : 0 < Q)
    linarith
  obtain ⟨m, hm⟩ : ∃ m, m = (printedMean R loss N).val := ⟨_, rfl⟩
  obtain ⟨s, hs'⟩ : ∃ s, s = ∑ t ∈ Finset.range N, (loss t).val := ⟨_, rfl⟩
  obtain ⟨L, hL⟩ : ∃ s, s = ∑ t ∈ Finset.range N, exactLoss (vals (X t)) (label t) ws bs := ⟨_, rfl⟩
  obtain ⟨a, ha⟩ : ∃ s, s = apart (vals W₀) ws (vals₁ b₀) bs := ⟨_, rfl⟩
  obtain ⟨d, hd⟩ : ∃ s, s = drift B n k ε A S V D lr.val / (2 * lr.val) := ⟨_, rfl⟩
  obtain ⟨E, hE⟩ : ∃ s, s = lossError B n k ε ε' S := ⟨_, rfl⟩
  rw [← hm, ← hs'] at e
  rw [← hs', ← hL, ← ha, ← hd, ← hE] at hs
  rw [← hm, ← hL, ← ha, ← hd, ← hE]
  have e1 : m ≤ s / N + 98 * (N + 1) * u := by
    have := (abs_le.1 e).2
    have p : 0 ≤ N * u := by positivity
    linarith
  have e2 := mul_le_mul_of_nonneg_left e1 c0
  have p : 0 ≤ 98 * (N + 1) * u := by positivity
  have e3 := mul_le_mul_of_nonneg_right c1 p
  have e4 : (1 - 2 * lr.val * Q) * (s / N) ≤ L / N + a / (2 * lr.val * N) + (d + E) := by
    rw [← mul_div_assoc, div_le_iff₀ hNr]
    refine hs.trans (le_of_eq ?_)
    field_simp
  linarith

/-- The 40 iterations of the example of C125 print an average loss. -/
example {W : ℕ → Fin 2 → Fin 1 → Flt} {b : ℕ → Fin 2 → Flt} {loss : ℕ → Flt}
    (hr : Run binary32 libm FloatConvergeP.rate 40 (fun _ _ _ => .num false 1) (fun _ (_ : Fin 1) => 0) (fun _ _ => 0) (fun _ => 0) W b loss) :
    (printedMean binary32 loss 40).Finite := (printed_loss FloatConvergeP.course_example hr (by norm_num) (by norm_num)).1

end training

end

end DW.Props.FloatMeanP
