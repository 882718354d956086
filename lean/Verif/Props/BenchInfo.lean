import Verif.Model.BenchInfo
import Verif.Props.Bench
/-!
# What the benchmarks print about datasets and epochs (C137)
-/

set_option autoImplicit false

namespace DW.Props.BenchInfoP

open DW.BenchInfo DW.Props.BenchP
open DW.Bench (Text Out printHeader printShape decNat spaces)

theorem cut_at {a b r r' : Text} {c : Char} (ha : c ∉ a) (hb : c ∉ b) (h : a ++ c :: r = b ++ c :: r') : a = b ∧ r = r' := by
  have ta : ∀ x ∈ a, (x != c) = true := fun x hx => by
    have : x ≠ c := fun e => ha (e ▸ hx)
    simpa using this
  have tb : ∀ x ∈ b, (x != c) = true := fun x hx => by
    have : x ≠ c := fun e => hb (e ▸ hx)
    simpa using this
  have e := congrArg (List.takeWhile (· != c)) h
  rw [List.takeWhile_append_of_pos ta, List.takeWhile_append_of_pos tb, List.takeWhile_cons_of_neg (by simp), List.takeWhile_cons_of_neg (by simp),
    List.append_nil, List.append_nil] at e
  subst e
  exact ⟨rfl, (List.cons.inj (List.append_cancel_left h)).2⟩

theorem not_mem_dec {c : Char} (n : ℕ) (h : ¬ (48 ≤ c.toNat ∧ c.toNat < 58)) : c ∉ decNat n := fun hc => h (decNat_num hc)

/-- **C137, datasets.** The lines tell the name, the two sizes and the shape, for names without line breaks. -/
theorem dataset_inj {name name' : Text} {a a' b b' : ℕ} {l l' : List ℤ} (h : '\n' ∉ name) (h' : '\n' ∉ name')
    (he : datasetLines name a b l = datasetLines name' a' b' l') : name = name' ∧ a = a' ∧ b = b' ∧ l = l' := by
  unfold datasetLines at he
  simp only [List.append_assoc, List.cons_append, List.nil_append] at he
  have nl := fun n => not_mem_dec (c := '\n') n (by decide)
  obtain ⟨e0, h0⟩ := cut_at h h' (List.append_cancel_left he)
  obtain ⟨e1, h1⟩ := cut_at (nl a) (nl a') (List.append_cancel_left h0)
  obtain ⟨e2, h2⟩ := cut_at (nl b) (nl b') (List.append_cancel_left h1)
  have e3 := List.append_cancel_right (List.append_cancel_left h2)
  exact ⟨e0, decNat_inj e1, decNat_inj e2, shape_inj e3⟩

/-- **C137, datasets.** All is printed to the standard output, after a header with the text in its middle. -/
theorem dataset_text (name : Text) (a b : ℕ) (l : List ℤ) : got .cout (printDatasetInfo name a b l) =
    DW.Bench.rule '*' 88 ++ (['*'] ++ spaces 37 ++ "Dataset info".toList ++ spaces 37 ++ ['*', '\n']) ++ DW.Bench.rule '*' 88 ++ datasetLines name a b l := by
  have hl : "Dataset info".toList.length = 12 := by decide
  rw [printDatasetInfo, got_append, header_partial (by rw [hl]; norm_num), hl]
  simp [got_put]

theorem decNat_length {n : ℕ} (h : n < 10 ^ 10) : (decNat n).length ≤ 10 := by
  unfold decNat
  split_ifs with h0
  · simp
  · rw [List.length_map, List.length_reverse]
    exact (Nat.digits_length_le_iff (by norm_num) n).2 h

theorem padLeft_length {n : ℕ} {t : Text} (h : t.length ≤ n) : (padLeft n t).length = n := by
  simp [padLeft, spaces, h]

theorem padRight_length (n : ℕ) (t : Text) : (padRight n t).length = max n t.length := by
  simp [padRight, spaces]
  omega

/-- **C137, epochs.** If losses and accuracies take at most ten characters, the lines of all epochs of a benchmark have the same three
columns: the number of the epoch and of all epochs, the loss and the accuracy. -/
theorem epoch_partial {current n : ℕ} {loss accuracy : Text} (hc : current < 10 ^ 10) (hl : loss.length ≤ 10) (ha : accuracy.length ≤ 10) :
    ∃ s t u first second third : Text, (∀ c ∈ s ++ t ++ u, c = ' ') ∧ first = "- Epoch: ".toList ++ s ++ decNat current ++ ['/'] ++ decNat n ∧
      second = "Train loss: ".toList ++ loss ++ t ∧ third = "Validation accuracy: ".toList ++ accuracy ++ u ∧
      epochLine current n loss accuracy = first ++ " | ".toList ++ second ++ " | ".toList ++ third ++ ['\n'] ∧
      first.length = 20 + (decNat n).length ∧ second.length = 22 ∧ third.length = 31 := by
  have h1 := decNat_length hc
  have l1 : "- Epoch: ".toList.length = 9 := by decide
  have l2 : "Train loss: ".toList.length = 12 := by decide
  have l3 : "Validation accuracy: ".toList.length = 21 := by decide
  unfold epochLine
  generalize "- Epoch: ".toList = a at l1 ⊢
  generalize "Train loss: ".toList = b at l2 ⊢
  generalize "Validation accuracy: ".toList = c at l3 ⊢
  generalize " | ".toList = d
  refine ⟨spaces (10 - (decNat current).length), spaces (10 - loss.length), spaces (10 - accuracy.length), _, _, _, ?_, rfl, rfl, rfl, ?_, ?_, ?_, ?_⟩
  · intro c hc
    simp only [List.mem_append, spaces, List.mem_replicate] at hc
    rcases hc with (hc | hc) | hc <;> exact hc.2
  · simp only [padLeft, padRight, List.append_assoc]
  · simp only [List.length_append, l1, spaces, List.length_replicate, List.length_cons, List.length_nil]
    omega
  · simp only [List.length_append, l2, spaces, List.length_replicate]
    omega
  · simp only [List.length_append, l3, spaces, List.length_replicate]
    omega

/-- **C137, refuted.** A loss like 1.23457e-05 takes eleven characters and makes its line longer than the others. -/
theorem epoch_refuted {current current' n : ℕ} {loss loss' accuracy accuracy' : Text} (hc : current < 10 ^ 10) (hc' : current' < 10 ^ 10)
    (hl : loss.length ≤ 10) (hl' : loss'.length = 11) (ha : accuracy.length ≤ 10) (ha' : accuracy'.length ≤ 10) :
    (epochLine current' n loss' accuracy').length = (epochLine current n loss accuracy).length + 1 := by
  have p := padLeft_length (decNat_length hc)
  have p' := padLeft_length (decNat_length hc')
  have q := padRight_length 10 loss
  have q' := padRight_length 10 loss'
  have r := padRight_length 10 accuracy
  have r' := padRight_length 10 accuracy'
  rw [max_eq_left hl] at q
  rw [hl'] at q'
  rw [max_eq_left ha] at r
  rw [max_eq_left ha'] at r'
  have m : max 10 11 = 11 := rfl
  rw [m] at q'
  unfold epochLine
  generalize "- Epoch: ".toList = a
  generalize "Train loss: ".toList = b
  generalize "Validation accuracy: ".toList = c
  generalize " | ".toList = d
  simp only [List.length_append, p, p', q, q', r, r']
  omega

/-- Two epochs of which one has a longer line. -/
example : (epochLine 2 10 "1.23457e-05".toList "0.98".toList).length = (epochLine 1 10 "0.25".toList "0.97".toList).length + 1 :=
  epoch_refuted (by norm_num) (by norm_num) (by decide) (by decide) (by decide) (by decide)

/-- A dataset of which the lines tell the size. -/
example (b : ℕ) : datasetLines "MNIST".toList 60000 b [28, 28] ≠ datasetLines "MNIST".toList 6000 b [28, 28] := fun h =>
  absurd (dataset_inj (by decide) (by decide) h).2.1 (by norm_num)

end DW.Props.BenchInfoP
