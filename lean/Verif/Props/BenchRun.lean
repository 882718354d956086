import Verif.Props.BenchTable
import Mathlib.Algebra.Order.BigOperators.Group.List
/-!
# The results of a benchmark (C131)
-/

set_option autoImplicit false

namespace DW.Props.BenchP

open DW.Bench DW.Float

noncomputable section

theorem epochs_epochs (n : ℕ) : ∀ (l : List Epoch) (i : ℕ) (r : Results), (epochs n i l r).epochs = r.epochs
  | [], _, _ => rfl
  | e :: l, i, r => by
    unfold epochs
    rw [epochs_epochs n l]
    split_ifs <;> rfl

theorem epochs_times (n : ℕ) : ∀ (l : List Epoch) (i : ℕ) (r : Results),
    (epochs n i l r).trainTime = l.foldl (fun t e => addTime t e.train) r.trainTime ∧
      (epochs n i l r).inferenceTime = l.foldl (fun t e => addTime t e.inference) r.inferenceTime
  | [], _, _ => ⟨rfl, rfl⟩
  | e :: l, i, r => by
    unfold epochs
    dsimp only
    rw [(epochs_times n l (i + 1) _).1, (epochs_times n l (i + 1) _).2]
    constructor <;> split_ifs <;> rfl

theorem epochs_last (e : Epoch) : ∀ (l : List Epoch) (i : ℕ) (r : Results),
    (epochs (i + l.length + 1) i (l ++ [e]) r).loss = e.loss ∧ (epochs (i + l.length + 1) i (l ++ [e]) r).accuracy = e.accuracy
  | [], i, r => by simp [epochs]
  | f :: l, i, r => by
    show (epochs _ i (f :: (l ++ [e])) r).loss = _ ∧ (epochs _ i (f :: (l ++ [e])) r).accuracy = _
    unfold epochs
    have := fun r => epochs_last e l (i + 1) r
    rw [show i + 1 + l.length + 1 = i + (f :: l).length + 1 by simp; omega] at this
    exact this _

/-- **C131, last epoch.** The loss and the accuracy of the results are those of the last epoch. -/
theorem benchmark_last (l : List Epoch) (e : Epoch) : (benchmark (l ++ [e])).loss = e.loss ∧ (benchmark (l ++ [e])).accuracy = e.accuracy ∧
    (benchmark (l ++ [e])).epochs = l.length + 1 := by
  have h := epochs_last e l 0 ⟨l.length + 1, 0, 0, 0, 0⟩
  rw [Nat.zero_add] at h
  unfold benchmark
  rw [List.length_append, List.length_singleton]
  exact ⟨h.1, h.2, epochs_epochs _ _ _ _⟩

/-- Without epochs they are 0. -/
theorem benchmark_none : benchmark [] = ⟨0, 0, 0, 0, 0⟩ := rfl

theorem addTime_eq {t : ℕ} {d : ℤ} (d0 : 0 ≤ d) (h : t * 1000000 + d < 2 ^ 64 * 1000000) : ((addTime t d : ℕ) : ℤ) = t + d / 1000000 := by
  unfold addTime
  rw [Int.tdiv_eq_ediv_of_nonneg d0, Int.toNat_of_nonneg (Int.emod_nonneg _ (by norm_num)), Int.emod_eq_of_lt] <;> omega

theorem sum_times (l : List ℤ) (t : ℕ) (h : ∀ d ∈ l, 0 ≤ d) (hb : t * 1000000 + l.sum < 2 ^ 64 * 1000000) :
    t * 1000000 + l.sum - 999999 * l.length ≤ ((l.foldl addTime t : ℕ) : ℤ) * 1000000 ∧
      ((l.foldl addTime t : ℕ) : ℤ) * 1000000 ≤ t * 1000000 + l.sum := by
  obtain ⟨M, hM⟩ : ∃ M : ℤ, M = 2 ^ 64 * 1000000 := ⟨_, rfl⟩
  rw [← hM] at hb
  induction l generalizing t with
  | nil => simp
  | cons d l ih =>
    have d0 := h d List.mem_cons_self
    have s0 : 0 ≤ l.sum := List.sum_nonneg fun e he => h e (List.mem_cons_of_mem d he)
    rw [List.sum_cons] at hb
    have hd : d / 1000000 * 1000000 ≤ d ∧ d - 999999 ≤ d / 1000000 * 1000000 := by omega
    have e := addTime_eq (t := t) d0 (by rw [← hM]; linarith)
    obtain ⟨h1, h2⟩ := ih (addTime t d) (fun e he => h e (List.mem_cons_of_mem d he)) (by rw [e]; linarith [hd.1])
    rw [List.foldl_cons, List.sum_cons, List.length_cons]
    rw [e] at h1 h2
    push_cast
    constructor <;> linarith [hd.1, hd.2]

theorem foldl_map (f : Epoch → ℤ) (l : List Epoch) (t : ℕ) : l.foldl (fun t e => addTime t (f e)) t = (l.map f).foldl addTime t := by
  rw [List.foldl_map]

/-- **C131, times.** If the clock does not run backwards, the times are those of all epochs, but for less than a millisecond for each epoch. -/
theorem times_partial {l : List Epoch} (h : ∀ e ∈ l, 0 ≤ e.train ∧ 0 ≤ e.inference) (ht : (l.map Epoch.train).sum < 2 ^ 64 * 1000000)
    (hi : (l.map Epoch.inference).sum < 2 ^ 64 * 1000000) :
    ((l.map Epoch.train).sum - 999999 * l.length ≤ ((benchmark l).trainTime : ℤ) * 1000000 ∧
      ((benchmark l).trainTime : ℤ) * 1000000 ≤ (l.map Epoch.train).sum) ∧
    ((l.map Epoch.inference).sum - 999999 * l.length ≤ ((benchmark l).inferenceTime : ℤ) * 1000000 ∧
      ((benchmark l).inferenceTime : ℤ) * 1000000 ≤ (l.map Epoch.inference).sum) := by
  obtain ⟨e1, e2⟩ := epochs_times l.length l 0 ⟨l.length, 0, 0, 0, 0⟩
  unfold benchmark
  rw [e1, e2, foldl_map Epoch.train, foldl_map Epoch.inference]
  have a := sum_times (l.map Epoch.train) 0 (by simpa using fun e he => (h e he).1) (by simpa using ht)
  have b := sum_times (l.map Epoch.inference) 0 (by simpa using fun e he => (h e he).2) (by simpa using hi)
  simp only [Nat.cast_zero, zero_mul, zero_add, List.length_map] at a b
  exact ⟨a, b⟩

/-- **C131, refuted.** Epochs whose validation takes less than a millisecond: the time is 0, however many they are. -/
theorem lost_refuted {l : List Epoch} (h : ∀ e ∈ l, 0 ≤ e.inference ∧ e.inference < 1000000) : (benchmark l).inferenceTime = 0 := by
  obtain ⟨-, e2⟩ := epochs_times l.length l 0 ⟨l.length, 0, 0, 0, 0⟩
  unfold benchmark
  rw [e2]
  show l.foldl (fun t e => addTime t e.inference) 0 = 0
  clear e2
  induction l with
  | nil => rfl
  | cons e l ih =>
    obtain ⟨h1, h2⟩ := h e List.mem_cons_self
    have : addTime 0 e.inference = 0 := by
      unfold addTime
      rw [Int.tdiv_eq_ediv_of_nonneg h1, Int.ediv_eq_zero_of_lt h1 h2]
      rfl
    rw [List.foldl_cons, this]
    exact ih fun f hf => h f (List.mem_cons_of_mem e hf)

/-- **C131, refuted.** The clock is set back by a millisecond more than an epoch takes: the largest `size_t` is reported. -/
theorem clock_refuted (a b : Flt) : (benchmark [⟨-1000000, 0, a, b⟩]).trainTime = 2 ^ 64 - 1 := by
  simp [benchmark, epochs, addTime]

/-- Two epochs of 30.5 seconds and 0.4 milliseconds for validation. -/
example : (benchmark [⟨30500700000, 400000, 1, 0⟩, ⟨30500700000, 400000, 0, 1⟩]).trainTime = 61000 ∧
    (benchmark [⟨30500700000, 400000, 1, 0⟩, ⟨30500700000, 400000, 0, 1⟩]).inferenceTime = 0 ∧
    (benchmark [⟨30500700000, 400000, 1, 0⟩, ⟨30500700000, 400000, 0, 1⟩]).accuracy = 1 := by
  simp [benchmark, epochs, addTime]

end

end DW.Props.BenchP
