import Verif.Model.BenchArgs
import Verif.Props.Progress
/-!
# The command line of the benchmarks and the number of epochs (C136)
-/

set_option autoImplicit false

namespace DW.Props.BenchArgsP

open DW.BenchArgs DW.Props.ProgressP
open DW.Bench (Text decInt toSize)
open DW.Progress (atoi)

/-- **C136, arguments.** -/
theorem config_eq {root : Text} {b n : ℤ} (hb : IsInt b) (hn : IsInt n) (more : List Text) :
    config (root :: decInt b :: decInt n :: more) = .ok ⟨root ++ "/train".toList, root ++ "/test".toList, b, n⟩ := by
  have e1 : "/train".toList = ['/', 't', 'r', 'a', 'i', 'n'] := by decide
  have e2 : "/test".toList = ['/', 't', 'e', 's', 't'] := by decide
  simp [config, DW.Progress.arg, atoi_num hb, atoi_num hn, e1, e2]

/-- **C136, missing arguments** make the program use a null pointer. -/
theorem missing_refuted (root : Text) {b : ℤ} (hb : IsInt b) : config [] = .ub .null ∧ config [root] = .ub .null ∧ config [root, decInt b] = .ub .null := by
  simp [config, DW.Progress.arg, atoi_num hb]

theorem toSize_nonneg {i : ℤ} (h0 : 0 ≤ i) (h : i ≤ 2147483647) : (toSize i : ℤ) = i := by
  unfold toSize
  rw [Int.emod_eq_of_lt h0 (by norm_num; omega), Int.toNat_of_nonneg h0]

theorem toSize_neg {i : ℤ} (h0 : i < 0) (h : -2147483648 ≤ i) : 2147483647 < toSize i := by
  unfold toSize
  have : i % 2 ^ 64 = i + 2 ^ 64 := by
    rw [← Int.add_emod_right, Int.emod_eq_of_lt (by norm_num; omega) (by omega)]
  rw [this]
  norm_num
  omega

/-- The loop does one thing. -/
theorem loop_unique {n : ℕ} {i : ℤ} {k k' : ℕ} {e e' : End} (h : Loop n i k e) (h' : Loop n i k' e') : k = k' ∧ e = e' := by
  induction h generalizing k' with
  | done h =>
    cases h' with
    | done => exact ⟨rfl, rfl⟩
    | overflow h1 => exact absurd h1 h
    | step h1 => exact absurd h1 h
  | overflow h1 h2 =>
    cases h' with
    | done h => exact absurd h1 h
    | overflow => exact ⟨rfl, rfl⟩
    | step _ h3 => omega
  | step h1 h2 _ ih =>
    cases h' with
    | done h => exact absurd h1 h
    | overflow _ h3 => omega
    | step _ _ h3 =>
      obtain ⟨e1, e2⟩ := ih h3
      exact ⟨by rw [e1], e2⟩

/-- **C136, epochs.** A benchmark runs as many epochs as the command line says. -/
theorem epochs_partial {n : ℤ} (h0 : 0 ≤ n) (h : n ≤ 2147483647) (k : ℕ) (e : End) : Run n k e ↔ (k : ℤ) = n ∧ e = .done := by
  have key : ∀ k : ℕ, (k : ℤ) ≤ n → Loop (toSize n) (n - k) k .done := by
    intro k
    induction k with
    | zero =>
      intro _
      exact .done (by simp)
    | succ k ih =>
      intro hk
      push_cast at hk
      refine .step ?_ (by push_cast; omega) ?_
      · have h1 := toSize_nonneg h0 h
        have h2 := toSize_nonneg (i := n - (k + 1 : ℕ)) (by push_cast; omega) (by push_cast; omega)
        push_cast at h2 ⊢
        omega
      · have e : n - ((k + 1 : ℕ) : ℤ) + 1 = n - k := by push_cast; ring
        rw [e]
        exact ih (by omega)
  obtain ⟨m, rfl⟩ := Int.eq_ofNat_of_zero_le h0
  have hm := key m le_rfl
  rw [sub_self] at hm
  constructor
  · intro hr
    obtain ⟨e1, e2⟩ := loop_unique hr hm
    exact ⟨by rw [e1], e2⟩
  · rintro ⟨e1, rfl⟩
    have : k = m := by exact_mod_cast e1
    rw [this]
    exact hm

/-- **C136, refuted: negative numbers** of epochs are neither rejected nor none: the loop never ends by itself, and its counter overflows after
2^31 epochs. -/
theorem epochs_refuted {n : ℤ} (h0 : n < 0) (h : -2147483648 ≤ n) (k : ℕ) (e : End) : Run n k e ↔ k = 2147483648 ∧ e = .overflow := by
  have hn := toSize_neg h0 h
  have lt : ∀ i : ℤ, 0 ≤ i → i ≤ 2147483647 → toSize i < toSize n := fun i h1 h2 => by
    have := toSize_nonneg h1 h2
    omega
  have key : ∀ k : ℕ, k ≤ 2147483647 → Loop (toSize n) (2147483647 - k) (k + 1) .overflow := by
    intro k
    induction k with
    | zero =>
      intro _
      exact .overflow (lt _ (by simp) (by simp)) (by simp)
    | succ k ih =>
      intro hk
      refine .step (lt _ (by push_cast; omega) (by push_cast; omega)) (by push_cast; omega) ?_
      have e : (2147483647 : ℤ) - ((k + 1 : ℕ) : ℤ) + 1 = 2147483647 - k := by push_cast; ring
      rw [e]
      exact ih (by omega)
  obtain ⟨m, hm⟩ : ∃ m : ℕ, m = 2147483647 := ⟨_, rfl⟩
  have hl := key m hm.le
  have hz : (2147483647 : ℤ) - (m : ℤ) = 0 := by omega
  rw [hz] at hl
  have he : m + 1 = 2147483648 := by omega
  constructor
  · intro hr
    obtain ⟨e1, e2⟩ := loop_unique hr hl
    exact ⟨by omega, e2⟩
  · rintro ⟨rfl, rfl⟩
    rw [← he]
    exact hl

/-- Ten epochs, and -1 epochs. -/
example : config ["data".toList, decInt 64, decInt 10] = .ok ⟨"data".toList ++ "/train".toList, "data".toList ++ "/test".toList, 64, 10⟩ ∧ Run 10 10 .done ∧
    ∀ k, ¬ Run (-1) k .done := by
  refine ⟨config_eq (by unfold IsInt; omega) (by unfold IsInt; omega) [], (epochs_partial (by omega) (by omega) 10 .done).2 ⟨rfl, rfl⟩, fun k h => ?_⟩
  have := (epochs_refuted (by omega) (by omega) k .done).1 h
  exact absurd this.2 (by decide)

end DW.Props.BenchArgsP
