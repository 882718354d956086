import Verif.Lemmas.Logistic
/-!
# Gradient descent with errors on the loss of a linear classifier

The parameters after a step differ from those of an exact step by at most `ρ` each.
-/

set_option autoImplicit false

namespace DW.LogisticL

open DW.Spec

noncomputable section

variable {B n : ℕ} {ι : Type} [Fintype ι] {M : Fin B → Fin n → ι → ℝ} {lab : Fin B → Fin n}

/-- What the errors of one step add to the square of a distance below `D`. -/
def noise (c : ℕ) (ρ D : ℝ) : ℝ := c * (ρ * (2 * D + ρ))

theorem abs_le_of_sq {y : ι → ℝ} {D : ℝ} (hD : 0 ≤ D) (h : sq y ≤ D ^ 2) (q : ι) : |y q| ≤ D := by
  refine abs_le_of_sq_le_sq ?_ hD
  exact (Finset.single_le_sum (f := fun q => y q ^ 2) (fun q _ => sq_nonneg (y q)) (Finset.mem_univ q)).trans h

/-- A vector that is moved by at most `ρ` in each place. -/
theorem sq_moved {y y' : ι → ℝ} {D ρ : ℝ} (hD : 0 ≤ D) (h : sq y ≤ D ^ 2) (hρ : ∀ q, |y' q - y q| ≤ ρ) :
    sq y' ≤ sq y + noise (Fintype.card ι) ρ D := by
  have h1 : ∀ q ∈ Finset.univ, y' q ^ 2 ≤ y q ^ 2 + ρ * (2 * D + ρ) := fun q _ => by
    have a := hρ q
    have r0 := (abs_nonneg _).trans a
    have b := abs_le_of_sq hD h q
    have c : |y' q| ≤ |y q| + ρ := by
      have := abs_add_le (y q) (y' q - y q)
      rw [add_sub_cancel] at this
      linarith
    have d : |y' q| ^ 2 ≤ (|y q| + ρ) ^ 2 := pow_le_pow_left₀ (abs_nonneg _) c 2
    have e : |y q| * ρ ≤ D * ρ := mul_le_mul_of_nonneg_right b r0
    rw [sq_abs] at d
    have f : (|y q| + ρ) ^ 2 = y q ^ 2 + 2 * (|y q| * ρ) + ρ ^ 2 := by rw [add_sq, sq_abs]; ring
    rw [f] at d
    linarith
  unfold noise sq
  refine (Finset.sum_le_sum h1).trans ?_
  rw [Finset.sum_add_distrib, Finset.sum_const, Finset.card_univ, nsmul_eq_mul]

/-- How an exact step changes the distance to other parameters. -/
theorem step_distance {A lr : ℝ} (hA : 0 < A) (h0 : 0 < lr) (hM : Bounded M A) {t g : ι → ℝ} (hg : Gradient M lab t g) (s : ι → ℝ) :
    sq (fun q => t q - lr * g q - s q) + 2 * lr * (1 - 2 * lr * A) * loss M lab t ≤ sq (fun q => t q - s q) + 2 * lr * loss M lab s := by
  have d := distance_step t g s lr
  have l := mul_le_mul_of_nonneg_left (hg.lower s) (by positivity : 0 ≤ 2 * lr)
  have b := mul_le_mul_of_nonneg_left (hg.self_bound hA hM) (sq_nonneg lr)
  rw [d]
  linarith

/-- Inexact gradient descent on a sequence of losses. -/
theorem noisy_regret {A lr ρ D : ℝ} (hA : 0 < A) (h0 : 0 < lr) (h1 : lr * (2 * A) ≤ 1) (hD : 0 ≤ D) (hρ : 0 ≤ ρ)
    {Ms : ℕ → Fin B → Fin n → ι → ℝ} {labs : ℕ → Fin B → Fin n} {N : ℕ}
    (hM : ∀ k < N, Bounded (Ms k) A) {t g : ℕ → ι → ℝ} (hg : ∀ k < N, Gradient (Ms k) (labs k) (t k) (g k)) (s : ι → ℝ)
    (hs : sq (fun q => t 0 q - s q) + 2 * lr * ∑ k ∈ Finset.range N, loss (Ms k) (labs k) s + N * noise (Fintype.card ι) ρ D ≤ D ^ 2)
    (ht : ∀ k < N, sq (fun q => t k q - s q) ≤ D ^ 2 → ∀ q, |t (k + 1) q - (t k q - lr * g k q)| ≤ ρ) :
    sq (fun q => t N q - s q) + 2 * lr * (1 - 2 * lr * A) * ∑ k ∈ Finset.range N, loss (Ms k) (labs k) (t k) ≤
      sq (fun q => t 0 q - s q) + 2 * lr * ∑ k ∈ Finset.range N, loss (Ms k) (labs k) s + N * noise (Fintype.card ι) ρ D := by
  have hn : 0 ≤ noise (Fintype.card ι) ρ D := by unfold noise; positivity
  have h2 : 0 ≤ 2 * lr * (1 - 2 * lr * A) := mul_nonneg (by linarith) (by linarith)
  induction N with
  | zero => simp
  | succ N ih =>
    rw [Finset.sum_range_succ] at hs ⊢
    have l0 := loss_nonneg (M := Ms N) (lab := labs N) s
    have l0' := mul_nonneg (by linarith : 0 ≤ 2 * lr) l0
    push_cast at hs ⊢
    have ih := ih (fun k hk => hM k (by omega)) (fun k hk => hg k (by omega)) (by linarith) fun k hk => ht k (by omega)
    have p := mul_nonneg h2 (Finset.sum_nonneg fun k (_ : k ∈ Finset.range N) => loss_nonneg (M := Ms k) (lab := labs k) (t k))
    have pN := mul_nonneg h2 (loss_nonneg (M := Ms N) (lab := labs N) (t N))
    have d := step_distance hA h0 (hM N (by omega)) (hg N (by omega)) s
    have m := sq_moved (y := fun q => t N q - lr * g N q - s q) (y' := fun q => t (N + 1) q - s q) hD (by linarith) (ρ := ρ) fun q => by
      have := ht N (by omega) (by linarith) q
      rwa [show t (N + 1) q - s q - (t N q - lr * g N q - s q) = t (N + 1) q - (t N q - lr * g N q) by ring]
    rw [Finset.sum_range_succ]
    linarith

/-- All parameters of such a run stay within `D` of the others. -/
theorem noisy_within {A lr ρ D : ℝ} (hA : 0 < A) (h0 : 0 < lr) (h1 : lr * (2 * A) ≤ 1) (hD : 0 ≤ D) (hρ : 0 ≤ ρ)
    {Ms : ℕ → Fin B → Fin n → ι → ℝ} {labs : ℕ → Fin B → Fin n} {N : ℕ}
    (hM : ∀ k < N, Bounded (Ms k) A) {t g : ℕ → ι → ℝ} (hg : ∀ k < N, Gradient (Ms k) (labs k) (t k) (g k)) (s : ι → ℝ)
    (hs : sq (fun q => t 0 q - s q) + 2 * lr * ∑ k ∈ Finset.range N, loss (Ms k) (labs k) s + N * noise (Fintype.card ι) ρ D ≤ D ^ 2)
    (ht : ∀ k < N, sq (fun q => t k q - s q) ≤ D ^ 2 → ∀ q, |t (k + 1) q - (t k q - lr * g k q)| ≤ ρ) :
    sq (fun q => t N q - s q) ≤ D ^ 2 := by
  have h := noisy_regret hA h0 h1 hD hρ hM hg s hs ht
  have h2 : 0 ≤ 2 * lr * (1 - 2 * lr * A) := mul_nonneg (by linarith) (by linarith)
  have p := mul_nonneg h2 (Finset.sum_nonneg fun k (_ : k ∈ Finset.range N) => loss_nonneg (M := Ms k) (lab := labs k) (t k))
  linarith

/-- The loss changes little when the parameters do. -/
theorem Gradient.moved {t g s : ι → ℝ} {G ρ : ℝ} (h : Gradient M lab t g) (hG : ∀ q, |g q| ≤ G) (hρ : ∀ q, |t q - s q| ≤ ρ) :
    loss M lab t ≤ loss M lab s + Fintype.card ι * (G * ρ) := by
  have l := h.lower s
  have b : dot g (fun q => t q - s q) ≤ Fintype.card ι * (G * ρ) := by
    unfold dot
    have : ∀ q ∈ Finset.univ, g q * (t q - s q) ≤ G * ρ := fun q _ => by
      refine (le_abs_self _).trans ?_
      rw [abs_mul]
      exact mul_le_mul (hG q) (hρ q) (abs_nonneg _) ((abs_nonneg _).trans (hG q))
    refine (Finset.sum_le_sum this).trans ?_
    rw [Finset.sum_const, Finset.card_univ, nsmul_eq_mul]
  linarith

/-- Inexact gradient descent on one loss: the loss hardly increases, and the last one is nearly as good as that of the other
parameters. -/
theorem noisy_converges {A lr ρ D G : ℝ} (hA : 0 < A) (h0 : 0 < lr) (h1 : lr * (2 * A) ≤ 1) (hD : 0 ≤ D) (hρ : 0 ≤ ρ) (hG0 : 0 ≤ G) {N : ℕ}
    (hM : Bounded M A) {t g : ℕ → ι → ℝ} (hg : ∀ k, Gradient M lab (t k) (g k)) (hG : ∀ k q, |g k q| ≤ G) (s : ι → ℝ)
    (hs : sq (fun q => t 0 q - s q) + N * (2 * lr * loss M lab s + noise (Fintype.card ι) ρ D) ≤ D ^ 2)
    (ht : ∀ k < N, sq (fun q => t k q - s q) ≤ D ^ 2 → ∀ q, |t (k + 1) q - (t k q - lr * g k q)| ≤ ρ) :
    (∀ k < N, loss M lab (t (k + 1)) ≤ loss M lab (t k) + Fintype.card ι * (G * ρ)) ∧
      2 * lr * (N * (loss M lab (t N) - loss M lab s)) ≤
        sq (fun q => t 0 q - s q) + N * (2 * lr * ((N + 1) * (Fintype.card ι * (G * ρ))) + noise (Fintype.card ι) ρ D) := by
  have hn : 0 ≤ noise (Fintype.card ι) ρ D := by unfold noise; positivity
  have hc : 0 ≤ Fintype.card ι * (G * ρ) := by positivity
  obtain ⟨C, hC⟩ : ∃ C, C = Fintype.card ι * (G * ρ) := ⟨_, rfl⟩
  obtain ⟨E, hE⟩ : ∃ E, E = noise (Fintype.card ι) ρ D := ⟨_, rfl⟩
  obtain ⟨f', hf'⟩ : ∃ f', f' = loss M lab s := ⟨_, rfl⟩
  have f0 : 0 ≤ f' := hf' ▸ loss_nonneg s
  rw [← hC] at hc ⊢
  have e0 := hn
  rw [← hE] at e0
  have hin : ∀ m ≤ N, sq (fun q => t m q - s q) ≤ D ^ 2 := fun m hm => by
    refine noisy_within hA h0 h1 hD hρ (Ms := fun _ => M) (labs := fun _ => lab) (fun _ _ => hM) (fun k _ => hg k) s ?_ fun k hk => ht k (by omega)
    have a : (m : ℝ) ≤ N := by exact_mod_cast hm
    rw [Finset.sum_const, Finset.card_range, nsmul_eq_mul, ← hf', ← hE]
    rw [← hf', ← hE] at hs
    have := mul_le_mul_of_nonneg_right a (by positivity : 0 ≤ 2 * lr * f' + E)
    linarith
  have hst : ∀ k < N, ∀ q, |t (k + 1) q - (t k q - lr * g k q)| ≤ ρ := fun k hk => ht k hk (hin k hk.le)
  have hdec : ∀ k < N, loss M lab (t (k + 1)) ≤ loss M lab (t k) - lr / 2 * sq (g k) + C := fun k hk => by
    have a := step_lowers hA hM h0.le h1 (hg k)
    have b := (hg (k + 1)).moved (hG (k + 1)) (hst k hk)
    rw [← hC] at b
    linarith
  have hup : ∀ k < N, loss M lab (t (k + 1)) ≤ loss M lab (t k) + C := fun k hk => by
    have := mul_nonneg (by linarith : 0 ≤ lr / 2) (sq_nonneg' (g k))
    linarith [hdec k hk]
  refine ⟨hup, ?_⟩
  have hsum : ∀ m ≤ N, 2 * lr * (m * (loss M lab (t m) - f')) + sq (fun q => t m q - s q) ≤
      sq (fun q => t 0 q - s q) + m * (2 * lr * ((m + 1) * C) + E) := fun m => by
    induction m with
    | zero => simp
    | succ m ih =>
      intro hm
      have ih := ih (by omega)
      have d := distance_step (t m) (g m) s lr
      have l := mul_le_mul_of_nonneg_left ((hg m).lower s) (by positivity : 0 ≤ 2 * lr)
      rw [← hf'] at l
      have b := mul_le_mul_of_nonneg_left (hdec m (by omega)) (by positivity : 0 ≤ 2 * lr)
      have y := step_distance hA h0 hM (hg m) s
      have hy : sq (fun q => t m q - lr * g m q - s q) ≤ D ^ 2 := by
        have k1 := noisy_regret hA h0 h1 hD hρ (N := m) (Ms := fun _ => M) (labs := fun _ => lab) (fun _ _ => hM) (fun k _ => hg k) s (by
          have a : (m : ℝ) ≤ N := by exact_mod_cast (by omega : m ≤ N)
          rw [Finset.sum_const, Finset.card_range, nsmul_eq_mul, ← hf', ← hE]
          rw [← hf', ← hE] at hs
          have := mul_le_mul_of_nonneg_right a (by positivity : 0 ≤ 2 * lr * f' + E)
          linarith) fun k hk => ht k (by omega)
        have h2 : 0 ≤ 2 * lr * (1 - 2 * lr * A) := mul_nonneg (by linarith) (by linarith)
        have p := mul_nonneg h2 (Finset.sum_nonneg fun k (_ : k ∈ Finset.range m) => loss_nonneg (M := M) (lab := lab) (t k))
        have p' := mul_nonneg h2 (loss_nonneg (M := M) (lab := lab) (t m))
        rw [Finset.sum_const, Finset.card_range, nsmul_eq_mul, ← hf', ← hE] at k1
        rw [← hf', ← hE] at hs
        have a : (m : ℝ) + 1 ≤ N := by exact_mod_cast hm
        have := mul_le_mul_of_nonneg_right a (by positivity : 0 ≤ 2 * lr * f' + E)
        rw [← hf'] at y
        linarith
      have m1 := sq_moved (y := fun q => t m q - lr * g m q - s q) (y' := fun q => t (m + 1) q - s q) hD hy (ρ := ρ) fun q => by
        have := hst m (by omega) q
        rwa [show t (m + 1) q - s q - (t m q - lr * g m q - s q) = t (m + 1) q - (t m q - lr * g m q) by ring]
      rw [← hE] at m1
      have w := mul_le_mul_of_nonneg_left (hup m (by omega)) (by positivity : 0 ≤ 2 * lr * m)
      rw [d] at m1
      push_cast
      have lm : 0 ≤ lr * m * C := by positivity
      have lc : 0 ≤ lr * C := by positivity
      linarith
  have := hsum N le_rfl
  rw [← hE, ← hf']
  linarith [sq_nonneg' (fun q => t N q - s q)]

end

end DW.LogisticL
