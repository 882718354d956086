import Verif.Model.FloatBatchNormBack
import Verif.Props.FloatBatchNormShift
/-!
# C123: the gradients of batch normalization in `float`
-/

set_option autoImplicit false

namespace DW.Props.FloatBatchNormP

open DW.Float DW.Props.FloatSoftmaxP DW.Props.FloatLossP DW.Props.FloatDotP DW.Props.FloatGradP DW.Props.FloatActP DW.Props.FloatAccuracyP DW.Props.FloatNormP
  DW.Props.FloatMomentumP DW.Props.FloatTrainP DW.Props.FloatAdamP DW.Props.FloatAdamStepP DW.NormL
open scoped ENNReal

noncomputable section

variable {R : Rounding} {q : Sqrt} {ρ : ℝ} {B : ℕ}

/-! ## Relative errors -/

theorem rel_scale {p x e τ : ℝ} (a : ℝ) (h : |p - x| ≤ e * |x| + τ) : |a * p - a * x| ≤ e * |a * x| + |a| * τ := by
  rw [← mul_sub, abs_mul, abs_mul]
  refine (mul_le_mul_of_nonneg_left h (abs_nonneg a)).trans (le_of_eq ?_)
  ring

theorem rel_round {r z x e τ : ℝ} (h : |r - z| ≤ u * |z| + η) (h' : |z - x| ≤ e * |x| + τ) : |r - x| ≤ (e + u + u * e) * |x| + ((1 + u) * τ + η) := by
  have hu := u_pos
  have e1 := abs_sub_le r z x
  have e2 := abs_sub_abs_le_abs_sub z x
  have e3 : u * |z| ≤ u * (|x| + (e * |x| + τ)) := mul_le_mul_of_nonneg_left (by linarith) hu.le
  linarith

theorem rel_div {a x d y e f τ : ℝ} (hy : 0 < y) (hf : f ≤ 1 / 1000) (he : 0 ≤ e) (hτ : 0 ≤ τ) (h : |a - x| ≤ e * |x| + τ) (h' : |d - y| ≤ f * y) :
    0.999 * y ≤ d ∧ |a / d - x / y| ≤ 1.0011 * (e + f) * |x / y| + 1.0011 * (τ / y) := by
  have hf0 : 0 ≤ f := nonneg_of_mul_nonneg_left ((abs_nonneg _).trans h') hy
  have d1 : 0.999 * y ≤ d := by
    have := (abs_le.1 h').1
    have := mul_le_mul_of_nonneg_right hf hy.le
    linarith
  have d0 : 0 < d := lt_of_lt_of_le (by linarith) d1
  refine ⟨d1, ?_⟩
  have e1 : a / d - x / y = ((a - x) + x / y * (y - d)) / d := by
    field_simp
    ring
  rw [e1, abs_div, abs_of_pos d0, div_le_iff₀ d0]
  have e2 := abs_add_le (a - x) (x / y * (y - d))
  rw [abs_mul, abs_sub_comm y d] at e2
  have e3 := mul_le_mul_of_nonneg_left h' (abs_nonneg (x / y))
  have e4 : |x| = |x / y| * y := by
    rw [abs_div, abs_of_pos hy]
    field_simp
  rw [e4] at h
  have e5 : τ = τ / y * y := by field_simp
  have e6 : 0 ≤ e + f := by linarith
  have hq : 0 ≤ (e + f) * |x / y| + τ / y := by positivity
  have e7 := mul_le_mul_of_nonneg_left d1 hq
  have e8 : 0 ≤ ((e + f) * |x / y| + τ / y) * y := by positivity
  have e9 : (1.0011 * (e + f) * |x / y| + 1.0011 * (τ / y)) * d = 1.0011 * (((e + f) * |x / y| + τ / y) * d) := by ring
  rw [e9]
  have e10 : ((e + f) * |x / y| + τ / y) * y = (e * (|x / y| * y) + τ / y * y) + |x / y| * (f * y) := by ring
  linarith

/-! ## The kernel for given centred column and deviation -/

/-- The smallest scale of the results. -/
def ζ : ℝ := 1 / 2 ^ 80

/-- What the kernel is given. -/
structure Given (gamma S : Flt) (C G : Fin B → Flt) (g : ℝ) : Prop where
  some : 0 < B
  rows : B ≤ 2 ^ 20
  gamma : gamma.Finite ∧ |gamma.val| ≤ 2 ^ 20
  deviation : S.Finite ∧ 1 / 2 ^ 21 ≤ S.val ∧ S.val ≤ 2 ^ 54
  column : ∀ i, (C i).Finite ∧ |(C i).val| ≤ 2 ^ 52
  square : √(Spec.mean fun i => (C i).val ^ 2) ≤ 1.2 * S.val
  gradient : ∀ i, (G i).Finite ∧ |(G i).val| ≤ g
  max : g ≤ 2 ^ 30

/-- The scale of the gradient. -/
def gradScale (gamma S : Flt) (g : ℝ) : ℝ := |gamma.val| * g / S.val

variable {gamma S : Flt} {C G : Fin B → Flt} {g : ℝ}

theorem Given.facts (h : Given gamma S C G g) : 0 < S.val ∧ 0 ≤ g ∧ (1 : ℝ) ≤ B ∧ (B : ℝ) ≤ 2 ^ 20 ∧ (B : ℝ) * u ≤ 0.0625 ∧ 1 ≤ √(B : ℝ) ∧ √(B : ℝ) ≤ 2 ^ 10 ∧
    0 ≤ gradScale gamma S g ∧ gradScale gamma S g ≤ 2 ^ 71 := by
  obtain ⟨sf, s1, s2⟩ := h.deviation
  have s0 : 0 < S.val := lt_of_lt_of_le (by positivity) s1
  have g0 : 0 ≤ g := (abs_nonneg _).trans (h.gradient ⟨0, h.some⟩).2
  have hN1 : (1 : ℝ) ≤ B := by exact_mod_cast h.some
  have hN2 : (B : ℝ) ≤ 2 ^ 20 := by exact_mod_cast h.rows
  refine ⟨s0, g0, hN1, hN2, ?_, Real.one_le_sqrt.2 hN1, ?_, ?_, ?_⟩
  · have := mul_le_mul_of_nonneg_right hN2 u_pos.le
    have h2 : (2 : ℝ) ^ 20 * u ≤ 0.0625 := by unfold u; norm_num
    linarith
  · rw [Real.sqrt_le_left (by positivity)]
    linarith
  · unfold gradScale
    positivity
  · unfold gradScale
    rw [div_le_iff₀ s0]
    have := mul_le_mul h.gamma.2 h.max g0 (by positivity)
    have := mul_le_mul_of_nonneg_left s1 (by positivity : (0 : ℝ) ≤ 2 ^ 71)
    linarith [show (2 : ℝ) ^ 71 * (1 / 2 ^ 21) = 2 ^ 20 * 2 ^ 30 by norm_num]

/-- An element of `grad_x_norm`. -/
theorem norm_near (h : Given gamma S C G g) (i : Fin B) :
    (gradNorm R gamma G i).Finite ∧ |(gradNorm R gamma G i).val - (G i).val * gamma.val| ≤ u * |(G i).val * gamma.val| + η ∧ |(G i).val * gamma.val| ≤ 2 ^ 50 ∧
      |(gradNorm R gamma G i).val| ≤ 2 ^ 51 := by
  have hus := u_small
  have e1 : |(G i).val * gamma.val| ≤ 2 ^ 50 := by
    rw [abs_mul]
    have := mul_le_mul ((h.gradient i).2.trans h.max) h.gamma.2 (abs_nonneg _) (by positivity)
    linarith
  have n := near_mul (R := R) (h.gradient i).1 h.gamma.1 (e1.trans (by unfold big; norm_num))
  refine ⟨n.1, n.2, e1, ?_⟩
  have e2 := abs_sub_abs_le_abs_sub (gradNorm R gamma G i).val ((G i).val * gamma.val)
  have e3 : |(gradNorm R gamma G i).val - (G i).val * gamma.val| ≤ _ := n.2
  have e4 := mul_le_mul_of_nonneg_right hus (abs_nonneg ((G i).val * gamma.val))
  have e5 : η ≤ 1 := by unfold η; norm_num
  linarith

/-- One term of the sum in `grad_std`. -/
theorem term_near (h : Given gamma S C G g) (i : Fin B) :
    (div R (mul R (C i) (gradNorm R gamma G i)) (mul R S S)).Finite ∧
    |(div R (mul R (C i) (gradNorm R gamma G i)) (mul R S S)).val - (C i).val / S.val * ((G i).val * gamma.val / S.val)| ≤
      4.1 * u * |(C i).val / S.val * ((G i).val * gamma.val / S.val)| + ζ := by
  have hu := u_pos
  have hη := η_pos
  have hus := u_small
  obtain ⟨s0, g0, hN1, hN2, hBu, r1, r2, Q0, Q1⟩ := h.facts
  obtain ⟨sf, s1, s2⟩ := h.deviation
  obtain ⟨cf, cb⟩ := h.column i
  obtain ⟨pf, pe, xb, pb⟩ := norm_near (R := R) h i
  obtain ⟨-, m2⟩ := unit_bound s0 h.square
  set p := gradNorm R gamma G i
  set x := (G i).val * gamma.val
  have cp : |(C i).val * p.val| ≤ 2 ^ 52 * 2 ^ 51 := by
    rw [abs_mul]
    exact mul_le_mul cb pb (abs_nonneg _) (by positivity)
  have n1 := near_mul (R := R) cf pf (cp.trans (by unfold big; norm_num))
  have k1 := rel_round n1.2 (rel_scale (C i).val pe)
  have ss : S.val * S.val ≤ 2 ^ 54 * 2 ^ 54 := mul_le_mul s2 s2 s0.le (by positivity)
  have ss0 : 0 < S.val * S.val := by positivity
  have ss1 : 1 / 2 ^ 21 * (1 / 2 ^ 21) ≤ S.val * S.val := mul_le_mul s1 s1 (by positivity) s0.le
  have n2 := near_mul (R := R) sf sf (by rw [abs_of_pos ss0]; exact ss.trans (by unfold big; norm_num))
  have k2 : |(mul R S S).val - S.val * S.val| ≤ 1.001 * u * (S.val * S.val) := by
    have := n2.2
    rw [abs_of_pos ss0] at this
    have e1 : 0.001 * u * (1 / 2 ^ 21 * (1 / 2 ^ 21)) ≤ 0.001 * u * (S.val * S.val) := mul_le_mul_of_nonneg_left ss1 (by positivity)
    have e2 : η ≤ 0.001 * u * (1 / 2 ^ 21 * (1 / 2 ^ 21)) := by unfold u η; norm_num
    linarith
  obtain ⟨d1, k3⟩ := rel_div ss0 (by linarith) (by positivity) (by positivity) k1 k2
  have d0 : 0 < (mul R S S).val := lt_of_lt_of_le (by linarith) d1
  have q0 := n1.2
  have huq : u * |(C i).val * p.val| + η ≤ 2 ^ 103 := by
    have := mul_le_mul hus cp (abs_nonneg _) (by norm_num)
    have e5 : η ≤ 1 := by unfold η; norm_num
    linarith
  have qb : |(mul R (C i) p).val| ≤ 2 ^ 104 := by
    have := abs_sub_abs_le_abs_sub (mul R (C i) p).val ((C i).val * p.val)
    linarith
  -- sizes
  have t : (C i).val * x / (S.val * S.val) = (C i).val / S.val * (x / S.val) := by field_simp
  rw [t] at k3
  have xs : |x / S.val| ≤ 2 ^ 71 := by
    rw [abs_div, abs_of_pos s0, div_le_iff₀ s0]
    have := mul_le_mul_of_nonneg_left s1 (by positivity : (0 : ℝ) ≤ 2 ^ 71)
    linarith [show (2 : ℝ) ^ 71 * (1 / 2 ^ 21) = 2 ^ 50 by norm_num]
  have cs : |(C i).val / S.val| ≤ 2 ^ 11 := (m2 i).trans (by linarith)
  have tb : |(C i).val / S.val * (x / S.val)| ≤ 2 ^ 82 := by
    rw [abs_mul]
    have := mul_le_mul cs xs (abs_nonneg _) (by positivity)
    linarith
  have is : 1 / S.val ≤ 2 ^ 21 := by
    rw [div_le_iff₀ s0]
    have := mul_le_mul_of_nonneg_left s1 (by positivity : (0 : ℝ) ≤ 2 ^ 21)
    linarith [show (2 : ℝ) ^ 21 * (1 / 2 ^ 21) = 1 by norm_num]
  have is0 : 0 < 1 / S.val := by positivity
  have τb : ((1 + u) * (|(C i).val| * η) + η) / (S.val * S.val) ≤ 1 / 2 ^ 100 := by
    have e1 : ((1 + u) * (|(C i).val| * η) + η) / (S.val * S.val) = (1 + u) * (|(C i).val / S.val| * (1 / S.val) * η) + 1 / S.val * (1 / S.val) * η := by
      rw [abs_div, abs_of_pos s0]
      field_simp
    rw [e1]
    have e2 := mul_le_mul_of_nonneg_right (mul_le_mul cs is is0.le (by positivity)) hη.le
    have e3 := mul_le_mul_of_nonneg_right (mul_le_mul is is is0.le (by positivity)) hη.le
    have e4 := mul_le_mul (by linarith : 1 + u ≤ 2) e2 (by positivity) (by norm_num)
    have e5 : 2 * (2 ^ 11 * 2 ^ 21 * η) + 2 ^ 21 * 2 ^ 21 * η ≤ 1 / 2 ^ 100 := by unfold η; norm_num
    linarith
  set T := (C i).val / S.val * (x / S.val)
  set z := (mul R (C i) p).val / (mul R S S).val
  have uu : u * u ≤ 1 / 10 ^ 7 * u := mul_le_mul_of_nonneg_right hus hu.le
  have k4 : |z - T| ≤ 3.05 * u * |T| + 1 / 2 ^ 99 := by
    refine k3.trans (add_le_add (mul_le_mul_of_nonneg_right ?_ (abs_nonneg _)) (by linarith))
    linarith
  have zb : |z| ≤ 2 ^ 83 := by
    have e1 := abs_sub_abs_le_abs_sub z T
    have e2 := mul_le_mul (by linarith : 3.05 * u ≤ 1 / 2) tb (abs_nonneg _) (by norm_num)
    have e3 : (1 : ℝ) / 2 ^ 99 ≤ 1 := by norm_num
    linarith
  have n3 := near_div (R := R) n1.1 n2.1 d0.ne' (zb.trans (by unfold big; norm_num))
  refine ⟨n3.1, ?_⟩
  have k5 := rel_round n3.2 k4
  refine k5.trans (add_le_add (mul_le_mul_of_nonneg_right ?_ (abs_nonneg _)) ?_)
  · linarith
  · have e1 := mul_le_mul_of_nonneg_right (by linarith : 1 + u ≤ 2) (by positivity : (0 : ℝ) ≤ 1 / 2 ^ 99)
    have e2 : 2 * (1 / 2 ^ 99) + η ≤ ζ := by unfold ζ η; norm_num
    linarith

/-- A sum of numbers with small errors. -/
theorem sum_near {t : Fin B → Flt} {T : Fin B → ℝ} {s : Flt} {M : ℝ} (hs : SumOf R (List.ofFn t) s) (hB : 0 < B) (hB' : B ≤ 2 ^ 20)
    (ht : ∀ i, (t i).Finite ∧ |(t i).val - T i| ≤ 4.1 * u * |T i| + ζ) (hT : ∑ i, |T i| ≤ B * M) (hM : M ≤ 2 ^ 90) :
    s.Finite ∧ |s.val - ∑ i, T i| ≤ B * ((1.16 * B + 4.1) * u * M + 1.1 * ζ) := by
  have hu := u_pos
  have hη := η_pos
  have hus := u_small
  have hζ : 0 < ζ := by unfold ζ; positivity
  have hηζ : η ≤ 1 / 10 ^ 3 * ζ := by unfold η ζ; norm_num
  have hζ1 : ζ ≤ 1 := by unfold ζ; norm_num
  have hN1 : (1 : ℝ) ≤ B := by exact_mod_cast hB
  have hN2 : (B : ℝ) ≤ 2 ^ 20 := by exact_mod_cast hB'
  have hBu : (B : ℝ) * u ≤ 0.0625 := by
    have := mul_le_mul_of_nonneg_right hN2 hu.le
    have h2 : (2 : ℝ) ^ 20 * u ≤ 0.0625 := by unfold u; norm_num
    linarith
  have hM0 : 0 ≤ M := by
    have h0 : 0 ≤ B * M := (Finset.sum_nonneg fun i _ => abs_nonneg (T i)).trans hT
    exact nonneg_of_mul_nonneg_right h0 (by linarith)
  set l := List.ofFn t with hl
  have hlen : l.length = B := by simp [hl]
  have hG := pow_small (k := B) (by omega)
  have hG1 : 1 ≤ (1 + u) ^ B := one_le_pow₀ (by linarith)
  have herr : ∑ i, |(t i).val - T i| ≤ B * (4.1 * u * M + ζ) := by
    refine (Finset.sum_le_sum fun i _ => (ht i).2).trans ?_
    rw [Finset.sum_add_distrib, ← Finset.mul_sum, Finset.sum_const, Finset.card_univ, Fintype.card_fin, nsmul_eq_mul]
    have := mul_le_mul_of_nonneg_left hT (by positivity : 0 ≤ 4.1 * u)
    linarith
  have hmass : mass l ≤ B * (1.001 * M + ζ) := by
    have e : mass l = ∑ i, |(t i).val| := by simp [mass, hl, List.map_ofFn, List.sum_ofFn]
    rw [e]
    have e1 : ∑ i, |(t i).val| ≤ ∑ i, (|(t i).val - T i| + |T i|) := Finset.sum_le_sum fun i _ => by
      have := abs_sub_abs_le_abs_sub (t i).val (T i)
      linarith
    rw [Finset.sum_add_distrib] at e1
    have e2 : 4.1 * u * M ≤ 0.001 * M := mul_le_mul_of_nonneg_right (by linarith) hM0
    have e3 := mul_le_mul_of_nonneg_left e2 (by linarith : (0 : ℝ) ≤ B)
    linarith
  have htot : total l = ∑ i, (t i).val := by simp [total, hl, List.map_ofFn, List.sum_ofFn]
  have hm0 := mass_nonneg l
  obtain ⟨sf, se⟩ := sum_good hs (g := (1 + u) ^ B) (fun x hx => by
    obtain ⟨i, rfl⟩ := List.mem_ofFn.1 hx
    exact (ht i).1) (by rw [hlen]) (by
      rw [hlen]
      have e1 : mass l + 2 * B * η ≤ 2 ^ 122 := by
        have := mul_le_mul hN2 (by linarith : 1.001 * M + ζ ≤ 2 ^ 91) (by linarith) (by norm_num)
        have := mul_le_mul hN2 (hηζ.trans (by linarith) : η ≤ 1) hη.le (by norm_num)
        linarith
      have e2 := mul_le_mul (by linarith : (1 + u) ^ B ≤ 2) e1 (by positivity) (by norm_num)
      refine e2.trans ?_
      unfold big
      norm_num)
  refine ⟨sf, ?_⟩
  rw [hlen, htot] at se
  have e1 := abs_sub_le s.val (∑ i, (t i).val) (∑ i, T i)
  rw [← Finset.sum_sub_distrib] at e1
  have e2 := Finset.abs_sum_le_sum_abs (fun i => (t i).val - T i) Finset.univ
  set K := (1 + u) ^ B
  have e3 := mul_le_mul (by linarith : K - 1 ≤ 1.15 * (B * u)) hmass hm0 (by positivity)
  have e4 : (2 * (B : ℝ) - 1) * η * K ≤ (2 * B * (1 / 10 ^ 3 * ζ)) * 1.15 := by
    have a1 : (2 * (B : ℝ) - 1) * η ≤ 2 * B * (1 / 10 ^ 3 * ζ) := by
      have := mul_le_mul_of_nonneg_left hηζ (by linarith : 0 ≤ 2 * (B : ℝ))
      linarith
    exact mul_le_mul a1 (by linarith) (by linarith) (mul_nonneg (by linarith) (by linarith))
  have e5 : (B : ℝ) * (B * u * ζ) ≤ B * (0.0625 * ζ) := mul_le_mul_of_nonneg_left (mul_le_mul_of_nonneg_right hBu hζ.le) (by linarith)
  have e6 : 0 ≤ (B : ℝ) * (B * (u * M)) := mul_nonneg (by linarith) (mul_nonneg (by linarith) (mul_nonneg hu.le hM0))
  have e7 : 0 ≤ (B : ℝ) * ζ := mul_nonneg (by linarith) hζ.le
  linarith

theorem neg_calc {k k' s N M : ℝ} (hN : 1 ≤ N) (hNu : N * u ≤ 0.0625) (hM : 0 ≤ M) (hk : |k' - k| ≤ N * ((1.16 * N + 4.1) * u * M + 1.1 * ζ)) (hkM : |k| ≤ N * M)
    (hs : |s - k' * -1| ≤ u * |k' * -1| + η) : |s - -k| ≤ N * ((1.16 * N + 5.2) * u * M + 1.11 * ζ) ∧ |s| ≤ N * (1.08 * M + 1.2 * ζ) := by
  have hu := u_pos
  have hus := u_small
  have hζ : 0 < ζ := by unfold ζ; positivity
  have hηζ : η ≤ 1 / 10 ^ 3 * ζ := by unfold η ζ; norm_num
  have e0 : |k' * -1| = |k'| := by rw [mul_neg, mul_one, abs_neg]
  rw [e0] at hs
  have e1 : |s - -k| ≤ |s - k' * -1| + |k' - k| := by
    have := abs_sub_le s (k' * -1) (-k)
    rw [show k' * -1 - -k = -(k' - k) by ring, abs_neg] at this
    exact this
  have e2 := abs_sub_abs_le_abs_sub k' k
  have e3 : (1.16 * N + 4.1) * u * M ≤ 0.075 * M := mul_le_mul_of_nonneg_right (by linarith) hM
  have N0 : 0 ≤ N := by linarith
  have e4 := mul_le_mul_of_nonneg_left e3 N0
  have e5 : |k'| ≤ N * (1.075 * M + 1.1 * ζ) := by linarith
  have e6 := mul_le_mul_of_nonneg_left e5 hu.le
  have e7 : u * (N * ζ) ≤ 1 / 10 ^ 7 * (N * ζ) := mul_le_mul_of_nonneg_right hus (by positivity)
  have e8 : ζ ≤ N * ζ := le_mul_of_one_le_left hζ.le hN
  have e9 : 0 ≤ N * (u * M) := by positivity
  have e10 : u * (N * M) ≤ 1 / 10 ^ 7 * (N * M) := mul_le_mul_of_nonneg_right hus (by positivity)
  have e11 : 0 ≤ N * M := by positivity
  constructor
  · linarith
  · have a1 := abs_sub_abs_le_abs_sub s (k' * -1)
    rw [e0] at a1
    linarith

theorem var_calc {k s w v σ N M : ℝ} (hN : 1 ≤ N) (hNu : N * u ≤ 0.0625) (hM : 0 ≤ M) (hσ : 0 < σ) (hσ1 : 1 / 2 ^ 21 ≤ σ) (hσ2 : σ ≤ 2 ^ 54)
    (hs : |s - -k| ≤ N * ((1.16 * N + 5.2) * u * M + 1.11 * ζ)) (hsb : |s| ≤ N * (1.08 * M + 1.2 * ζ)) (hkM : |k| ≤ N * M) (hw : |w - σ * 2| ≤ u * |σ * 2| + η)
    (hv : |v - s / w| ≤ u * |s / w| + η) :
    |v - -k / (σ * 2)| ≤ N / (σ * 2) * ((1.2 * N + 8) * u * M + 1.3 * ζ) ∧ |v| ≤ N / (σ * 2) * (1.09 * M + 1.4 * ζ) := by
  have hu := u_pos
  have hus := u_small
  have hζ : 0 < ζ := by unfold ζ; positivity
  have y0 : 0 < σ * 2 := by linarith
  have N0 : 0 ≤ N := by linarith
  rw [abs_of_pos y0] at hw
  have hw' : |w - σ * 2| ≤ 1.001 * u * (σ * 2) := by
    have e1 : 0.001 * u * (1 / 2 ^ 21 * 2) ≤ 0.001 * u * (σ * 2) := mul_le_mul_of_nonneg_left (by linarith) (by positivity)
    have e2 : η ≤ 0.001 * u * (1 / 2 ^ 21 * 2) := by unfold u η; norm_num
    linarith
  have hs' : |s - -k| ≤ 0 * |-k| + N * ((1.16 * N + 5.2) * u * M + 1.11 * ζ) := by linarith
  obtain ⟨d1, k1⟩ := rel_div y0 (by linarith) le_rfl (by positivity) hs' hw'
  have w0 : 0 < w := lt_of_lt_of_le (by linarith) d1
  set L := N / (σ * 2) with hL
  have L0 : 0 ≤ L := by positivity
  have kL : |-k / (σ * 2)| ≤ L * M := by
    rw [abs_div, abs_neg, abs_of_pos y0, hL, div_mul_eq_mul_div]
    exact div_le_div_of_nonneg_right hkM y0.le
  have e1 : N * ((1.16 * N + 5.2) * u * M + 1.11 * ζ) / (σ * 2) = L * ((1.16 * N + 5.2) * u * M + 1.11 * ζ) := by
    rw [hL]
    ring
  rw [e1] at k1
  have swL : |s / w| ≤ L * (1.085 * M + 1.21 * ζ) := by
    rw [abs_div, abs_of_pos w0, div_le_iff₀ w0]
    have a1 := mul_le_mul_of_nonneg_left d1 (by positivity : 0 ≤ L * (1.085 * M + 1.21 * ζ))
    have a2 : L * (1.085 * M + 1.21 * ζ) * (0.999 * (σ * 2)) = N * (0.999 * (1.085 * M + 1.21 * ζ)) := by
      rw [hL]
      field_simp
    have a3 : 0 ≤ N * M := by positivity
    have a4 : 0 ≤ N * ζ := by positivity
    linarith
  have hηL : η ≤ 1 / 10 ^ 3 * (L * ζ) := by
    have a1 : 1 / (2 ^ 54 * 2) ≤ L := by
      rw [hL]
      exact div_le_div₀ N0 hN y0 (by linarith)
    have a2 := mul_le_mul_of_nonneg_right a1 hζ.le
    have a3 : η ≤ 1 / 10 ^ 3 * (1 / (2 ^ 54 * 2) * ζ) := by unfold η ζ; norm_num
    linarith
  have e2 := mul_le_mul_of_nonneg_left kL (by positivity : 0 ≤ 1.0011 * (0 + 1.001 * u))
  have e3 := mul_le_mul_of_nonneg_left swL hu.le
  have e4 : u * (L * ζ) ≤ 1 / 10 ^ 7 * (L * ζ) := mul_le_mul_of_nonneg_right hus (by positivity)
  have e5 := abs_sub_le v (s / w) (-k / (σ * 2))
  have e6 : 0 ≤ L * (u * M) := by positivity
  have e7 : 0 ≤ L * (N * (u * M)) := by positivity
  have e8 : 0 ≤ L * ζ := by positivity
  have e9 : u * (L * M) ≤ 1 / 10 ^ 7 * (L * M) := mul_le_mul_of_nonneg_right hus (by positivity)
  have e10 : 0 ≤ L * M := by positivity
  constructor
  · linarith
  · have a1 := abs_sub_abs_le_abs_sub v (s / w)
    linarith

theorem times_calc {c v y f k N M b L v₀ : ℝ} (hN : 1 ≤ N) (hNu : N * u ≤ 0.0625) (hM : 0 ≤ M) (hb : 1 ≤ b) (hL : 0 ≤ L) (hc : |c| * L ≤ 0.6 * (b * N))
    (hv : |v - v₀| ≤ L * ((1.2 * N + 8) * u * M + 1.3 * ζ)) (hvb : |v| ≤ L * (1.09 * M + 1.4 * ζ)) (hv₀ : |v₀| ≤ L * M) (hy : |y - c * v| ≤ u * |c * v| + η)
    (hf : |f - 2 / N| ≤ 1.02 * u * (2 / N)) (hk : k = c * v₀ * (2 / N)) :
    |y * f - k| ≤ b * (1.2 * ((1.21 * N + 10.4) * u * M + 1.5 * ζ)) ∧ |y * f| ≤ b * (1.2 * (1.1 * M + 1.5 * ζ)) ∧ |y| ≤ b * N * (0.66 * M + 0.9 * ζ) := by
  have hu := u_pos
  have hus := u_small
  have hζ : 0 < ζ := by unfold ζ; positivity
  have hηζ : η ≤ 1 / 10 ^ 3 * ζ := by unfold η ζ; norm_num
  have N0 : 0 < N := by linarith
  have hbN : 1 ≤ b * N := by
    have := mul_le_mul hb hN (by norm_num) (by linarith)
    linarith
  set Λ := b * N with hΛ
  have c1 : |c * v - c * v₀| ≤ 0.6 * Λ * ((1.2 * N + 8) * u * M + 1.3 * ζ) := by
    rw [← mul_sub, abs_mul]
    have a1 := mul_le_mul_of_nonneg_left hv (abs_nonneg c)
    have a2 := mul_le_mul_of_nonneg_right hc (by positivity : 0 ≤ (1.2 * N + 8) * u * M + 1.3 * ζ)
    linarith
  have c2 : |c * v| ≤ 0.6 * Λ * (1.09 * M + 1.4 * ζ) := by
    rw [abs_mul]
    have a1 := mul_le_mul_of_nonneg_left hvb (abs_nonneg c)
    have a2 := mul_le_mul_of_nonneg_right hc (by positivity : 0 ≤ 1.09 * M + 1.4 * ζ)
    linarith
  have c3 : |c * v₀| ≤ 0.6 * Λ * M := by
    rw [abs_mul]
    have a1 := mul_le_mul_of_nonneg_left hv₀ (abs_nonneg c)
    have a2 := mul_le_mul_of_nonneg_right hc hM
    linarith
  have p1 : 0 ≤ Λ * M := by positivity
  have p2 : 0 ≤ Λ * (u * M) := by positivity
  have p3 : 0 ≤ Λ * ζ := by positivity
  have p4 : 0 ≤ Λ * (N * (u * M)) := by positivity
  have p5 : ζ ≤ Λ * ζ := le_mul_of_one_le_left hζ.le hbN
  have p6 : u * (Λ * ζ) ≤ 1 / 10 ^ 7 * (Λ * ζ) := mul_le_mul_of_nonneg_right hus p3
  have p7 : u * (Λ * M) ≤ 1 / 10 ^ 7 * (Λ * M) := mul_le_mul_of_nonneg_right hus p1
  have p8 := mul_le_mul_of_nonneg_left c2 hu.le
  have y1 : |y - c * v₀| ≤ 0.6 * Λ * ((1.2 * N + 9.1) * u * M + 1.4 * ζ) := by
    have := abs_sub_le y (c * v) (c * v₀)
    linarith
  have y2 : |y| ≤ 0.6 * Λ * (1.095 * M + 1.45 * ζ) := by
    have := abs_sub_abs_le_abs_sub y (c * v)
    linarith
  have f0 : 0 < 2 / N := by positivity
  have f1 : |f| ≤ 1.001 * (2 / N) := by
    have a1 := abs_sub_abs_le_abs_sub f (2 / N)
    rw [abs_of_pos f0] at a1
    have a2 := mul_le_mul_of_nonneg_right (by linarith : 1.02 * u ≤ 0.001) f0.le
    linarith
  have ΛN : Λ * (2 / N) = 2 * b := by
    rw [hΛ]
    field_simp
  refine ⟨?_, ?_, by linarith⟩
  · have e1 : y * f - k = (y - c * v₀) * f + c * v₀ * (f - 2 / N) := by rw [hk]; ring
    rw [e1]
    have e2 := abs_add_le ((y - c * v₀) * f) (c * v₀ * (f - 2 / N))
    rw [abs_mul, abs_mul (c * v₀)] at e2
    have e3 := mul_le_mul y1 f1 (abs_nonneg _) (by positivity)
    have e4 := mul_le_mul c3 hf (abs_nonneg _) (by positivity)
    have e5 : 0.6 * Λ * ((1.2 * N + 9.1) * u * M + 1.4 * ζ) * (1.001 * (2 / N)) = 0.6 * 1.001 * ((1.2 * N + 9.1) * u * M + 1.4 * ζ) * (Λ * (2 / N)) := by ring
    have e6 : 0.6 * Λ * M * (1.02 * u * (2 / N)) = 0.6 * 1.02 * (u * M) * (Λ * (2 / N)) := by ring
    rw [e5, ΛN] at e3
    rw [e6, ΛN] at e4
    have q1 : 0 ≤ b * (u * M) := by positivity
    have q2 : 0 ≤ b * ζ := by positivity
    have q3 : 0 ≤ b * (N * (u * M)) := by positivity
    linarith
  · rw [abs_mul]
    have e3 := mul_le_mul y2 f1 (abs_nonneg _) (by positivity)
    have e5 : 0.6 * Λ * (1.095 * M + 1.45 * ζ) * (1.001 * (2 / N)) = 0.6 * 1.001 * (1.095 * M + 1.45 * ζ) * (Λ * (2 / N)) := by ring
    rw [e5, ΛN] at e3
    have q1 : 0 ≤ b * M := by positivity
    have q2 : 0 ≤ b * ζ := by positivity
    linarith

/-- The factor `2.0 / batch_size`. -/
theorem two_near {f : Flt} (hf : IsTwoOver R B f) (hB : 0 < B) (hB' : B ≤ 2 ^ 20) : f.Finite ∧ |f.val - 2 / B| ≤ 1.02 * u * (2 / B) := by
  have hu := u_pos
  have hus := u_small
  obtain ⟨d, d1, d2, rfl⟩ := hf
  have hN1 : (1 : ℝ) ≤ B := by exact_mod_cast hB
  have hN2 : (B : ℝ) ≤ 2 ^ 20 := by exact_mod_cast hB'
  have hx : (2 / B : ℝ≥0∞) ≠ ⊤ := ENNReal.div_ne_top (by simp) (by exact_mod_cast hB.ne')
  have hi : ((2 ^ 53)⁻¹ : ℝ≥0∞) ≠ ⊤ := by simp
  have hxi := ENNReal.mul_ne_top hx hi
  have hd : d ≠ ⊤ := ne_top_of_le_ne_top (ENNReal.add_ne_top.2 ⟨hx, hxi⟩) d1
  have e1 := ENNReal.toReal_mono (ENNReal.add_ne_top.2 ⟨hx, hxi⟩) d1
  have e2 := ENNReal.toReal_mono (ENNReal.add_ne_top.2 ⟨hd, hxi⟩) d2
  rw [ENNReal.toReal_add hx hxi, ENNReal.toReal_mul] at e1
  rw [ENNReal.toReal_add hd hxi, ENNReal.toReal_mul] at e2
  have e3 : (2 / B : ℝ≥0∞).toReal = 2 / (B : ℝ) := by rw [ENNReal.toReal_div]; simp
  have e4 : ((2 ^ 53)⁻¹ : ℝ≥0∞).toReal = 1 / 2 ^ 53 := by simp
  rw [e3, e4] at e1 e2
  have f0 : (2 : ℝ) / 2 ^ 20 ≤ 2 / B := div_le_div_of_nonneg_left (by norm_num) (by linarith) hN2
  have f1 : (2 : ℝ) / B ≤ 2 := by
    rw [div_le_iff₀ (by linarith)]
    linarith
  set x : ℝ := 2 / B
  have hdx : |d.toReal - x| ≤ 1 / 2 ^ 53 * |x| + 0 := by
    rw [abs_of_nonneg (by linarith : 0 ≤ x), abs_le]
    constructor <;> linarith
  have hdv : (Flt.num false d).val = d.toReal := by simp [Flt.val]
  have n := near_num (R := R) hd hdv (by
    rw [abs_of_nonneg ENNReal.toReal_nonneg]
    have : d.toReal ≤ 4 := by linarith
    refine this.trans ?_
    unfold big
    norm_num)
  refine ⟨n.1, ?_⟩
  have k := rel_round n.2 hdx
  rw [abs_of_nonneg (by linarith : 0 ≤ x)] at k
  have k1 : η ≤ 0.01 * u * (2 / 2 ^ 20) := by unfold u η; norm_num
  have k2 : 0.01 * u * (2 / 2 ^ 20) ≤ 0.01 * u * x := mul_le_mul_of_nonneg_left f0 (by positivity)
  have k3 : (1 / 2 ^ 53 + u + u * (1 / 2 ^ 53)) * x ≤ 1.01 * u * x := mul_le_mul_of_nonneg_right (by unfold u; norm_num) (by linarith)
  linarith

/-- The sum of the magnitudes of the terms in `grad_std`. -/
theorem terms_le (h : Given gamma S C G g) : ∑ i, |(C i).val / S.val * ((G i).val * gamma.val / S.val)| ≤ B * (1.2 * gradScale gamma S g) := by
  obtain ⟨s0, g0, hN1, hN2, hBu, r1, r2, Q0, Q1⟩ := h.facts
  obtain ⟨m1, -⟩ := unit_bound s0 h.square
  have e1 : ∀ i, |(C i).val / S.val * ((G i).val * gamma.val / S.val)| ≤ |(C i).val / S.val| * gradScale gamma S g := fun i => by
    rw [abs_mul]
    refine mul_le_mul_of_nonneg_left ?_ (abs_nonneg _)
    unfold gradScale
    rw [abs_div, abs_of_pos s0, abs_mul, mul_comm |gamma.val|]
    exact div_le_div_of_nonneg_right (mul_le_mul_of_nonneg_right (h.gradient i).2 (abs_nonneg _)) s0.le
  refine (Finset.sum_le_sum fun i _ => e1 i).trans ?_
  rw [← Finset.sum_mul, ← mul_mean h.some, mul_assoc]
  exact mul_le_mul_of_nonneg_left (mul_le_mul_of_nonneg_right m1 Q0) (by linarith)

theorem val_minus_one : (Flt.num true 1).Finite ∧ (Flt.num true 1).val = -1 := by simp [Flt.Finite, Flt.val]

/-- A value of `grad_var`. -/
theorem var_near (h : Given gamma S C G g) {v : Flt} (hv : GradVar R gamma S C G v) :
    v.Finite ∧ |v.val - -(∑ i, (C i).val / S.val * ((G i).val * gamma.val / S.val)) / (S.val * 2)| ≤
      B / (S.val * 2) * ((1.2 * B + 8) * u * (1.2 * gradScale gamma S g) + 1.3 * ζ) ∧
    |v.val| ≤ B / (S.val * 2) * (1.09 * (1.2 * gradScale gamma S g) + 1.4 * ζ) := by
  have hu := u_pos
  have hus := u_small
  have hζ : 0 < ζ := by unfold ζ; positivity
  have hζ1 : ζ ≤ 1 := by unfold ζ; norm_num
  obtain ⟨s0, g0, hN1, hN2, hBu, r1, r2, Q0, Q1⟩ := h.facts
  obtain ⟨sf, s1, s2⟩ := h.deviation
  obtain ⟨s, ⟨t, ht, hs⟩, hv⟩ := hv
  have hT := terms_le h
  obtain ⟨tf, te⟩ := sum_near ht h.some h.rows (fun i => term_near h i) hT (by linarith)
  set k := ∑ i, (C i).val / S.val * ((G i).val * gamma.val / S.val)
  set M := 1.2 * gradScale gamma S g with hM
  have M0 : 0 ≤ M := by positivity
  have M1 : M ≤ 2 ^ 72 := by rw [hM]; linarith
  have kb : |k| ≤ B * M := (Finset.abs_sum_le_sum_abs _ _).trans hT
  have N0 : (0 : ℝ) ≤ B := by linarith
  have NM : (B : ℝ) * M ≤ 2 ^ 20 * 2 ^ 72 := mul_le_mul hN2 M1 M0 (by norm_num)
  have Nz : (B : ℝ) * ζ ≤ 2 ^ 20 * 1 := mul_le_mul hN2 hζ1 hζ.le (by norm_num)
  have tb : |t.val * -1| ≤ 2 ^ 94 := by
    rw [mul_neg, mul_one, abs_neg]
    have a1 := abs_sub_abs_le_abs_sub t.val k
    have a2 := mul_le_mul_of_nonneg_right (by linarith : (1.16 * B + 4.1) * u ≤ 1) M0
    have a3 := mul_le_mul_of_nonneg_left a2 N0
    linarith
  have n1 := near_mul (R := R) tf val_minus_one.1 (by rw [val_minus_one.2]; exact tb.trans (by unfold big; norm_num))
  rw [← hs, val_minus_one.2] at n1
  obtain ⟨k1, k2⟩ := neg_calc hN1 hBu M0 te kb n1.2
  have h2 := FloatCountP.ofNat_exact (R := R) (m := 2) (by norm_num)
  have h2f : (ofNat R 2).Finite ∧ (ofNat R 2).val = 2 := by rw [h2]; simp [Flt.Finite, Flt.val]
  have n2 := near_mul (R := R) sf h2f.1 (by
    rw [h2f.2, abs_of_nonneg (by linarith)]
    refine (by linarith : S.val * 2 ≤ 2 ^ 54 * 2).trans ?_
    unfold big
    norm_num)
  rw [h2f.2] at n2
  have w1 : S.val ≤ (mul R S (ofNat R 2)).val := by
    have a1 := n2.2
    rw [abs_of_nonneg (by linarith : 0 ≤ S.val * 2)] at a1
    have a2 := (abs_le.1 a1).1
    have a3 := mul_le_mul_of_nonneg_right hus (by linarith : 0 ≤ S.val * 2)
    have a4 : η ≤ 0.1 * (1 / 2 ^ 21) := by unfold η; norm_num
    linarith
  have w0 : 0 < (mul R S (ofNat R 2)).val := lt_of_lt_of_le s0 w1
  have n3 := near_div (R := R) n1.1 n2.1 w0.ne' (by
    rw [abs_div, abs_of_pos w0, div_le_iff₀ w0]
    have a1 : big * (1 / 2 ^ 21) ≤ big * (mul R S (ofNat R 2)).val := mul_le_mul_of_nonneg_left (s1.trans w1) (by unfold big; positivity)
    have a2 : (2 : ℝ) ^ 95 ≤ big * (1 / 2 ^ 21) := by unfold big; norm_num
    linarith)
  rw [← hv] at n3
  obtain ⟨k3, k4⟩ := var_calc hN1 hBu M0 s0 s1 s2 k1 k2 kb n2.2 n3.2
  exact ⟨n3.1, k3, k4⟩

theorem centred_calc {z y n x Q b N : ℝ} {M P : ℝ} (hN : 1 ≤ N) (hb : 1 ≤ b) (hQ : 0 ≤ Q) (hM : M = 1.2 * Q) (hx : |x| ≤ Q)
    (h1 : |y - P| ≤ b * (1.2 * ((1.21 * N + 10.4) * u * M + 1.5 * ζ))) (h2 : |n - x| ≤ 2.1 * u * |x| + ζ)
    (h3 : |z - (y + n)| ≤ 2.1 * u * (b * (1.2 * (1.1 * M + 1.5 * ζ)) + (1.001 * Q + ζ)) + 3 * η) :
    |z - (x + P)| ≤ b * ((1.8 * N + 23) * u * Q + 3 * ζ) := by
  have hu := u_pos
  have hus := u_small
  have hζ : 0 < ζ := by unfold ζ; positivity
  have hηζ : η ≤ 1 / 10 ^ 3 * ζ := by unfold η ζ; norm_num
  subst hM
  have e1 := abs_sub_le z (y + n) (x + P)
  rw [show y + n - (x + P) = (y - P) + (n - x) by ring] at e1
  have e2 := abs_add_le (y - P) (n - x)
  have e3 := mul_le_mul_of_nonneg_left hx (by positivity : 0 ≤ 2.1 * u)
  have e4 : u * Q ≤ b * (u * Q) := le_mul_of_one_le_left (by positivity) hb
  have e5 : ζ ≤ b * ζ := le_mul_of_one_le_left hζ.le hb
  have e6 : u * (b * ζ) ≤ 1 / 10 ^ 7 * (b * ζ) := mul_le_mul_of_nonneg_right hus (by positivity)
  have e7 : u * ζ ≤ 1 / 10 ^ 7 * ζ := mul_le_mul_of_nonneg_right hus hζ.le
  have e8 : 0 ≤ b * (u * Q) := by positivity
  have e9 : 0 ≤ b * (N * (u * Q)) := by positivity
  linarith

/-- A value of an element of `grad_x_centered`. -/
theorem centred_near (h : Given gamma S C G g) {i : Fin B} {z : Flt} (hz : GradCentered R gamma S C G i z) :
    z.Finite ∧ |z.val - centredGrad gamma.val S.val (fun i => (C i).val) (fun i => (G i).val) i| ≤ √B * ((1.8 * B + 23) * u * gradScale gamma S g + 3 * ζ) := by
  have hu := u_pos
  have hus := u_small
  have hζ : 0 < ζ := by unfold ζ; positivity
  have hζ1 : ζ ≤ 1 := by unfold ζ; norm_num
  obtain ⟨s0, g0, hN1, hN2, hBu, r1, r2, Q0, Q1⟩ := h.facts
  obtain ⟨sf, s1, s2⟩ := h.deviation
  obtain ⟨cf, cb⟩ := h.column i
  obtain ⟨v, f, hv, hf, hz⟩ := hz
  obtain ⟨vf, ve, vb⟩ := var_near h hv
  obtain ⟨ff, fe⟩ := two_near hf h.some h.rows
  obtain ⟨-, m2⟩ := unit_bound s0 h.square
  have hT := terms_le h
  set k := ∑ i, (C i).val / S.val * ((G i).val * gamma.val / S.val) with hk
  set Q := gradScale gamma S g with hQ
  have M0 : 0 ≤ 1.2 * Q := by positivity
  have kb : |k| ≤ B * (1.2 * Q) := (Finset.abs_sum_le_sum_abs _ _).trans hT
  have y0 : 0 < S.val * 2 := by linarith
  have v₀b : |-k / (S.val * 2)| ≤ B / (S.val * 2) * (1.2 * Q) := by
    rw [abs_div, abs_neg, abs_of_pos y0, div_mul_eq_mul_div]
    exact div_le_div_of_nonneg_right kb y0.le
  have hL : 0 ≤ B / (S.val * 2) := by positivity
  have cL : |(C i).val| * (B / (S.val * 2)) ≤ 0.6 * (√B * B) := by
    have a1 := m2 i
    rw [abs_div, abs_of_pos s0] at a1
    have a2 : |(C i).val| * (B / (S.val * 2)) = |(C i).val| / S.val * (B / 2) := by field_simp
    rw [a2]
    have a3 := mul_le_mul_of_nonneg_right a1 (by linarith : (0 : ℝ) ≤ B / 2)
    linarith
  have cvb : |(C i).val * v.val| ≤ 0.6 * (√B * B) * (1.09 * (1.2 * Q) + 1.4 * ζ) := by
    rw [abs_mul]
    have a1 := mul_le_mul_of_nonneg_left vb (abs_nonneg (C i).val)
    have a2 := mul_le_mul_of_nonneg_right cL (by positivity : 0 ≤ 1.09 * (1.2 * Q) + 1.4 * ζ)
    linarith
  have bN : √B * B ≤ 2 ^ 10 * 2 ^ 20 := mul_le_mul r2 hN2 (by linarith) (by norm_num)
  have n1 := near_mul (R := R) cf vf (by
    have a1 := mul_le_mul bN (by linarith : 1.09 * (1.2 * Q) + 1.4 * ζ ≤ 2 ^ 72) (by positivity) (by norm_num)
    have a2 : (0.6 : ℝ) * (2 ^ 10 * 2 ^ 20 * 2 ^ 72) ≤ big := by unfold big; norm_num
    linarith)
  obtain ⟨k1, k2, k3⟩ := times_calc (f := f.val) (k := (C i).val * (-k / (S.val * 2)) * (2 / B)) hN1 hBu M0 r1 hL cL ve vb v₀b n1.2 fe rfl
  -- the first summand
  obtain ⟨pf, pe, xb, pb⟩ := norm_near (R := R) h i
  set p := gradNorm R gamma G i
  have k4 : |p.val / S.val - (G i).val * gamma.val / S.val| ≤ u * |(G i).val * gamma.val / S.val| + 1 / 2 ^ 120 := by
    rw [← sub_div, abs_div, abs_div, abs_of_pos s0, div_le_iff₀ s0, add_mul, mul_assoc, div_mul_cancel₀ _ s0.ne']
    have a1 : η ≤ 1 / 2 ^ 120 * (1 / 2 ^ 21) := by unfold η; norm_num
    have a2 : 1 / 2 ^ 120 * (1 / 2 ^ 21) ≤ 1 / 2 ^ 120 * S.val := mul_le_mul_of_nonneg_left s1 (by positivity)
    linarith
  have xQ : |(G i).val * gamma.val / S.val| ≤ Q := by
    rw [hQ]
    unfold gradScale
    rw [abs_div, abs_of_pos s0, abs_mul, mul_comm |gamma.val|]
    exact div_le_div_of_nonneg_right (mul_le_mul_of_nonneg_right (h.gradient i).2 (abs_nonneg _)) s0.le
  have n2 := near_div (R := R) pf sf s0.ne' (by
    rw [abs_div, abs_of_pos s0, div_le_iff₀ s0]
    have a1 : big * (1 / 2 ^ 21) ≤ big * S.val := mul_le_mul_of_nonneg_left s1 (by unfold big; positivity)
    have a2 : (2 : ℝ) ^ 51 ≤ big * (1 / 2 ^ 21) := by unfold big; norm_num
    linarith)
  have k5 : |(div R p S).val - (G i).val * gamma.val / S.val| ≤ 2.1 * u * |(G i).val * gamma.val / S.val| + ζ := by
    refine (rel_round n2.2 k4).trans (add_le_add (mul_le_mul_of_nonneg_right ?_ (abs_nonneg _)) ?_)
    · have := mul_le_mul_of_nonneg_right hus hu.le
      linarith
    · have a1 := mul_le_mul_of_nonneg_right (by linarith : 1 + u ≤ 2) (by positivity : (0 : ℝ) ≤ 1 / 2 ^ 120)
      have a2 : 2 * (1 / 2 ^ 120) + η ≤ ζ := by unfold ζ η; norm_num
      linarith
  have nb : |(div R p S).val| ≤ 1.001 * Q + ζ := by
    have a1 := abs_sub_abs_le_abs_sub (div R p S).val ((G i).val * gamma.val / S.val)
    have a2 := mul_le_mul (by linarith : 2.1 * u ≤ 0.001) xQ (abs_nonneg _) (by norm_num)
    linarith
  obtain ⟨zf, ze⟩ := mulAdd_error hz n1.1 ff n2.1 k2 nb (by
    have a1 := mul_le_mul r2 (by linarith : 1.2 * (1.1 * (1.2 * Q) + 1.5 * ζ) ≤ 2 ^ 73) (by positivity) (by norm_num)
    linarith)
  refine ⟨zf, ?_⟩
  have e : centredGrad gamma.val S.val (fun i => (C i).val) (fun i => (G i).val) i = (G i).val * gamma.val / S.val + (C i).val * (-k / (S.val * 2)) * (2 / B) := by
    unfold centredGrad Spec.mean
    have ek : k = (∑ j, (C j).val / S.val * (G j).val) * (gamma.val / S.val) := by
      rw [hk, Finset.sum_mul]
      refine Finset.sum_congr rfl fun j _ => ?_
      ring
    rw [Fintype.card_fin, ek]
    have hN : (B : ℝ) ≠ 0 := by linarith
    field_simp
    ring
  rw [e]
  exact centred_calc hN1 r1 Q0 rfl xQ k1 k5 ze

theorem column_calc {z m o Z μ μ' Q b N : ℝ} (hN : 1 ≤ N) (hNu : N * u ≤ 0.0625) (hb : 1 ≤ b) (hQ : 0 ≤ Q) (hz : |z - Z| ≤ b * ((1.8 * N + 23) * u * Q + 3 * ζ))
    (hzb : |z| ≤ b * (2.6 * Q + 3 * ζ)) (hμ : |μ' - μ| ≤ b * ((1.8 * N + 23) * u * Q + 3 * ζ)) (hμb : |μ'| ≤ b * (2.6 * Q + 3 * ζ))
    (hm : |m - μ'| ≤ 1.3 * (N + 1) * u * (b * (2.6 * Q + 3 * ζ)) + 4 * η) (ho : |o - (z - m)| ≤ u * |z - m| + η) :
    |o - (Z - μ)| ≤ b * (7 * (N + 8) * u * Q + 7 * ζ) := by
  have hu := u_pos
  have hus := u_small
  have hζ : 0 < ζ := by unfold ζ; positivity
  have hηζ : η ≤ 1 / 10 ^ 3 * ζ := by unfold η ζ; norm_num
  have b0 : 0 ≤ b := by linarith
  have e4 : 0 ≤ b * (u * Q) := by positivity
  have e5 : ζ ≤ b * ζ := le_mul_of_one_le_left hζ.le hb
  have e6 : u * (b * ζ) ≤ 1 / 10 ^ 7 * (b * ζ) := mul_le_mul_of_nonneg_right hus (by positivity)
  have e7 : N * u * (b * ζ) ≤ 0.0625 * (b * ζ) := mul_le_mul_of_nonneg_right hNu (by positivity)
  have e8 : N * u * (b * Q) ≤ 0.0625 * (b * Q) := mul_le_mul_of_nonneg_right hNu (by positivity)
  have e9 : 0 ≤ b * (N * (u * Q)) := by positivity
  have e10 : u * (b * Q) ≤ 1 / 10 ^ 7 * (b * Q) := mul_le_mul_of_nonneg_right hus (by positivity)
  have e11 : 0 ≤ b * Q := by positivity
  have m1 : |m - μ'| ≤ b * ((3.4 * N + 3.4) * u * Q + 0.3 * ζ) := by linarith
  have m2 : |m| ≤ b * (2.9 * Q + 3.4 * ζ) := by
    have := abs_sub_abs_le_abs_sub m μ'
    linarith
  have z1 := abs_sub z m
  have z2 : u * |z - m| ≤ u * (b * (5.5 * Q + 6.4 * ζ)) := mul_le_mul_of_nonneg_left (by linarith) hu.le
  have t1 := abs_sub_le o (z - m) (Z - μ)
  rw [show z - m - (Z - μ) = (z - Z) - ((m - μ') + (μ' - μ)) by ring] at t1
  have t2 := abs_sub (z - Z) ((m - μ') + (μ' - μ))
  have t3 := abs_add_le (m - μ') (μ' - μ)
  linarith

/-- The difference that is added to `grad_input`. -/
theorem column_near (h : Given gamma S C G g) {i : Fin B} {z m : Flt} (hz : GradCentered R gamma S C G i z) (hm : GradMean R gamma S C G m) :
    (sub R z m).Finite ∧ |(sub R z m).val - columnGrad gamma.val S.val (fun i => (C i).val) (fun i => (G i).val) i| ≤
      √B * (7 * (B + 8) * u * gradScale gamma S g + 7 * ζ) := by
  have hu := u_pos
  have hus := u_small
  have hζ : 0 < ζ := by unfold ζ; positivity
  have hζ1 : ζ ≤ 1 := by unfold ζ; norm_num
  obtain ⟨s0, g0, hN1, hN2, hBu, r1, r2, Q0, Q1⟩ := h.facts
  obtain ⟨W, hW, hm⟩ := hm
  have zb : ∀ {i : Fin B} {z : Flt}, GradCentered R gamma S C G i z → |z.val| ≤ √B * (2.6 * gradScale gamma S g + 3 * ζ) := by
    intro i z hz
    have k1 := (centred_near h hz).2
    have k2 := centredGrad_le (γ := gamma.val) s0 h.square g0 (fun j => (h.gradient j).2) i
    change _ ≤ gradScale gamma S g * (1 + √B * 1.2 * 1.2) at k2
    have k3 := abs_sub_abs_le_abs_sub z.val (centredGrad gamma.val S.val (fun i => (C i).val) (fun i => (G i).val) i)
    have k4 : √B * ((1.8 * B + 23) * u * gradScale gamma S g) ≤ √B * (0.12 * gradScale gamma S g) :=
      mul_le_mul_of_nonneg_left (mul_le_mul_of_nonneg_right (by linarith) Q0) (by linarith)
    have k5 : gradScale gamma S g ≤ √B * gradScale gamma S g := le_mul_of_one_le_left Q0 r1
    linarith
  obtain ⟨zf, ze⟩ := centred_near h hz
  set Q := gradScale gamma S g
  have bQ := mul_le_mul r2 (by linarith : 2.6 * Q + 3 * ζ ≤ 2 ^ 73) (by positivity) (by norm_num)
  obtain ⟨mf, me⟩ := mean_error hm h.some h.rows (fun j => (centred_near h (hW j)).1) (bQ.trans (by norm_num)) fun j => zb (hW j)
  have b0 : 0 ≤ √B * (2.6 * Q + 3 * ζ) := by positivity
  have μb := mean_le b0 fun j => zb (hW j)
  have μe : |(Spec.mean fun j => (W j).val) - Spec.mean (centredGrad gamma.val S.val (fun i => (C i).val) (fun i => (G i).val))| ≤
      √B * ((1.8 * B + 23) * u * Q + 3 * ζ) := by
    rw [mean_sub]
    exact mean_le (by positivity) fun j => (centred_near h (hW j)).2
  have nm := neg_finite mf
  have mb : |m.val| ≤ 2 ^ 100 := by
    have a1 := abs_sub_abs_le_abs_sub m.val (Spec.mean fun j => (W j).val)
    have a2 : 1.3 * (B + 1) * u * (√B * (2.6 * Q + 3 * ζ)) ≤ 1 * (√B * (2.6 * Q + 3 * ζ)) := mul_le_mul_of_nonneg_right (by linarith) b0
    have a3 : 4 * η ≤ 1 := by unfold η; norm_num
    linarith
  have n := near_addWith (R := R) zf nm.1 (by
    rw [nm.2, ← sub_eq_add_neg]
    have a1 := abs_sub z.val m.val
    have a2 := zb hz
    refine (by linarith : |z.val - m.val| ≤ 2 ^ 101).trans ?_
    unfold big
    norm_num)
  rw [nm.2, ← sub_eq_add_neg] at n
  refine ⟨n.1, ?_⟩
  exact column_calc hN1 hBu r1 Q0 ze (zb hz) μe μb me n.2

end

end DW.Props.FloatBatchNormP
