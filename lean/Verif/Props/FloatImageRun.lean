import Verif.Props.FloatImageOptim
/-!
# C124: training an image classifier in `float` for any number of iterations

The optimizers start with zeros. What they keep stays bounded, so that every iteration of a run is as accurate as C124 says, whatever its length.
-/

set_option autoImplicit false

namespace DW.Props.FloatImageOptimP

open DW.Float DW.Props.FloatSoftmaxP DW.Props.FloatLossP DW.Props.FloatDotP DW.Props.FloatGradP DW.Props.FloatActP DW.Props.FloatAccuracyP
  DW.Props.FloatNetP DW.Props.FloatImageP DW.Props.FloatAdamP DW.Props.FloatAdamStepP DW.Props.FloatImageBackP DW.Props.FloatOptimStepP
open DW.Props.FloatBackP (lossBounds)
open DW.Props.FloatMomentumP (Vmax vmax_ok mulAddMul_error)

noncomputable section

variable {R : Rounding} {F : Libm R} {q : Sqrt} {ε ε' ρ : ℝ} {m : ℕ} {s t : Sh} {σ : Type}

theorem OptimNear.each {N : ℕ} {Q : ℝ → ℝ → Flt → σ → Flt → σ → Prop} {S : σ → Prop} (hQ : ∀ {d x w z w' z'}, Q d x w z w' z' → S z') {f f' : ImgNet s t}
    {p e : Bounds} {P : Params ℝ f} {Z : Params σ f} {Z' : Params σ f'} (h : OptimNear N ε ρ Q f p e P Z f' Z') : Each S f' Z' := by
  induction h with
  | linear hW hb => exact ⟨fun j r => hQ (hW j r), fun j => hQ (hb j)⟩
  | conv hW hb => exact ⟨fun j r => hQ (hW j r), fun j => hQ (hb j)⟩
  | seq _ _ ihf ihg => exact ⟨ihf, ihg⟩
  | join _ _ ihf ihg => exact ⟨ihf, ihg⟩
  | skip => trivial
  | act => trivial
  | maxPool => trivial
  | avgPool => trivial
  | flat => trivial

theorem OptimNear.mono {N : ℕ} {Q Q' : ℝ → ℝ → Flt → σ → Flt → σ → Prop} (hQ : ∀ {d x w z w' z'}, Q d x w z w' z' → Q' d x w z w' z') {f f' : ImgNet s t}
    {p e : Bounds} {P : Params ℝ f} {Z : Params σ f} {Z' : Params σ f'} (h : OptimNear N ε ρ Q f p e P Z f' Z') : OptimNear N ε ρ Q' f p e P Z f' Z' := by
  induction h with
  | linear hW hb => exact .linear (fun j r => hQ (hW j r)) fun j => hQ (hb j)
  | conv hW hb => exact .conv (fun j r => hQ (hW j r)) fun j => hQ (hb j)
  | seq _ _ ihf ihg => exact .seq ihf ihg
  | join _ _ ihf ihg => exact .join ihf ihg
  | skip => exact .skip
  | act => exact .act
  | maxPool => exact .maxPool
  | avgPool => exact .avgPool
  | flat => exact .flat

/-! ## Any optimizer -/

section run

variable {N : ℕ → ℕ} [∀ t, NeZero (N t)] {X : ∀ t, Fin (N t) → s.Ix → Flt} {label : ∀ t, Fin (N t) → Fin m} {f : ℕ → ImgNet s (.vec m)} {loss : ℕ → Flt}
  {A : ℝ} {T : ℕ}

theorem run_near {update : ℕ → Flt → Flt → σ → Flt → σ → Prop} {H : Bounds → Flt → Prop} {S : σ → Prop} {Q : ℕ → ℝ → ℝ → Flt → σ → Flt → σ → Prop}
    (hQ : ∀ {t}, t < T → ∀ {e : Bounds} {x : ℝ} {g w w' : Flt} {z z' : σ}, update t g w z w' z' → H e w → S z → w.Finite → Good g x e → Q t e.d x w z w' z' ∧ S z')
    {Z : ∀ t, Params σ (f t)} (hS : ∀ t < T, Learnable F q ε ε' ρ (X t) (f t) A)
    (hH : ∀ t < T, FitsEach (N t) ε ρ H (f t) ⟨A, 0⟩ (lossBounds (N t) m ε (after' ε ρ (f t).net ⟨A, 0⟩).d)) (h0 : Each S (f 0) (Z 0))
    (h : ∀ t < T, (f t).IterationWith R F (update t) (X t) (label t) (Z t) (loss t) (f (t + 1)) (Z (t + 1))) :
    (∀ t ≤ T, Each S (f t) (Z t)) ∧ ∀ t < T, LossNear ε ε' ρ (X t) (label t) (f t) A (loss t) ∧
      ∃ P₀, IsLossGradient (f t) (fun n i => (X t n i).val) (label t) P₀ ∧
        OptimNear (N t) ε ρ (Q t) (f t) ⟨A, 0⟩ (lossBounds (N t) m ε (after' ε ρ (f t).net ⟨A, 0⟩).d) P₀ (Z t) (f (t + 1)) (Z (t + 1)) := by
  have step : ∀ t < T, Each S (f t) (Z t) → Each S (f (t + 1)) (Z (t + 1)) ∧ LossNear ε ε' ρ (X t) (label t) (f t) A (loss t) ∧
      ∃ P₀, IsLossGradient (f t) (fun n i => (X t n i).val) (label t) P₀ ∧
        OptimNear (N t) ε ρ (Q t) (f t) ⟨A, 0⟩ (lossBounds (N t) m ε (after' ε ρ (f t).net ⟨A, 0⟩).d) P₀ (Z t) (f (t + 1)) (Z (t + 1)) := fun t ht hE => by
    obtain ⟨hl, P₀, h1, h2⟩ := iteration_near (Q := fun d x w z w' z' => Q t d x w z w' z' ∧ S z') (hQ ht) (hS t ht) (hH t ht) hE (h t ht)
    exact ⟨h2.each (S := S) fun h => h.2, hl, P₀, h1, h2.mono fun h => h.1⟩
  have all : ∀ t ≤ T, Each S (f t) (Z t) := fun t => by
    induction t with
    | zero => exact fun _ => h0
    | succ t ih => exact fun ht => (step t ht (ih (Nat.le_of_lt ht))).1
  exact ⟨all, fun t ht => (step t ht (all t ht.le)).2⟩

/-! ## Momentum -/

/-- **C124** (momentum). Training for any number of iterations, each with another batch, from velocities 0, where `B` bounds the learning rate times the
gradients: the velocities stay finite and bounded by about `B / (1 - gamma)`, and every iteration reports the exact loss and makes the step of momentum for the exact
gradient at its parameters, up to the given errors. -/
theorem momentum_training {gamma lr : Flt} (hγ : gamma.Finite) (hγ0 : 0 ≤ gamma.val) (hγ1 : gamma.val ≤ 1 - 1 / 2 ^ 10) (hl : lr.Finite) {B : ℝ}
    (hB0 : 0 ≤ B) (hB : B ≤ 2 ^ 110) {V : ∀ t, Params Flt (f t)} (hS : ∀ t < T, Learnable F q ε ε' ρ (X t) (f t) A)
    (hH : ∀ t < T, FitsEach (N t) ε ρ (fun e w => |lr.val| * (e.A + e.d) ≤ B ∧ |w.val| ≤ 2 ^ 125) (f t) ⟨A, 0⟩
      (lossBounds (N t) m ε (after' ε ρ (f t).net ⟨A, 0⟩).d)) (h0 : V 0 = always 0 (f 0))
    (h : ∀ t < T, (f t).MomentumIteration R F gamma lr (X t) (label t) (V t) (loss t) (f (t + 1)) (V (t + 1))) :
    (∀ t ≤ T, Each (fun v => v.Finite ∧ |v.val| ≤ Vmax gamma.val B) (f t) (V t)) ∧ ∀ t < T, LossNear ε ε' ρ (X t) (label t) (f t) A (loss t) ∧
      ∃ P₀, IsLossGradient (f t) (fun n i => (X t n i).val) (label t) P₀ ∧
        OptimNear (N t) ε ρ (MomentumNear gamma.val lr.val) (f t) ⟨A, 0⟩ (lossBounds (N t) m ε (after' ε ρ (f t).net ⟨A, 0⟩).d) P₀ (V t) (f (t + 1))
          (V (t + 1)) := by
  have hu := u_pos
  have hη := η_pos
  have hηs : η ≤ 1 := by unfold η; norm_num
  obtain ⟨hV, hV0, hVb⟩ := vmax_ok hγ0 hγ1 hB0
  refine run_near (update := fun _ g w v w' v' => MomentumStep R gamma lr g v w v' w') (Q := fun _ => MomentumNear gamma.val lr.val) ?_ hS hH ?_ h
  · intro t _ e x g w w' v v' hs hH hv hw hg
    have p1 : |gamma.val * v.val| ≤ gamma.val * Vmax gamma.val B := by
      rw [abs_mul, abs_of_nonneg hγ0]
      exact mul_le_mul_of_nonneg_left hv.2 hγ0
    have p2 : gamma.val * Vmax gamma.val B ≤ 1 * Vmax gamma.val B := mul_le_mul_of_nonneg_right (by linarith) hV0
    have g1 : |g.val| ≤ e.A + e.d := by linarith [abs_sub_abs_le_abs_sub g.val x, hg.2.1, hg.2.2]
    have g2 : |lr.val * g.val| ≤ B := by rw [abs_mul]; exact (mul_le_mul_of_nonneg_left g1 (abs_nonneg _)).trans hH.1
    have g3 : |lr.val| * (|x| + e.d) ≤ B := (mul_le_mul_of_nonneg_left (by linarith [hg.2.2]) (abs_nonneg _)).trans hH.1
    refine ⟨momentum_once hs hγ hl hg.1 hg.2.1 hv.1 hw (by linarith) (by linarith) hH.2, ?_⟩
    obtain ⟨hf', hr⟩ := mulAddMul_error hs.1 hγ hv.1 hl hg.1 p1 g2 (by linarith)
    refine ⟨hf', ?_⟩
    have h1 := abs_sub_le v'.val (gamma.val * v.val + lr.val * g.val) 0
    rw [sub_zero, sub_zero] at h1
    have h2 := abs_add_le (gamma.val * v.val) (lr.val * g.val)
    linarith
  · rw [h0]
    exact each_always ⟨finite_zero, by rw [val_zero, abs_zero]; exact hV0⟩ _

/-! ## Adam -/

/-- **C124** (Adam). The same with Adam, from means and variances 0, if no gradient exceeds `2 ^ 55`. -/
theorem adam_training {a : AdamSettings} {c₁ c₂ : ℕ → Flt} (ha : Usual a c₁ c₂) {G : ℝ} (hG0 : 0 ≤ G) (hG : G ≤ 2 ^ 55)
    {Z : ∀ t, Params (Flt × Flt) (f t)} (hS : ∀ t < T, Learnable F q ε ε' ρ (X t) (f t) A)
    (hH : ∀ t < T, FitsEach (N t) ε ρ (fun e w => e.A + e.d ≤ G ∧ |w.val| ≤ 2 ^ 126) (f t) ⟨A, 0⟩
      (lossBounds (N t) m ε (after' ε ρ (f t).net ⟨A, 0⟩).d)) (h0 : Z 0 = always (0, 0) (f 0))
    (h : ∀ t < T, (f t).AdamIteration R F q a (c₁ t) (c₂ t) (X t) (label t) (Z t) (loss t) (f (t + 1)) (Z (t + 1))) :
    (∀ t ≤ T, Each (fun z : Flt × Flt => (z.1.Finite ∧ |z.1.val| ≤ avg G) ∧ z.2.Finite ∧ Nonneg z.2 ∧ z.2.val ≤ vmax G) (f t) (Z t)) ∧
    ∀ t < T, LossNear ε ε' ρ (X t) (label t) (f t) A (loss t) ∧
      ∃ P₀, IsLossGradient (f t) (fun n i => (X t n i).val) (label t) P₀ ∧
        OptimNear (N t) ε ρ (AdamNear a ρ (c₁ t).val (c₂ t).val) (f t) ⟨A, 0⟩ (lossBounds (N t) m ε (after' ε ρ (f t).net ⟨A, 0⟩).d) P₀ (Z t)
          (f (t + 1)) (Z (t + 1)) := by
  have hη := η_pos
  have hηs : η ≤ 1 / 2 ^ 120 := by unfold η; norm_num
  have hG2 : G ^ 2 ≤ (2 ^ 55) ^ 2 := pow_le_pow_left₀ hG0 hG 2
  have hG20 := sq_nonneg G
  refine run_near (σ := Flt × Flt) (update := fun t g w z w' z' => AdamStep R q a (c₁ t) (c₂ t) g z.1 z.2 w z'.1 z'.2 w')
    (Q := fun t => AdamNear a ρ (c₁ t).val (c₂ t).val) ?_ hS hH ?_ h
  · intro t ht e x g w w' z z' hs hH hz hw hg
    have hA := (hS t ht).accurate
    obtain ⟨⟨mf, mb⟩, vf, vn, vb⟩ := hz
    have hat : Usual a (fun _ => c₁ t) fun _ => c₂ t := ⟨ha.lr, ha.beta1, ha.beta2, ha.epsilon, fun _ => ha.first t, fun _ => ha.second t⟩
    have g1 : |g.val| ≤ G := by linarith [abs_sub_abs_le_abs_sub g.val x, hg.2.1, hg.2.2, hH.1]
    have mb' : |z.1.val| ≤ 1.02 * 2 ^ 55 := mb.trans (by unfold avg; linarith)
    have vb' : z.2.val ≤ 1.04 * 2 ^ 110 := vb.trans (by unfold vmax avg; linarith)
    have main := adam_error_once (x := x) hat hA.sqrt hA.sqrt_nonneg hA.sqrt_le hs hg.1 hg.2.1 (by linarith [hg.2.2, hH.1]) mf mb' vf vn vb' hw hH.2
    have hsq : |g.val * g.val| ≤ G ^ 2 := by
      rw [abs_mul, sq]
      exact mul_le_mul g1 g1 (abs_nonneg _) hG0
    have n := near_mul (R := R) hg.1 hg.1 (hsq.trans (hG2.trans (by unfold big; norm_num)))
    have hb : |(mul R g g).val| ≤ 1.01 * G ^ 2 + η := by
      have h1 := n.2
      have h2 := abs_sub_le (mul R g g).val (g.val * g.val) 0
      rw [sub_zero, sub_zero] at h2
      have h3 := mul_le_mul_of_nonneg_right u_small (abs_nonneg (g.val * g.val))
      have h4 := abs_nonneg (g.val * g.val)
      linarith
    refine ⟨main, ⟨main.1.1, ?_⟩, main.2.1.1, main.2.1.2.1, ?_⟩
    · exact (average_bound hs.1 ha.beta1.1 ha.beta1.2.1 ha.beta1.2.2 mf mb hg.1 g1 (by linarith)).2
    · exact (le_abs_self _).trans (average_bound hs.2.1 ha.beta2.2.1 ha.beta2.1.val_nonneg ha.beta2.2.2 vf
        (by rw [abs_of_nonneg vn.val_nonneg]; exact vb) n.1 hb (by linarith)).2
  · rw [h0]
    refine each_always ⟨⟨finite_zero, ?_⟩, finite_zero, ⟨0, rfl⟩, ?_⟩ _
    · rw [val_zero, abs_zero]; unfold avg; linarith
    · rw [val_zero]; unfold vmax avg; linarith

end run

/-- A first iteration with momentum for the network of C122, with learning rate 1 and factor 1/2. -/
example (label : Fin 1 → Fin 2) : ∃ (f : ℕ → ImgNet (.img 1 2 2) (.vec 2)) (V : ∀ t, Params Flt (f t)) (loss : ℕ → Flt), f 0 = classify ∧
    Each (fun v => v.Finite ∧ |v.val| ≤ Vmax (Flt.num false 2⁻¹).val (10 ^ 6)) (f 1) (V 1) ∧
    LossNear u u u (fun _ : Fin 1 => picture) label (f 0) 2 (loss 0) := by
  obtain ⟨l, f', V', h⟩ := (iterations_exist classify_learnable.1 classify_runs.1 classify_runs.2 (by norm_num) label).1 (.num false 2⁻¹) 1
    (always 0 classify)
  have hh : (Flt.num false 2⁻¹).val = 1 / 2 := by simp [Flt.val]
  have k1 : ∀ e w, Tame e w → |(1 : Flt).val| * (e.A + e.d) ≤ 10 ^ 6 ∧ |w.val| ≤ 2 ^ 125 := fun e w h => by
    rw [val_one, abs_one, one_mul]
    exact ⟨h.2, h.param.2.trans (by norm_num)⟩
  let f : ℕ → ImgNet (.img 1 2 2) (.vec 2) := fun | 0 => classify | _ + 1 => f'
  let V : ∀ t, Params Flt (f t) := fun | 0 => always 0 classify | _ + 1 => V'
  have hS : ∀ t < 1, Learnable libm sqrtLib u u u (fun _ : Fin 1 => picture) (f t) 2 := fun t ht => by
    obtain rfl : t = 0 := by omega
    exact classify_learnable.1
  have := momentum_training (N := fun _ => 1) (X := fun _ _ => picture) (label := fun _ => label) (f := f) (V := V) (loss := fun _ => l) (T := 1)
    (gamma := .num false 2⁻¹) (lr := 1) (B := 10 ^ 6) (by simp [Flt.Finite]) (by rw [hh]; norm_num) (by rw [hh]; norm_num) finite_one (by norm_num)
    (by norm_num) hS (fun t ht => by
      obtain rfl : t = 0 := by omega
      exact classify_learnable.2.mono k1 classify) rfl (fun t ht => by
      obtain rfl : t = 0 := by omega
      exact h)
  exact ⟨f, V, fun _ => l, rfl, this.1 1 le_rfl, (this.2 0 Nat.one_pos).1⟩

/-- A first iteration with Adam. -/
example (label : Fin 1 → Fin 2) : ∃ (f : ℕ → ImgNet (.img 1 2 2) (.vec 2)) (Z : ∀ t, Params (Flt × Flt) (f t)) (loss : ℕ → Flt), f 0 = classify ∧
    Each (fun z : Flt × Flt => (z.1.Finite ∧ |z.1.val| ≤ avg (10 ^ 6)) ∧ z.2.Finite ∧ Nonneg z.2 ∧ z.2.val ≤ vmax (10 ^ 6)) (f 1) (Z 1) ∧
    LossNear u u u (fun _ : Fin 1 => picture) label (f 0) 2 (loss 0) := by
  obtain ⟨l, f', Z', h⟩ := (iterations_exist classify_learnable.1 classify_runs.1 classify_runs.2 (by norm_num) label).2 halves 1 1
    (always (0, 0) classify)
  have k1 : ∀ e w, Tame e w → e.A + e.d ≤ 10 ^ 6 ∧ |w.val| ≤ 2 ^ 126 := fun e w h => ⟨h.2, h.param.2.trans (by norm_num)⟩
  let f : ℕ → ImgNet (.img 1 2 2) (.vec 2) := fun | 0 => classify | _ + 1 => f'
  let Z : ∀ t, Params (Flt × Flt) (f t) := fun | 0 => always (0, 0) classify | _ + 1 => Z'
  have hS : ∀ t < 1, Learnable libm sqrtLib u u u (fun _ : Fin 1 => picture) (f t) 2 := fun t ht => by
    obtain rfl : t = 0 := by omega
    exact classify_learnable.1
  have := adam_training (N := fun _ => 1) (X := fun _ _ => picture) (label := fun _ => label) (f := f) (Z := Z) (loss := fun _ => l) (T := 1)
    (G := 10 ^ 6) halves_usual (by norm_num) (by norm_num) hS (fun t ht => by
      obtain rfl : t = 0 := by omega
      exact classify_learnable.2.mono k1 classify) rfl (fun t ht => by
      obtain rfl : t = 0 := by omega
      exact h)
  exact ⟨f, Z, fun _ => l, rfl, this.1 1 le_rfl, (this.2 0 Nat.one_pos).1⟩

end

end DW.Props.FloatImageOptimP
