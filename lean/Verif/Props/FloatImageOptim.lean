import Verif.Model.FloatImageOptim
import Verif.Props.FloatImageStepRun
import Verif.Props.FloatOptimStep
/-!
# C124: training an image classifier in `float` with momentum or Adam

One iteration: the loss, and the parameters and the state of the optimizer afterwards, compared with the formulas of the optimizers for the exact gradient of
the exact loss.
-/

set_option autoImplicit false

namespace DW.Props.FloatImageOptimP

open DW.Float DW.Props.FloatSoftmaxP DW.Props.FloatLossP DW.Props.FloatDotP DW.Props.FloatGradP DW.Props.FloatActP DW.Props.FloatAccuracyP
  DW.Props.FloatNetP DW.Props.FloatImageP DW.Props.FloatAdamP DW.Props.FloatAdamStepP DW.Props.FloatImageBackP DW.Props.FloatOptimStepP
open DW.Props.FloatBackP (lossBounds)
open DW.Spec (Axis)

noncomputable section

variable {R : Rounding} {F : Libm R} {q : Sqrt} {ε ε' ρ : ℝ} {N m : ℕ} {s t : Sh} {σ : Type}

/-- `H` holds of the state of every element. -/
def Each (H : σ → Prop) : {s t : Sh} → (f : ImgNet s t) → Params σ f → Prop
  | _, _, .linear _ _, Z => (∀ j r, H (Z.1 j r)) ∧ ∀ j, H (Z.2 j)
  | _, _, .conv _ _ _ _, Z => (∀ j r, H (Z.1 j r)) ∧ ∀ j, H (Z.2 j)
  | _, _, .seq f h, Z => Each H f Z.1 ∧ Each H h Z.2
  | _, _, .join f h, Z => Each H f Z.1 ∧ Each H h Z.2
  | _, _, _, _ => True

/-- The network `f'` has the layers of `f`, and `Q d x w z w' z'` holds for every element: `x` is its derivative in `P`, `d` the bound for the error of
the program's gradient, `w` and `z` are its value and its state before the step, `w'` and `z'` those after it. -/
inductive OptimNear (N : ℕ) (ε ρ : ℝ) (Q : ℝ → ℝ → Flt → σ → Flt → σ → Prop) : {s t : Sh} → (f : ImgNet s t) → (p e : Bounds) → Params ℝ f → Params σ f →
    (f' : ImgNet s t) → Params σ f' → Prop
  | skip {s : Sh} {p e : Bounds} : OptimNear N ε ρ Q (.skip (s := s)) p e () () .skip ()
  | act {s : Sh} {a : Act} {p e : Bounds} : OptimNear N ε ρ Q (.act (s := s) a) p e () () (.act a) ()
  | linear {n k : ℕ} {W W' : Fin k → Fin n → Flt} {b b' : Fin k → Flt} {p e : Bounds} {P : Params ℝ (.linear W b)} {Z : Params σ (.linear W b)}
      {Z' : Params σ (.linear W' b')} (hW : ∀ j r, Q (convWeight N p e).d (P.1 j r) (W j r) (Z.1 j r) (W' j r) (Z'.1 j r))
      (hb : ∀ j, Q (convBias N e).d (P.2 j) (b j) (Z.2 j) (b' j) (Z'.2 j)) : OptimNear N ε ρ Q (.linear W b) p e P Z (.linear W' b') Z'
  | conv {C O : ℕ} {a b : Axis} {W W' : Fin O → Fin (C * (a.kernel * b.kernel)) → Flt} {v v' : Fin O → Flt} {p e : Bounds} {P : Params ℝ (.conv a b W v)}
      {Z : Params σ (.conv a b W v)} {Z' : Params σ (.conv a b W' v')}
      (hW : ∀ o t, Q (convBias N (convWeight (a.out * b.out) p e)).d (P.1 o t) (W o t) (Z.1 o t) (W' o t) (Z'.1 o t))
      (hb : ∀ o, Q (convBias N (convBias (a.out * b.out) e)).d (P.2 o) (v o) (Z.2 o) (v' o) (Z'.2 o)) :
      OptimNear N ε ρ Q (.conv a b W v) p e P Z (.conv a b W' v') Z'
  | maxPool {C : ℕ} {a b : Axis} {p e : Bounds} : OptimNear N ε ρ Q (.maxPool (C := C) a b) p e () () (.maxPool a b) ()
  | avgPool {C H W : ℕ} {p e : Bounds} : OptimNear N ε ρ Q (.avgPool (C := C) (H := H) (W := W)) p e () () .avgPool ()
  | flat {C H W : ℕ} {p e : Bounds} : OptimNear N ε ρ Q (.flat (C := C) (H := H) (W := W)) p e () () .flat ()
  | seq {s t w : Sh} {f f' : ImgNet s t} {h h' : ImgNet t w} {p e : Bounds} {P : Params ℝ (.seq f h)} {Z : Params σ (.seq f h)} {Z' : Params σ (.seq f' h')}
      (hf : OptimNear N ε ρ Q f p (settle (heap ε ρ h (after' ε ρ f.net p) e)) P.1 Z.1 f' Z'.1)
      (hh : OptimNear N ε ρ Q h (after' ε ρ f.net p) e P.2 Z.2 h' Z'.2) : OptimNear N ε ρ Q (.seq f h) p e P Z (.seq f' h') Z'
  | join {s t : Sh} {f f' h h' : ImgNet s t} {p e : Bounds} {P : Params ℝ (.join f h)} {Z : Params σ (.join f h)} {Z' : Params σ (.join f' h')}
      (hf : OptimNear N ε ρ Q f p e P.1 Z.1 f' Z'.1) (hh : OptimNear N ε ρ Q h p e P.2 Z.2 h' Z'.2) : OptimNear N ε ρ Q (.join f h) p e P Z (.join f' h') Z'

theorem updated_near {update : Flt → Flt → σ → Flt → σ → Prop} {H : Bounds → Flt → Prop} {S : σ → Prop} {Q : ℝ → ℝ → Flt → σ → Flt → σ → Prop}
    (hQ : ∀ {e : Bounds} {x : ℝ} {g w w' : Flt} {z z' : σ}, update g w z w' z' → H e w → S z → w.Finite → Good g x e → Q e.d x w z w' z')
    {f f' : ImgNet s t} {g : Params Flt f} {Z : Params σ f} {Z' : Params σ f'} (h : f.Updated update g Z f' Z') {p e : Bounds} {P : Params ℝ f}
    (hf : Fits' ε ρ f.net p) (hH : FitsEach N ε ρ H f p e) (hS : Each S f Z) (hP : ImgParamsNear N ε ρ f p e g P) :
    OptimNear N ε ρ Q f p e P Z f' Z' := by
  induction h generalizing p e with
  | skip => exact .skip
  | act => exact .act
  | linear hW hb =>
    exact .linear (fun j r => hQ (hW j r) (hH.1 j r) (hS.1 j r) (hf.1 j r) (hP.1 j r)) fun j => hQ (hb j) (hH.2 j) (hS.2 j) (hf.2.1 j) (hP.2 j)
  | conv hW hb =>
    exact .conv (fun j r => hQ (hW j r) (hH.1 j r) (hS.1 j r) (hf.1 j r) (hP.1 j r)) fun j => hQ (hb j) (hH.2 j) (hS.2 j) (hf.2.1 j) (hP.2 j)
  | maxPool => exact .maxPool
  | avgPool => exact .avgPool
  | flat => exact .flat
  | seq _ _ ihf ihg => exact .seq (ihf hf.1 hH.1 hS.1 hP.1) (ihg hf.2 hH.2 hS.2 hP.2)
  | join _ _ ihf ihg => exact .join (ihf hf.1 hH.1 hS.1 hP.1) (ihg hf.2.1 hH.2 hS.2 hP.2)

/-- The loss that an iteration reports is within the given error of the exact one. -/
def LossNear (ε ε' ρ : ℝ) (X : Fin N → s.Ix → Flt) (label : Fin N → Fin m) (f : ImgNet s (.vec m)) (A : ℝ) (loss : Flt) : Prop :=
  loss.Finite ∧ |loss.val - netLoss f (values f) (fun n i => (X n i).val) label| ≤
    (80 * N + 1.3 * m + 250) * u + 2 * (after' ε ρ f.net ⟨A, 0⟩).d + 2.5 * ε + 76 * ε'

theorem iteration_near [NeZero N] {update : Flt → Flt → σ → Flt → σ → Prop} {H : Bounds → Flt → Prop} {S : σ → Prop}
    {Q : ℝ → ℝ → Flt → σ → Flt → σ → Prop}
    (hQ : ∀ {e : Bounds} {x : ℝ} {g w w' : Flt} {z z' : σ}, update g w z w' z' → H e w → S z → w.Finite → Good g x e → Q e.d x w z w' z')
    {X : Fin N → s.Ix → Flt} {f f' : ImgNet s (.vec m)} {A : ℝ} (hS : Learnable F q ε ε' ρ X f A) {label : Fin N → Fin m} {loss : Flt} {Z : Params σ f}
    {Z' : Params σ f'} (hH : FitsEach N ε ρ H f ⟨A, 0⟩ (lossBounds N m ε (after' ε ρ f.net ⟨A, 0⟩).d)) (hZ : Each S f Z)
    (h : f.IterationWith R F update X label Z loss f' Z') : LossNear ε ε' ρ X label f A loss ∧
    ∃ P₀, IsLossGradient f (fun n i => (X n i).val) label P₀ ∧
      OptimNear N ε ρ Q f ⟨A, 0⟩ (lossBounds N m ε (after' ε ρ f.net ⟨A, 0⟩).d) P₀ Z f' Z' := by
  obtain ⟨Y, P, G, D, g, hP, hl, hG, hg, hs⟩ := h
  obtain ⟨hloss, P₀, h1, h2⟩ := image_gradients hS hP hl hG hg
  exact ⟨hloss, P₀, h1, updated_near hQ hs hS.forward hH hZ h2⟩

/-! ## Momentum -/

/-- After a step of momentum, for the exact gradient `x` and an error `d` of the program's. -/
def MomentumNear (gamma lr d x : ℝ) (w v w' v' : Flt) : Prop :=
  (v'.Finite ∧ |v'.val - (gamma * v.val + lr * x)| ≤ velocityError gamma lr v.val x d) ∧
    w'.Finite ∧ |w'.val - (w.val - (gamma * v.val + lr * x))| ≤ momentumError gamma lr w.val v.val x d

/-- **C124** (momentum). One iteration of training of a classifier with convolutions, pooling, `Linear` layers, activations and branches, `Softmax` and
`CrossEntropyLoss` with `SGDMomentum`, in `float`, whatever the orders of the additions: the loss is the exact one up to the given error, and for the gradient
`P₀` of the exact loss all velocities `v` become `gamma v + lr P₀` and all parameters `w` become `w - (gamma v + lr P₀)`, up to the given errors. -/
theorem momentum_iteration [NeZero N] {gamma lr : Flt} (hγ : gamma.Finite) (hl : lr.Finite) {X : Fin N → s.Ix → Flt} {f f' : ImgNet s (.vec m)} {A : ℝ}
    (hS : Learnable F q ε ε' ρ X f A) {label : Fin N → Fin m} {loss : Flt} {V : Params Flt f} {V' : Params Flt f'}
    (hH : FitsEach N ε ρ (fun e w => |lr.val| * (e.A + e.d) ≤ 2 ^ 124 ∧ |w.val| ≤ 2 ^ 125) f ⟨A, 0⟩ (lossBounds N m ε (after' ε ρ f.net ⟨A, 0⟩).d))
    (hV : Each (fun v => v.Finite ∧ |gamma.val * v.val| ≤ 2 ^ 124) f V) (h : f.MomentumIteration R F gamma lr X label V loss f' V') :
    LossNear ε ε' ρ X label f A loss ∧ ∃ P₀, IsLossGradient f (fun n i => (X n i).val) label P₀ ∧
      OptimNear N ε ρ (MomentumNear gamma.val lr.val) f ⟨A, 0⟩ (lossBounds N m ε (after' ε ρ f.net ⟨A, 0⟩).d) P₀ V f' V' :=
  iteration_near (fun hu hH hS hw hg => momentum_once hu hγ hl hg.1 hg.2.1 hS.1 hw hS.2
    ((mul_le_mul_of_nonneg_left (add_le_add_left hg.2.2 _) (abs_nonneg _)).trans hH.1) hH.2) hS hH hV h

/-! ## Adam -/

/-- After a step of Adam with the corrections `c₁` and `c₂`, for the exact gradient `x` and an error `d` of the program's. -/
def AdamNear (a : AdamSettings) (ρ c₁ c₂ d x : ℝ) (w : Flt) (z : Flt × Flt) (w' : Flt) (z' : Flt × Flt) : Prop :=
  (z'.1.Finite ∧ |z'.1.val - newMean a z.1.val x| ≤ meanError a.beta1.val z.1.val x d) ∧
    (z'.2.Finite ∧ Nonneg z'.2 ∧ |z'.2.val - newVariance a z.2.val x| ≤ varianceError a.beta2.val z.2.val x d) ∧
    w'.Finite ∧ |w'.val - (w.val - exactStep a.lr.val a.epsilon.val c₁ c₂ (newMean a z.1.val x) (newVariance a z.2.val x))| ≤
      adamError a ρ c₁ c₂ w.val z.1.val z.2.val x d

/-- **C124** (Adam). The same with `Adam`: for the gradient `P₀` of the exact loss, the moving means and variances and the parameters become what the formulas of
Adam give, up to the given errors. -/
theorem adam_iteration [NeZero N] {a : AdamSettings} {c₁ c₂ : Flt} (ha : Usual a (fun _ => c₁) fun _ => c₂) {X : Fin N → s.Ix → Flt}
    {f f' : ImgNet s (.vec m)} {A : ℝ} (hS : Learnable F q ε ε' ρ X f A) {label : Fin N → Fin m} {loss : Flt} {Z : Params (Flt × Flt) f}
    {Z' : Params (Flt × Flt) f'}
    (hH : FitsEach N ε ρ (fun e w => e.A + e.d ≤ 2 ^ 55 ∧ |w.val| ≤ 2 ^ 126) f ⟨A, 0⟩ (lossBounds N m ε (after' ε ρ f.net ⟨A, 0⟩).d))
    (hZ : Each (fun z : Flt × Flt => (z.1.Finite ∧ |z.1.val| ≤ 1.02 * 2 ^ 55) ∧ z.2.Finite ∧ Nonneg z.2 ∧ z.2.val ≤ 1.04 * 2 ^ 110) f Z)
    (h : f.AdamIteration R F q a c₁ c₂ X label Z loss f' Z') :
    LossNear ε ε' ρ X label f A loss ∧ ∃ P₀, IsLossGradient f (fun n i => (X n i).val) label P₀ ∧
      OptimNear N ε ρ (AdamNear a ρ c₁.val c₂.val) f ⟨A, 0⟩ (lossBounds N m ε (after' ε ρ f.net ⟨A, 0⟩).d) P₀ Z f' Z' :=
  have hA := hS.accurate
  iteration_near (fun hu hH hS hw hg => adam_error_once ha hA.sqrt hA.sqrt_nonneg hA.sqrt_le hu hg.1 hg.2.1
    ((add_le_add_left hg.2.2 _).trans hH.1) hS.1.1 hS.1.2 hS.2.1 hS.2.2.1 hS.2.2.2 hw hH.2) hS hH hZ h

/-! ## Examples -/

/-- The same state for all elements. -/
def always (z : σ) : {s t : Sh} → (f : ImgNet s t) → Params σ f
  | _, _, .skip => ()
  | _, _, .act _ => ()
  | _, _, .linear _ _ => (fun _ _ => z, fun _ => z)
  | _, _, .conv _ _ _ _ => (fun _ _ => z, fun _ => z)
  | _, _, .maxPool _ _ => ()
  | _, _, .avgPool => ()
  | _, _, .flat => ()
  | _, _, .seq f g => (always z f, always z g)
  | _, _, .join f g => (always z f, always z g)

theorem each_always {H : σ → Prop} {z : σ} (hz : H z) (f : ImgNet s t) : Each H f (always z f) := by
  induction f with
  | linear W b => exact ⟨fun _ _ => hz, fun _ => hz⟩
  | conv a b W v => exact ⟨fun _ _ => hz, fun _ => hz⟩
  | seq f g ihf ihg => exact ⟨ihf, ihg⟩
  | join f g ihf ihg => exact ⟨ihf, ihg⟩
  | skip => trivial
  | act => trivial
  | maxPool => trivial
  | avgPool => trivial
  | flat => trivial

theorem updated_exists {update : Flt → Flt → σ → Flt → σ → Prop} (hu : ∀ g w z, ∃ w' z', update g w z w' z') (f : ImgNet s t) (g : Params Flt f)
    (Z : Params σ f) : ∃ f' Z', f.Updated update g Z f' Z' := by
  induction f with
  | skip => exact ⟨_, _, .skip⟩
  | act a => exact ⟨_, _, .act⟩
  | linear W b =>
    choose W' Y h1 using fun j r => hu (g.1 j r) (W j r) (Z.1 j r)
    choose b' y h2 using fun j => hu (g.2 j) (b j) (Z.2 j)
    exact ⟨.linear W' b', (Y, y), .linear h1 h2⟩
  | conv a b W v =>
    choose W' Y h1 using fun j r => hu (g.1 j r) (W j r) (Z.1 j r)
    choose b' y h2 using fun j => hu (g.2 j) (v j) (Z.2 j)
    exact ⟨.conv a b W' b', (Y, y), .conv h1 h2⟩
  | maxPool a b => exact ⟨_, _, .maxPool⟩
  | avgPool => exact ⟨_, _, .avgPool⟩
  | flat => exact ⟨_, _, .flat⟩
  | seq f h ihf ihg =>
    obtain ⟨f', Y, h1⟩ := ihf g.1 Z.1
    obtain ⟨h', y, h2⟩ := ihg g.2 Z.2
    exact ⟨.seq f' h', (Y, y), .seq h1 h2⟩
  | join f h ihf ihg =>
    obtain ⟨f', Y, h1⟩ := ihf g.1 Z.1
    obtain ⟨h', y, h2⟩ := ihg g.2 Z.2
    exact ⟨.join f' h', (Y, y), .join h1 h2⟩

/-- An iteration can always be executed, with either optimizer and from any state. -/
theorem iterations_exist [NeZero N] {X : Fin N → s.Ix → Flt} {f : ImgNet s (.vec m)} {A : ℝ} (hS : Learnable F q ε ε' ρ X f A)
    (hr : NotEmpty f.net) (hr' : BackNotEmpty f) (hm : 0 < m) (label : Fin N → Fin m) :
    (∀ gamma lr (V : Params Flt f), ∃ loss f' V', f.MomentumIteration R F gamma lr X label V loss f' V') ∧
    ∀ a c₁ c₂ (Z : Params (Flt × Flt) f), ∃ loss f' Z', f.AdamIteration R F q a c₁ c₂ X label Z loss f' Z' := by
  obtain ⟨loss, Y, P, G, D, g, h1, h2, h3, h4⟩ := passes_exist hS hr hr' hm label
  refine ⟨fun gamma lr V => ?_, fun a c₁ c₂ Z => ?_⟩
  · obtain ⟨f', V', h⟩ := updated_exists (update := fun g w v w' v' => MomentumStep R gamma lr g v w v' w') (fun g w z => ⟨_, _, .inl rfl, rfl⟩) f g V
    exact ⟨loss, f', V', Y, P, G, D, g, h1, h2, h3, h4, h⟩
  · obtain ⟨f', Z', h⟩ := updated_exists (update := fun g w z w' z' => AdamStep R q a c₁ c₂ g z.1 z.2 w z'.1 z'.2 w')
      (fun g w z => ⟨_, (_, _), .inl rfl, .inl rfl, rfl⟩) f g Z
    exact ⟨loss, f', Z', Y, P, G, D, g, h1, h2, h3, h4, h⟩

theorem classify_runs : NotEmpty classify.net ∧ BackNotEmpty classify :=
  ⟨⟨Nat.one_pos, trivial, trivial, by show 0 < 4; norm_num⟩, ⟨Nat.one_pos, by show 0 < 2 * 2; norm_num⟩, trivial, trivial, by show 0 < 2; norm_num⟩

/-- An iteration with momentum for the network of C122, from velocities 1, with learning rate 1 and factor 1/2. -/
example (label : Fin 1 → Fin 2) : ∃ loss f' V',
    classify.MomentumIteration binary32 libm (.num false 2⁻¹) 1 (fun _ : Fin 1 => picture) label (always 1 classify) loss f' V' ∧
    LossNear u u u (fun _ : Fin 1 => picture) label classify 2 loss ∧
    ∃ P₀, IsLossGradient classify (fun _ : Fin 1 => fun i => (picture i).val) label P₀ ∧
      OptimNear 1 u u (MomentumNear (Flt.num false 2⁻¹).val (1 : Flt).val) classify ⟨2, 0⟩ (lossBounds 1 2 u (after' u u classify.net ⟨2, 0⟩).d) P₀
        (always 1 classify) f' V' := by
  obtain ⟨loss, f', V', h⟩ := (iterations_exist classify_learnable.1 classify_runs.1 classify_runs.2 (by norm_num) label).1 (.num false 2⁻¹) 1
    (always 1 classify)
  have hh : (Flt.num false 2⁻¹).val = 1 / 2 := by simp [Flt.val]
  have k1 : ∀ e w, Tame e w → |(1 : Flt).val| * (e.A + e.d) ≤ 2 ^ 124 ∧ |w.val| ≤ 2 ^ 125 := fun e w h => by
    rw [val_one, abs_one, one_mul]
    exact ⟨h.2.trans (by norm_num), h.param.2.trans (by norm_num)⟩
  have k2 : |(Flt.num false 2⁻¹).val * (1 : Flt).val| ≤ 2 ^ 124 := by
    rw [hh, val_one]
    norm_num
  obtain ⟨h1, h2⟩ := momentum_iteration (by simp [Flt.Finite]) finite_one classify_learnable.1 (classify_learnable.2.mono k1 classify)
    (each_always ⟨finite_one, k2⟩ classify) h
  exact ⟨loss, f', V', h, h1, h2⟩

/-- An iteration with Adam, from zero means and variances. -/
example (label : Fin 1 → Fin 2) : ∃ loss f' Z',
    classify.AdamIteration binary32 libm sqrtLib halves 1 1 (fun _ : Fin 1 => picture) label (always (0, 0) classify) loss f' Z' ∧
    LossNear u u u (fun _ : Fin 1 => picture) label classify 2 loss ∧
    ∃ P₀, IsLossGradient classify (fun _ : Fin 1 => fun i => (picture i).val) label P₀ ∧
      OptimNear 1 u u (AdamNear halves u (1 : Flt).val (1 : Flt).val) classify ⟨2, 0⟩ (lossBounds 1 2 u (after' u u classify.net ⟨2, 0⟩).d) P₀
        (always (0, 0) classify) f' Z' := by
  obtain ⟨loss, f', Z', h⟩ := (iterations_exist classify_learnable.1 classify_runs.1 classify_runs.2 (by norm_num) label).2 halves 1 1
    (always (0, 0) classify)
  have k1 : ∀ e w, Tame e w → e.A + e.d ≤ 2 ^ 55 ∧ |w.val| ≤ 2 ^ 126 := fun e w h => ⟨h.2.trans (by norm_num), h.param.2.trans (by norm_num)⟩
  have k2 : |(0 : Flt).val| ≤ 1.02 * 2 ^ 55 := by
    rw [val_zero, abs_zero]
    norm_num
  have k3 : (0 : Flt).val ≤ 1.04 * 2 ^ 110 := by
    rw [val_zero]
    norm_num
  obtain ⟨h1, h2⟩ := adam_iteration halves_usual classify_learnable.1 (classify_learnable.2.mono k1 classify)
    (each_always ⟨⟨finite_zero, k2⟩, finite_zero, ⟨0, rfl⟩, k3⟩ classify) h
  exact ⟨loss, f', Z', h, h1, h2⟩

end

end DW.Props.FloatImageOptimP
