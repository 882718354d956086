import Verif.Model.FloatImageStep
import Verif.Props.FloatImageBack
import Verif.Props.FloatDeepStep
/-!
# C122: a training step of an image classifier in `float`

Forward pass, `Softmax`, `CrossEntropyLoss`, backward pass and `SGD::step` for a network with convolutions, pooling and branches, compared with a step of
exact gradient descent on the exact loss.
-/

set_option autoImplicit false

namespace DW.Props.FloatImageBackP

open DW.Float DW.Props.FloatSoftmaxP DW.Props.FloatLossP DW.Props.FloatDotP DW.Props.FloatGradP DW.Props.FloatActP DW.Props.FloatAccuracyP
  DW.Props.FloatNetP DW.Props.FloatImageP DW.Props.FloatAdamP DW.Props.FloatAdamStepP
open DW.Props.FloatTrainP hiding tiny slope
open DW.Props.FloatBackP (slope backLinear backAct weightError biasError FitsLinear FitsAct stepError step_near lossBounds logitGrad logitGrad_le log_softmax_curve)
open DW.Spec (Axis)
open scoped ENNReal

noncomputable section

variable {R : Rounding} {F : Libm R} {q : Sqrt} {ε ε' ρ : ℝ} {N m : ℕ} {s t : Sh}

/-! ## The exact loss -/

/-- The mean cross entropy of the classifier with the parameters `P`, in exact arithmetic. -/
def netLoss (f : ImgNet s (.vec m)) (P : Params ℝ f) (T : Fin N → s.Ix → ℝ) (label : Fin N → Fin m) : ℝ :=
  -(∑ n, Real.log (softmax (run f P (T n)) (label n))) / N

/-- `P` is the gradient of the loss with respect to the parameters: it gives the derivative in every direction `V`. -/
def IsLossGradient (f : ImgNet s (.vec m)) (T : Fin N → s.Ix → ℝ) (label : Fin N → Fin m) (P : Params ℝ f) : Prop :=
  ∀ V : Params ℝ f, HasDerivAt (fun τ => netLoss f (shift f (values f) τ V) T label) (paired f P V) 0

/-- Backpropagation from `Softmax` and the loss gives the gradient of the loss. -/
theorem loss_gradient (f : ImgNet s (.vec m)) {T : Fin N → s.Ix → ℝ} (hs : Smooth f (fun _ _ => False) T) (label : Fin N → Fin m)
    {D : Fin N → s.Ix → ℝ} {P : Params ℝ f} (h : Back f T (logitGrad (fun n => net f.net (T n)) label) D P) : IsLossGradient f T label P := fun V => by
  obtain ⟨z, hz, -, hpair⟩ := curve f V (X := fun _ => T) (U := fun _ _ => 0) hs rfl (fun n i => hasDerivAt_const _ _) fun _ _ h => h.elim
  have hp := hpair _ D P h
  simp only [mul_zero, Finset.sum_const_zero, zero_add] at hp
  rw [← hp]
  have h0 : ∀ n, run f (shift f (values f) 0 V) (T n) = net f.net (T n) := fun n => by rw [shift_zero, run_values]
  have h1 := fun n => log_softmax_curve (y := fun τ => run f (shift f (values f) τ V) (T n)) (label n) fun j => hz n j
  have h2 := (HasDerivAt.fun_sum (u := Finset.univ) fun n (_ : n ∈ Finset.univ) => h1 n).neg.div_const (N : ℝ)
  have e : ∑ n, ∑ j, logitGrad (fun n => net f.net (T n)) label n j * z n j =
      -(∑ n, (z n (label n) - ∑ j, softmax (run f (shift f (values f) 0 V) (T n)) j * z n j)) / N := by
    rw [neg_div, Finset.sum_div, ← Finset.sum_neg_distrib]
    refine Finset.sum_congr rfl fun n _ => ?_
    rw [h0]
    unfold logitGrad
    have e1 : ∀ j, (softmax (net f.net (T n)) j - if j = label n then 1 else 0) / N * z n j =
        softmax (net f.net (T n)) j * z n j / N - if j = label n then z n j / N else 0 := fun j => by split_ifs <;> ring
    simp only [e1, Finset.sum_sub_distrib, Finset.sum_ite_eq', Finset.mem_univ, if_true, ← Finset.sum_div]
    ring
  exact e ▸ h2

/-! ## The step in `float` -/

/-- The network `f'` has the layers of `f` and parameters within the bounds of those of exact gradient descent with the gradients `P`. -/
inductive ImgStepNear (N : ℕ) (ε ρ lr : ℝ) : {s t : Sh} → (f : ImgNet s t) → (p e : Bounds) → Params ℝ f → ImgNet s t → Prop
  | skip {s : Sh} {p e : Bounds} : ImgStepNear N ε ρ lr (.skip (s := s)) p e () .skip
  | act {s : Sh} {a : Act} {p e : Bounds} : ImgStepNear N ε ρ lr (.act (s := s) a) p e () (.act a)
  | linear {n k : ℕ} {W W' : Fin k → Fin n → Flt} {b b' : Fin k → Flt} {p e : Bounds} {P : Params ℝ (.linear W b)}
      (hW : ∀ j r, (W' j r).Finite ∧ |(W' j r).val - ((W j r).val - lr * P.1 j r)| ≤ stepError lr (W j r).val (P.1 j r) (convWeight N p e).d)
      (hb : ∀ j, (b' j).Finite ∧ |(b' j).val - ((b j).val - lr * P.2 j)| ≤ stepError lr (b j).val (P.2 j) (convBias N e).d) :
      ImgStepNear N ε ρ lr (.linear W b) p e P (.linear W' b')
  | conv {C O : ℕ} {a b : Axis} {W W' : Fin O → Fin (C * (a.kernel * b.kernel)) → Flt} {v v' : Fin O → Flt} {p e : Bounds} {P : Params ℝ (.conv a b W v)}
      (hW : ∀ o t, (W' o t).Finite ∧ |(W' o t).val - ((W o t).val - lr * P.1 o t)| ≤
        stepError lr (W o t).val (P.1 o t) (convBias N (convWeight (a.out * b.out) p e)).d)
      (hb : ∀ o, (v' o).Finite ∧ |(v' o).val - ((v o).val - lr * P.2 o)| ≤ stepError lr (v o).val (P.2 o) (convBias N (convBias (a.out * b.out) e)).d) :
      ImgStepNear N ε ρ lr (.conv a b W v) p e P (.conv a b W' v')
  | maxPool {C : ℕ} {a b : Axis} {p e : Bounds} : ImgStepNear N ε ρ lr (.maxPool (C := C) a b) p e () (.maxPool a b)
  | avgPool {C H W : ℕ} {p e : Bounds} : ImgStepNear N ε ρ lr (.avgPool (C := C) (H := H) (W := W)) p e () .avgPool
  | flat {C H W : ℕ} {p e : Bounds} : ImgStepNear N ε ρ lr (.flat (C := C) (H := H) (W := W)) p e () .flat
  | seq {s t w : Sh} {f f' : ImgNet s t} {h h' : ImgNet t w} {p e : Bounds} {P : Params ℝ (.seq f h)}
      (hf : ImgStepNear N ε ρ lr f p (settle (heap ε ρ h (after' ε ρ f.net p) e)) P.1 f') (hh : ImgStepNear N ε ρ lr h (after' ε ρ f.net p) e P.2 h') :
      ImgStepNear N ε ρ lr (.seq f h) p e P (.seq f' h')
  | join {s t : Sh} {f f' h h' : ImgNet s t} {p e : Bounds} {P : Params ℝ (.join f h)} (hf : ImgStepNear N ε ρ lr f p e P.1 f')
      (hh : ImgStepNear N ε ρ lr h p e P.2 h') : ImgStepNear N ε ρ lr (.join f h) p e P (.join f' h')

/-- Parameters up to `2 ^ 125`, and the learning rate times a number within the bounds is not greater. -/
def Small (lr : ℝ) (e : Bounds) (w : Flt) : Prop := |w.val| ≤ 2 ^ 125 ∧ |lr| * (e.A + e.d) ≤ 2 ^ 125

/-- `H` holds of every parameter and the bounds of its gradient. -/
def FitsEach (N : ℕ) (ε ρ : ℝ) (H : Bounds → Flt → Prop) : {s t : Sh} → ImgNet s t → (p e : Bounds) → Prop
  | _, _, .linear W b, p, e => (∀ j r, H (convWeight N p e) (W j r)) ∧ ∀ j, H (convBias N e) (b j)
  | _, _, .conv a b W v, p, e => (∀ o t, H (convBias N (convWeight (a.out * b.out) p e)) (W o t)) ∧ ∀ o, H (convBias N (convBias (a.out * b.out) e)) (v o)
  | _, _, .seq f h, p, e => FitsEach N ε ρ H f p (settle (heap ε ρ h (after' ε ρ f.net p) e)) ∧ FitsEach N ε ρ H h (after' ε ρ f.net p) e
  | _, _, .join f h, p, e => FitsEach N ε ρ H f p e ∧ FitsEach N ε ρ H h p e
  | _, _, _, _, _ => True

/-- Nothing overflows in the step. -/
abbrev FitsImgStep (N : ℕ) (ε ρ lr : ℝ) {s t : Sh} (f : ImgNet s t) (p e : Bounds) : Prop := FitsEach N ε ρ (Small lr) f p e

theorem good_step {lr w g w' : Flt} {σ : ℝ} {e : Bounds} (h : SgdStep R lr w g w') (hl : lr.Finite) (hw : w.Finite) (hs : Small lr.val e w) (hg : Good g σ e) :
    w'.Finite ∧ |w'.val - (w.val - lr.val * σ)| ≤ stepError lr.val w.val σ e.d :=
  step_near h hl hw hs.1 hg hs.2

theorem sgd_near {lr : Flt} (hl : lr.Finite) {f f' : ImgNet s t} {g : Params Flt f} (h : f.Sgd R lr g f') {p e : Bounds} {P : Params ℝ f}
    (hf : Fits' ε ρ f.net p) (hs : FitsImgStep N ε ρ lr.val f p e) (hP : ImgParamsNear N ε ρ f p e g P) : ImgStepNear N ε ρ lr.val f p e P f' := by
  induction h generalizing p e with
  | skip => exact .skip
  | act => exact .act
  | linear hW hb =>
    exact .linear (fun j r => good_step (hW j r) hl (hf.1 j r) (hs.1 j r) (hP.1 j r)) fun j => good_step (hb j) hl (hf.2.1 j) (hs.2 j) (hP.2 j)
  | conv hW hb =>
    exact .conv (fun j r => good_step (hW j r) hl (hf.1 j r) (hs.1 j r) (hP.1 j r)) fun j => good_step (hb j) hl (hf.2.1 j) (hs.2 j) (hP.2 j)
  | maxPool => exact .maxPool
  | avgPool => exact .avgPool
  | flat => exact .flat
  | seq _ _ ihf ihg => exact .seq (ihf hf.1 hs.1 hP.1) (ihg hf.2 hs.2 hP.2)
  | join _ _ ihf ihg => exact .join (ihf hf.1 hs.1 hP.1) (ihg hf.2.1 hs.2 hP.2)

/-- The situations considered: a batch and classes of any size up to `2 ^ 18`, nothing overflows in the passes, the exact outputs and their errors are at most
31 and 1/4, the network has no kink at the exact inputs, and the errors of the program's numbers do not change the side of one. -/
structure Learnable (F : Libm R) (q : Sqrt) (ε ε' ρ : ℝ) (X : Fin N → s.Ix → Flt) (f : ImgNet s (.vec m)) (A : ℝ) : Prop where
  accurate : Accurate F q ε ρ
  fill : IsFloat R fltMin
  log : LogAccurate F ε'
  log_nonneg : 0 ≤ ε'
  log_le : ε' ≤ 1 / 2 ^ 10
  batch_le : N ≤ 2 ^ 18
  classes : m ≤ 2 ^ 18
  inputs : ∀ n, Close R (X n) (fun i => (X n i).val) ⟨A, 0⟩
  forward : Fits' ε ρ f.net ⟨A, 0⟩
  outputs : (after' ε ρ f.net ⟨A, 0⟩).A + (after' ε ρ f.net ⟨A, 0⟩).d ≤ 31
  errors : (after' ε ρ f.net ⟨A, 0⟩).d ≤ 1 / 4
  backward : FitsImgBack N ε ρ f ⟨A, 0⟩ (lossBounds N m ε (after' ε ρ f.net ⟨A, 0⟩).d)
  smooth : Smooth f (fun _ _ => False) fun n i => (X n i).val
  clear : ImgClear ε ρ f ⟨A, 0⟩ fun n i => (X n i).val

/-- The same with a learning rate for which nothing overflows in `SGD::step`. -/
structure Trainable (F : Libm R) (q : Sqrt) (ε ε' ρ : ℝ) (lr : Flt) (X : Fin N → s.Ix → Flt) (f : ImgNet s (.vec m)) (A : ℝ) : Prop
    extends Learnable F q ε ε' ρ X f A where
  rate : lr.Finite
  step : FitsImgStep N ε ρ lr.val f ⟨A, 0⟩ (lossBounds N m ε (after' ε ρ f.net ⟨A, 0⟩).d)

/-- **C122** (before the step): the loss and the gradients of the parameters. -/
theorem image_gradients [NeZero N] {X : Fin N → s.Ix → Flt} {f : ImgNet s (.vec m)} {A : ℝ} (hS : Learnable F q ε ε' ρ X f A)
    {label : Fin N → Fin m} {loss : Flt} {Y P G : Fin N → Fin m → Flt} {D : Fin N → s.Ix → Flt} {g : Params Flt f} (hP : SoftmaxForward R F Y P)
    (hl : LossForward R F P label loss) (hG : SoftmaxInputGrad R P (lossBackward R P label) (fun _ _ => 0) G) (hg : f.Gradients R F X Y G D g) :
    (loss.Finite ∧ |loss.val - netLoss f (values f) (fun n i => (X n i).val) label| ≤
      (80 * N + 1.3 * m + 250) * u + 2 * (after' ε ρ f.net ⟨A, 0⟩).d + 2.5 * ε + 76 * ε') ∧
    ∃ P₀, IsLossGradient f (fun n i => (X n i).val) label P₀ ∧
      ImgParamsNear N ε ρ f ⟨A, 0⟩ (lossBounds N m ε (after' ε ρ f.net ⟨A, 0⟩).d) g P₀ := by
  obtain ⟨K, hb, -⟩ := hg
  have hu := u_pos
  have hL := hS.accurate
  have hε := hL.exp_nonneg
  have hN : 0 < N := Nat.pos_of_ne_zero (NeZero.ne N)
  have hNr : (0 : ℝ) < N := by exact_mod_cast hN
  have hY := fun n => image_near hL hS.fill f.net (hS.inputs n) hS.forward (backward_forward f hb n)
  have hYf : ∀ n j, (Y n j).Finite := fun n => (hY n).finite
  have hYe : ∀ n j, |(Y n j).val - net f.net (fun i => (X n i).val) j| ≤ (after' ε ρ f.net ⟨A, 0⟩).d := fun n => (hY n).error
  have hYb : ∀ n j, |(Y n j).val| ≤ 31 := fun n j => ((hY n).val_le j).trans hS.outputs
  have hgr := gradient_at (label := label) hN hS.batch_le hYf hYb hYe hS.errors hS.classes hL.exp.neg hε hL.exp_le hP hG
  have hd := (hY 0).nonneg.2
  have hGc : ∀ n, Close R (G n) (logitGrad (fun n => net f.net fun i => (X n i).val) label n) (lossBounds N m ε (after' ε ρ f.net ⟨A, 0⟩).d) := fun n => by
    refine ⟨⟨by simp only [lossBounds]; positivity, by simp only [lossBounds]; positivity⟩, fun j => (hgr n j).1, fun j => ?_,
      fun j => logitGrad_le hN _ _ n j, fun j => (hgr n j).2⟩
    obtain ⟨s, -, h2⟩ := hG n
    exact isFloat_mulAdd (h2 j)
  have hloss := loss_at (label := label) hN hS.batch_le hYf hYb hYe hS.classes hL.exp.neg hε hL.exp_le hS.log hS.log_nonneg hS.log_le hP hl
  have eloss : netLoss f (values f) (fun n i => (X n i).val) label =
      -(∑ n, Real.log (softmax (net f.net fun i => (X n i).val) (label n))) / N := by
    unfold netLoss
    simp only [run_values]
  obtain ⟨D₀, P₀, r1, -, r3⟩ := backward_near hL hS.fill f hS.inputs hGc hS.forward hS.backward hS.clear hb
  exact ⟨⟨hloss.1, eloss ▸ hloss.2⟩, P₀, loss_gradient f hS.smooth label r1, r3⟩

/-- **C122**. One training step of a classifier with convolutions, pooling, `Linear` layers, activations and branches, `Softmax`, `CrossEntropyLoss` and
`SGD`, in `float`, whatever the orders of the additions: the reported loss is the exact one up to the given error, and all parameters are finite and within
the bounds of those of a step of exact gradient descent on the exact loss. -/
theorem image_step [NeZero N] {lr : Flt} {X : Fin N → s.Ix → Flt} {f f' : ImgNet s (.vec m)} {A : ℝ} (hS : Trainable F q ε ε' ρ lr X f A)
    {label : Fin N → Fin m} {loss : Flt} (h : f.Iteration R F lr X label loss f') :
    (loss.Finite ∧ |loss.val - netLoss f (values f) (fun n i => (X n i).val) label| ≤
      (80 * N + 1.3 * m + 250) * u + 2 * (after' ε ρ f.net ⟨A, 0⟩).d + 2.5 * ε + 76 * ε') ∧
    ∃ P₀, IsLossGradient f (fun n i => (X n i).val) label P₀ ∧
      ImgStepNear N ε ρ lr.val f ⟨A, 0⟩ (lossBounds N m ε (after' ε ρ f.net ⟨A, 0⟩).d) P₀ f' := by
  obtain ⟨Y, P, G, D, g, hP, hl, hG, hg, hs⟩ := h
  obtain ⟨hloss, P₀, h1, h2⟩ := image_gradients hS.toLearnable hP hl hG hg
  exact ⟨hloss, P₀, h1, sgd_near hS.rate hs hS.forward hS.step h2⟩

theorem sgd_exists (lr : Flt) (f : ImgNet s t) (g : Params Flt f) : ∃ f', f.Sgd R lr g f' := by
  induction f with
  | skip => exact ⟨_, .skip⟩
  | act a => exact ⟨_, .act⟩
  | linear W b => exact ⟨_, .linear (fun _ _ => Or.inl rfl) fun _ => Or.inl rfl⟩
  | conv a b W v => exact ⟨_, .conv (fun _ _ => Or.inl rfl) fun _ => Or.inl rfl⟩
  | maxPool a b => exact ⟨_, .maxPool⟩
  | avgPool => exact ⟨_, .avgPool⟩
  | flat => exact ⟨_, .flat⟩
  | seq f h ihf ihg =>
    obtain ⟨f', h1⟩ := ihf g.1
    obtain ⟨h', h2⟩ := ihg g.2
    exact ⟨_, .seq h1 h2⟩
  | join f h ihf ihg =>
    obtain ⟨f', h1⟩ := ihf g.1
    obtain ⟨h', h2⟩ := ihg g.2
    exact ⟨_, .join h1 h2⟩

/-- The passes can always be executed. -/
theorem passes_exist [NeZero N] {X : Fin N → s.Ix → Flt} {f : ImgNet s (.vec m)} {A : ℝ} (hS : Learnable F q ε ε' ρ X f A)
    (hr : NotEmpty f.net) (hr' : BackNotEmpty f) (hm : 0 < m) (label : Fin N → Fin m) : ∃ loss Y P G D g, SoftmaxForward R F Y P ∧
      LossForward R F P label loss ∧ SoftmaxInputGrad R P (lossBackward R P label) (fun _ _ => 0) G ∧ f.Gradients R F X Y G D g := by
  obtain ⟨Y, h⟩ := backward_exists hS.accurate hS.fill f hr hr' hS.inputs hS.forward
  obtain ⟨K₀, g₀, h₀⟩ := h fun _ _ => 0
  have hw := fun n => image_near hS.accurate hS.fill f.net (hS.inputs n) hS.forward (backward_forward f h₀ n)
  obtain ⟨P, hP⟩ := softmax_exists (R := R) (F := F) (X := Y) (fun n => (hw n).finite) hm
  obtain ⟨s, hs⟩ := sumFn_exists (R := R) (Nat.pos_of_ne_zero (NeZero.ne N)) fun i => F.log (P i (label i))
  choose d hd using fun i : Fin N => dotFn_exists (R := R) hm fun j => (lossBackward R P label i j, P i j)
  obtain ⟨K, g, hg⟩ := h fun i j => add R 0 (mul R (P i j) (sub R (lossBackward R P label i j) (d i)))
  choose D hD using fun n i => piled_exists (R := R) (K n i)
  exact ⟨_, Y, P, _, D, g, hP, ⟨s, hs, rfl⟩, fun i => ⟨d i, hd i, fun j => .inl rfl⟩, ⟨K, hg, hD⟩⟩

/-- An iteration can always be executed. -/
theorem iteration_exists [NeZero N] {lr : Flt} {X : Fin N → s.Ix → Flt} {f : ImgNet s (.vec m)} {A : ℝ} (hS : Trainable F q ε ε' ρ lr X f A)
    (hr : NotEmpty f.net) (hr' : BackNotEmpty f) (hm : 0 < m) (label : Fin N → Fin m) : ∃ loss f', f.Iteration R F lr X label loss f' := by
  obtain ⟨loss, Y, P, G, D, g, h1, h2, h3, h4⟩ := passes_exist hS.toLearnable hr hr' hm label
  obtain ⟨f', hf'⟩ := sgd_exists (R := R) lr f g
  exact ⟨loss, f', Y, P, G, D, g, h1, h2, h3, h4, hf'⟩

end

end DW.Props.FloatImageBackP
