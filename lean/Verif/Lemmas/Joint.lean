import Mathlib.LinearAlgebra.Pi
import Mathlib.Analysis.Calculus.FDeriv.Prod
import Verif.Props.Smooth
/-!
# Layers as functions of parameters and arguments together

All layers are affine in their parameters, hence differentiable in parameters and arguments together where they are
differentiable in the arguments.
-/

set_option autoImplicit false

namespace DW.Props.SmoothP

open DW DW.Spec

/-- `f` is affine in its first argument. -/
structure Affine {P : Nat} {E κ : Type} (f : (Fin P → ℝ) → E → κ → ℝ) : Prop where
  add : ∀ t t' X, f (t + t') X + f 0 X = f t X + f t' X
  smul : ∀ (c : ℝ) t X, f (c • t) X = c • f t X + (1 - c) • f 0 X

theorem Affine.of_zero {E κ : Type} (f : (Fin 0 → ℝ) → E → κ → ℝ) : Affine f := by
  refine ⟨fun t t' X => ?_, fun c t X => ?_⟩
  · rw [Subsingleton.elim t 0, Subsingleton.elim t' 0, add_zero]
  · rw [Subsingleton.elim t 0, smul_zero, sub_smul, one_smul]
    abel

theorem Affine.eq_sum {P : Nat} {E κ : Type} {f : (Fin P → ℝ) → E → κ → ℝ} (h : Affine f) (t : Fin P → ℝ) (X : E) :
    f t X = f 0 X + ∑ p, t p • (f (fun j => if p = j then 1 else 0) X - f 0 X) := by
  let A : (Fin P → ℝ) →ₗ[ℝ] (κ → ℝ) :=
    { toFun := fun t => f t X - f 0 X
      map_add' := fun t t' => by
        have := h.add t t' X
        rw [show f (t + t') X = f t X + f t' X - f 0 X from eq_sub_of_add_eq this]
        abel
      map_smul' := fun c t => by
        rw [h.smul, RingHom.id_apply, smul_sub, sub_smul, one_smul]
        abel }
  have := LinearMap.pi_apply_eq_sum_univ A t
  have h2 : f t X - f 0 X = ∑ p, t p • (f (fun j => if p = j then 1 else 0) X - f 0 X) := this
  rw [← h2]
  abel

theorem Affine.differentiable {P : Nat} {E κ : Type} [NormedAddCommGroup E] [NormedSpace ℝ E] [Fintype κ] {f : (Fin P → ℝ) → E → κ → ℝ}
    (h : Affine f) {X : E} (hd : ∀ s, DifferentiableAt ℝ (f s) X) (t : Fin P → ℝ) :
    DifferentiableAt ℝ (fun p : (Fin P → ℝ) × E => f p.1 p.2) (t, X) := by
  have e : (fun p : (Fin P → ℝ) × E => f p.1 p.2) = fun p : (Fin P → ℝ) × E =>
      f 0 p.2 + ∑ i, p.1 i • (f (fun j => if i = j then 1 else 0) p.2 - f 0 p.2) := funext fun p => h.eq_sum p.1 p.2
  rw [e]
  have q : ∀ s, DifferentiableAt ℝ (fun p : (Fin P → ℝ) × E => f s p.2) (t, X) := fun s =>
    DifferentiableAt.comp (t, X) (g := f s) (f := Prod.snd) (hd s) differentiableAt_snd
  refine (q 0).add (DifferentiableAt.fun_sum fun i _ => ?_)
  have q1 : DifferentiableAt ℝ (fun p : (Fin P → ℝ) × E => p.1 i) (t, X) :=
    DifferentiableAt.comp (t, X) (g := fun y : Fin P → ℝ => y i) (f := Prod.fst) (differentiableAt_apply i t) differentiableAt_fst
  exact q1.smul ((q _).sub (q 0))

/-- A linear function of the parameters. -/
structure Lin {P : Nat} (g : (Fin P → ℝ) → ℝ) : Prop where
  add : ∀ t t', g (t + t') = g t + g t'
  smul : ∀ (c : ℝ) t, g (c • t) = c * g t

theorem Lin.proj {P : Nat} (p : Fin P) : Lin fun t : Fin P → ℝ => t p := ⟨fun _ _ => rfl, fun _ _ => rfl⟩

theorem Lin.plus {P : Nat} {g g' : (Fin P → ℝ) → ℝ} (h : Lin g) (h' : Lin g') : Lin fun t => g t + g' t :=
  ⟨fun t t' => by rw [h.add, h'.add]; ring, fun c t => by rw [h.smul, h'.smul]; ring⟩

theorem Lin.left {P : Nat} {g : (Fin P → ℝ) → ℝ} (h : Lin g) (a : ℝ) : Lin fun t => a * g t :=
  ⟨fun t t' => by rw [h.add]; ring, fun c t => by rw [h.smul]; ring⟩

theorem Lin.right {P : Nat} {g : (Fin P → ℝ) → ℝ} (h : Lin g) (a : ℝ) : Lin fun t => g t * a :=
  ⟨fun t t' => by rw [h.add]; ring, fun c t => by rw [h.smul]; ring⟩

theorem Lin.sum {P : Nat} {ι : Type} [Fintype ι] {g : ι → (Fin P → ℝ) → ℝ} (h : ∀ i, Lin (g i)) : Lin fun t => ∑ i, g i t :=
  ⟨fun t t' => by rw [← Finset.sum_add_distrib]; exact Finset.sum_congr rfl fun i _ => (h i).add t t',
    fun c t => by rw [Finset.mul_sum]; exact Finset.sum_congr rfl fun i _ => (h i).smul c t⟩

theorem Affine.of_lin {P : Nat} {E κ : Type} {f : (Fin P → ℝ) → E → κ → ℝ} (h : ∀ X i, Lin fun t => f t X i) : Affine f := by
  have h0 : ∀ X, f 0 X = 0 := fun X => by
    funext i
    have := (h X i).smul 0 0
    simpa using this
  refine ⟨fun t t' X => ?_, fun c t X => ?_⟩
  · rw [h0, add_zero]
    exact funext fun i => (h X i).add t t'
  · rw [h0, smul_zero, add_zero]
    exact funext fun i => (h X i).smul c t

/-- Layers with one argument. -/
theorem affine1 {real : F32 → ℝ} {t : InfoTensors} {op : Op} {s o : Shape} {P : Nat}
    {f : (Nat → ℝ) → (Fin P → ℝ) → Elems s → Elems o} {θ₀ : Fin P → ℝ} {ex : Prop} (h : Computes1 real t op s o P f θ₀ ex)
    (r : Nat → ℝ) : Affine (f r) := by
  cases h with
  | linear => exact .of_lin fun X i => .plus (.sum fun j => .left (.proj _) _) (.proj _)
  | batchNorm1D => exact .of_lin fun X i => .plus (.right (.proj _) _) (.proj _)
  | batchNorm1DEval => exact .of_lin fun X i => .plus (.right (.proj _) _) (.proj _)
  | batchNorm2D => exact .of_lin fun X i => .plus (.right (.proj _) _) (.proj _)
  | batchNorm2DEval => exact .of_lin fun X i => .plus (.right (.proj _) _) (.proj _)
  | convolution => exact .of_lin fun X i => .plus (.proj _) (.sum fun c => .sum fun kh => .sum fun kw => .right (.proj _) _)
  | _ => exact Affine.of_zero _

/-- Every layer is differentiable in parameters and arguments together at arguments that avoid its kinks. -/
theorem layer_joint {real : F32 → ℝ} {t : InfoTensors} {op : Op} {n : Nat} {ishape : Fin n → Shape} {o : Shape} {P : Nat}
    {f : (Nat → ℝ) → (Fin P → ℝ) → Args ishape → Elems o} {θ₀ : Fin P → ℝ} {ex : Prop} (h : Computes real t op ishape o P f θ₀ ex)
    (r : Nat → ℝ) (θ : Fin P → ℝ) {X : Args ishape} (hk : AvoidsKinks op X) :
    DifferentiableAt ℝ (fun p : (Fin P → ℝ) × Args ishape => f r p.1 p.2) (θ, X) := by
  have hd := fun s => layer_differentiable h r s hk
  refine Affine.differentiable ?_ hd θ
  cases h with
  | one hn hs ho h =>
    have ha := affine1 h r
    exact ⟨fun t t' X => funext fun i => congrFun (ha.add t t' _) (Fin.cast _ i),
      fun c t X => funext fun i => congrFun (ha.smul c t _) (Fin.cast _ i)⟩
  | add => exact Affine.of_zero _

end DW.Props.SmoothP
