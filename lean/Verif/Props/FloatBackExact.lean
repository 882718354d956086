import Verif.Model.FloatBack
import Verif.Props.FloatNet
import Mathlib.Analysis.Calculus.Deriv.Pi
/-!
# The gradient of a chain of layers

What C119 compares the gradients the program computes with: the derivatives of the network with respect to the inputs and to all parameters, in exact
arithmetic.
-/

set_option autoImplicit false

namespace DW.Props.FloatBackP

open DW.Float DW.Props.FloatNetP

noncomputable section

variable {B n k m : ℕ}

/-! ## What a gradient is -/

/-- The activation as a function of a real number. -/
def fn : Act → ℝ → ℝ
  | .relu => Spec.relu
  | .leakyRelu alpha => Spec.leakyRelu alpha.val
  | .elu alpha => Spec.elu alpha.val
  | .sigmoid => Spec.sigmoid

/-- The parameters of the network as real numbers. -/
def values : {n m : ℕ} → (c : Mlp n m) → Tensors ℝ c
  | _, _, .nil => ()
  | _, _, .linear W b c => ((fun j r => (W j r).val, fun j => (b j).val), values c)
  | _, _, .act _ c => values c

/-- The outputs of the network in exact arithmetic with the parameters `P` in place of its own. -/
def run : {n m : ℕ} → (c : Mlp n m) → Tensors ℝ c → (Fin B → Fin n → ℝ) → Fin B → Fin m → ℝ
  | _, _, .nil, _, X => X
  | _, _, .linear _ _ c, P, X => run c P.2 (Spec.linear X P.1.1 P.1.2)
  | _, _, .act a c, P, X => run c P fun i j => fn a (X i j)

/-- `P + t V`. -/
def shift : {n m : ℕ} → (c : Mlp n m) → Tensors ℝ c → ℝ → Tensors ℝ c → Tensors ℝ c
  | _, _, .nil, P, _, _ => P
  | _, _, .linear _ _ c, P, t, V => ((fun j r => P.1.1 j r + t * V.1.1 j r, fun j => P.1.2 j + t * V.1.2 j), shift c P.2 t V.2)
  | _, _, .act _ c, P, t, V => shift c P t V

/-- The sum of the products of the elements. -/
def pair : {n m : ℕ} → (c : Mlp n m) → Tensors ℝ c → Tensors ℝ c → ℝ
  | _, _, .nil, _, _ => 0
  | _, _, .linear _ _ c, P, V => ∑ j, ∑ r, P.1.1 j r * V.1.1 j r + ∑ j, P.1.2 j * V.1.2 j + pair c P.2 V.2
  | _, _, .act _ c, P, V => pair c P V

/-- `D` and `P` are the gradients with respect to the inputs `T` and to the parameters of the sum of the outputs times `Γ`: they give its
derivative in every direction `U`, `V`. (If `Γ` is the gradient of a loss with respect to the outputs, they are the gradients of that loss.) -/
def IsGradient (c : Mlp n m) (T : Fin B → Fin n → ℝ) (Γ : Fin B → Fin m → ℝ) (D : Fin B → Fin n → ℝ) (P : Tensors ℝ c) : Prop :=
  ∀ (U : Fin B → Fin n → ℝ) (V : Tensors ℝ c),
    HasDerivAt (fun t => ∑ i, ∑ j, Γ i j * run c (shift c (values c) t V) (fun i r => T i r + t * U i r) i j)
      (∑ i, ∑ r, D i r * U i r + pair c P V) 0

/-! ## The formulas -/

open Classical in
/-- The derivative of the activation. -/
def slope : Act → ℝ → ℝ
  | .relu, x => if 0 < x then 1 else 0
  | .leakyRelu alpha, x => if x < 0 then alpha.val else 1
  | .elu alpha, x => if x < 0 then alpha.val * Real.exp x else 1
  | .sigmoid, x => Spec.sigmoid x * (1 - Spec.sigmoid x)

/-- The gradient with respect to the inputs. -/
def inputGrad : {n m : ℕ} → (c : Mlp n m) → (Fin B → Fin n → ℝ) → (Fin B → Fin m → ℝ) → Fin B → Fin n → ℝ
  | _, _, .nil, _, Γ => Γ
  | _, _, .linear W b c, T, Γ => fun i r => ∑ j, inputGrad c (layer (.linear W b) T) Γ i j * (W j r).val
  | _, _, .act a c, T, Γ => fun i j => inputGrad c (layer a.layer T) Γ i j * slope a (T i j)

/-- The gradients with respect to the parameters. -/
def paramGrad : {n m : ℕ} → (c : Mlp n m) → (Fin B → Fin n → ℝ) → (Fin B → Fin m → ℝ) → Tensors ℝ c
  | _, _, .nil, _, _ => ()
  | _, _, .linear W b c, T, Γ =>
    ((fun j r => ∑ i, inputGrad c (layer (.linear W b) T) Γ i j * T i r, fun j => ∑ i, inputGrad c (layer (.linear W b) T) Γ i j),
      paramGrad c (layer (.linear W b) T) Γ)
  | _, _, .act a c, T, Γ => paramGrad c (layer a.layer T) Γ

/-- No activation but Sigmoid gets 0: there it has a kink. -/
def Smooth : {n m : ℕ} → Mlp n m → (Fin B → Fin n → ℝ) → Prop
  | _, _, .nil, _ => True
  | _, _, .linear W b c, T => Smooth c (layer (.linear W b) T)
  | _, _, .act a c, T => (a = .sigmoid ∨ ∀ i j, T i j ≠ 0) ∧ Smooth c (layer a.layer T)

theorem layer_act (a : Act) (T : Fin B → Fin n → ℝ) : layer a.layer T = fun i j => fn a (T i j) := by cases a <;> rfl

theorem run_values (c : Mlp n m) (T : Fin B → Fin n → ℝ) : run c (values c) T = chain c.chain T := by
  induction c with
  | nil => rfl
  | linear W b c ih => exact ih _
  | act a c ih =>
    have := ih (layer a.layer T)
    rw [layer_act] at this
    show run c (values c) _ = chain c.chain (layer a.layer T)
    rw [layer_act]
    exact this

theorem fn_deriv (a : Act) {x : ℝ} (h : a = .sigmoid ∨ x ≠ 0) : HasDerivAt (fn a) (slope a x) x := by
  cases a with
  | sigmoid => exact DerivL.sigmoid_deriv x
  | relu =>
    have hx := h.resolve_left (by simp)
    rcases lt_or_gt_of_ne hx with h0 | h0
    · simp only [slope, if_neg (not_lt.2 h0.le)]
      refine (hasDerivAt_const x (0 : ℝ)).congr_of_eventuallyEq ?_
      filter_upwards [Iio_mem_nhds h0] with y hy
      exact max_eq_left (le_of_lt hy)
    · simp only [slope, if_pos h0]
      refine (hasDerivAt_id x).congr_of_eventuallyEq ?_
      filter_upwards [Ioi_mem_nhds h0] with y hy
      exact max_eq_right (le_of_lt hy)
  | leakyRelu alpha =>
    have hx := h.resolve_left (by simp)
    rcases lt_or_gt_of_ne hx with h0 | h0
    · simp only [slope, if_pos h0]
      have hd := (hasDerivAt_id x).const_mul alpha.val
      rw [mul_one] at hd
      refine hd.congr_of_eventuallyEq ?_
      filter_upwards [Iio_mem_nhds h0] with y hy
      exact if_neg (not_le.2 hy)
    · simp only [slope, if_neg (not_lt.2 h0.le)]
      refine (hasDerivAt_id x).congr_of_eventuallyEq ?_
      filter_upwards [Ioi_mem_nhds h0] with y hy
      exact if_pos (le_of_lt hy)
  | elu alpha =>
    have hx := h.resolve_left (by simp)
    rcases lt_or_gt_of_ne hx with h0 | h0
    · simp only [slope, if_pos h0]
      refine (((Real.hasDerivAt_exp x).sub_const 1).const_mul alpha.val).congr_of_eventuallyEq ?_
      filter_upwards [Iio_mem_nhds h0] with y hy
      exact if_neg (not_le.2 hy)
    · simp only [slope, if_neg (not_lt.2 h0.le)]
      refine (hasDerivAt_id x).congr_of_eventuallyEq ?_
      filter_upwards [Ioi_mem_nhds h0] with y hy
      exact if_pos (le_of_lt hy)

theorem linear_sums (E : Fin B → Fin k → ℝ) (T U : Fin B → Fin n → ℝ) (W V : Fin k → Fin n → ℝ) (v : Fin k → ℝ) :
    ∑ i, ∑ j, E i j * (∑ r, (U i r * W j r + T i r * V j r) + v j) =
      ∑ i, ∑ r, (∑ j, E i j * W j r) * U i r + (∑ j, ∑ r, (∑ i, E i j * T i r) * V j r + ∑ j, (∑ i, E i j) * v j) := by
  simp only [mul_add, Finset.mul_sum, Finset.sum_add_distrib, Finset.sum_mul]
  have e1 : ∑ i, ∑ j, ∑ r, E i j * (U i r * W j r) = ∑ i, ∑ r, ∑ j, E i j * W j r * U i r :=
    Finset.sum_congr rfl fun i _ => by
      rw [Finset.sum_comm]
      exact Finset.sum_congr rfl fun r _ => Finset.sum_congr rfl fun j _ => by ring
  have e2 : ∑ i, ∑ j, ∑ r, E i j * (T i r * V j r) = ∑ j, ∑ r, ∑ i, E i j * T i r * V j r := by
    rw [Finset.sum_comm]
    refine Finset.sum_congr rfl fun j _ => ?_
    rw [Finset.sum_comm]
    exact Finset.sum_congr rfl fun r _ => Finset.sum_congr rfl fun i _ => by ring
  have e3 : ∑ i, ∑ j, E i j * v j = ∑ j, ∑ i, E i j * v j := Finset.sum_comm
  rw [e1, e2, e3]
  ring

/-- The formulas give the derivative along any curve of inputs. -/
theorem gradient_curve (c : Mlp n m) (Γ : Fin B → Fin m → ℝ) (V : Tensors ℝ c) {T U : Fin B → Fin n → ℝ} {X : ℝ → Fin B → Fin n → ℝ}
    (hs : Smooth c T) (hT : X 0 = T) (hX : ∀ i r, HasDerivAt (fun t => X t i r) (U i r) 0) :
    HasDerivAt (fun t => ∑ i, ∑ j, Γ i j * run c (shift c (values c) t V) (X t) i j)
      (∑ i, ∑ r, inputGrad c T Γ i r * U i r + pair c (paramGrad c T Γ) V) 0 := by
  induction c with
  | nil =>
    show HasDerivAt (fun t => ∑ i, ∑ j, Γ i j * X t i j) (∑ i, ∑ r, Γ i r * U i r + 0) 0
    rw [add_zero]
    exact HasDerivAt.fun_sum fun i _ => HasDerivAt.fun_sum fun j _ => (hX i j).const_mul _
  | @linear n k m W b c ih =>
    have hZ : ∀ i j, HasDerivAt
        (fun t => Spec.linear (X t) (shift (.linear W b c) (values (.linear W b c)) t V).1.1 (shift (.linear W b c) (values (.linear W b c)) t V).1.2 i j)
        (∑ r, (U i r * (W j r).val + T i r * V.1.1 j r) + V.1.2 j) 0 := fun i j => by
      show HasDerivAt (fun t => ∑ r, X t i r * ((W j r).val + t * V.1.1 j r) + ((b j).val + t * V.1.2 j)) _ 0
      refine HasDerivAt.fun_add (HasDerivAt.fun_sum fun r _ => ?_) ?_
      · have h1 : HasDerivAt (fun t : ℝ => (W j r).val + t * V.1.1 j r) (V.1.1 j r) 0 := by
          simpa using ((hasDerivAt_id (0 : ℝ)).mul_const (V.1.1 j r)).const_add (W j r).val
        have h2 := (hX i r).fun_mul h1
        rw [hT] at h2
        simpa using h2
      · simpa using ((hasDerivAt_id (0 : ℝ)).mul_const (V.1.2 j)).const_add (b j).val
    have h0 : Spec.linear (X 0) (shift (.linear W b c) (values (.linear W b c)) 0 V).1.1 (shift (.linear W b c) (values (.linear W b c)) 0 V).1.2 =
        layer (.linear W b) T := by
      funext i j
      show ∑ r, X 0 i r * ((W j r).val + 0 * V.1.1 j r) + ((b j).val + 0 * V.1.2 j) = ∑ r, T i r * (W j r).val + (b j).val
      simp [hT]
    have := ih Γ V.2 (T := layer (.linear W b) T) hs h0 hZ
    have e := linear_sums (inputGrad c (layer (.linear W b) T) Γ) T U (fun j r => (W j r).val) V.1.1 V.1.2
    rw [e] at this
    have e2 : ∑ i, ∑ r, inputGrad (.linear W b c) T Γ i r * U i r + pair (.linear W b c) (paramGrad (.linear W b c) T Γ) V =
        ∑ i, ∑ r, (∑ j, inputGrad c (layer (.linear W b) T) Γ i j * (W j r).val) * U i r +
          (∑ j, ∑ r, (∑ i, inputGrad c (layer (.linear W b) T) Γ i j * T i r) * V.1.1 j r + ∑ j, (∑ i, inputGrad c (layer (.linear W b) T) Γ i j) * V.1.2 j) +
          pair c (paramGrad c (layer (.linear W b) T) Γ) V.2 := by
      rw [add_assoc]
      rfl
    rw [e2]
    exact this
  | act a c ih =>
    have hZ : ∀ i j, HasDerivAt (fun t => fn a (X t i j)) (slope a (T i j) * U i j) 0 := fun i j => by
      have h1 : HasDerivAt (fn a) (slope a (T i j)) (X 0 i j) := by rw [hT]; exact fn_deriv a (hs.1.imp_right fun h => h i j)
      exact h1.comp 0 (hX i j)
    have := ih Γ V (T := layer a.layer T) (X := fun t i j => fn a (X t i j)) hs.2 (by rw [layer_act]; funext i j; show fn a (X 0 i j) = _; rw [hT]) hZ
    have e : ∑ i, ∑ r, inputGrad (.act a c) T Γ i r * U i r = ∑ i, ∑ r, inputGrad c (layer a.layer T) Γ i r * (slope a (T i r) * U i r) :=
      Finset.sum_congr rfl fun i _ => Finset.sum_congr rfl fun r _ => by rw [← mul_assoc]; rfl
    rw [e]
    exact this

/-- **C119** (exact arithmetic): where the network has no kink, the formulas of backpropagation are its gradient. -/
theorem gradient_exact (c : Mlp n m) {T : Fin B → Fin n → ℝ} (Γ : Fin B → Fin m → ℝ) (hs : Smooth c T) :
    IsGradient c T Γ (inputGrad c T Γ) (paramGrad c T Γ) := fun U V =>
  gradient_curve c Γ V hs (by funext i r; simp) fun i r => by
    simpa using ((hasDerivAt_id (0 : ℝ)).mul_const (U i r)).const_add (T i r)

end

end DW.Props.FloatBackP
