import Verif.Lemmas.Layers
import Verif.Lemmas.Deriv
/-!
# Linear, activation and softmax layers (C24-C29)

`List.ofFn x` and `rowMajor X` are the elements of a tensor holding the vector `x` / the matrix `X`.
Theorems about gradients say: what the layer adds to the input gradient (or writes to a parameter
gradient) back-propagates through the documented function, in the sense of `Spec.Backprop`.
-/

set_option autoImplicit false

namespace DW.Props.DenseP

open DW.Spec DW.MatL DW.LayerL DW.DerivL

variable {B n u : Nat}

/-! ## C24 -/

/-- A linear layer with weights `W`, bias `b` and gradient tensors holding `gw` and `gb`. -/
noncomputable def layerOf (W : Fin u → Fin n → ℝ) (b : Fin u → ℝ) (gw gb : List ℝ) : LinearSt :=
  ⟨⟨[u, n], rowMajor W⟩, ⟨[u], List.ofFn b⟩, ⟨[u, n], gw⟩, ⟨[u], gb⟩⟩

/-- **C24**: `forward` of a linear layer stores `x W^T + b`, for an input of any rank but one, whose
dimensions after the first multiply to the number of weights per unit; the output's old contents and
the gradients do not matter. -/
theorem linear_forward {rest : List Int} (hne : rest ≠ []) (hs : Static rest) (hf : CountFits rest)
    (hc : count rest = n) (X : Fin B → Fin n → ℝ) (W : Fin u → Fin n → ℝ) (b : Fin u → ℝ) (gw gb old : List ℝ)
    (ho : old.length = B * u) :
    (layerOf W b gw gb).forward [⟨B :: rest, rowMajor X⟩] [⟨[B, u], old⟩] = .ok (rowMajor (linear X W b)) :=
  linear_forward_eq hne hs hf hc X W b old ho _ _

/-- **C24**: anything but one input and one output of rank other than one throws. -/
theorem linear_forward_throws (st : LinearSt) (ins outs : List Buf)
    (h : ¬ ∃ x y, ins = [x] ∧ outs = [y] ∧ x.shape.length ≠ 1 ∧ y.shape.length ≠ 1) :
    st.forward ins outs = .throw .dw := by
  have hv : LinearSt.validate ins outs = .throw .dw := by
    unfold LinearSt.validate
    match ins, outs with
    | [], _ => rfl
    | _ :: _ :: _, _ => simp [Out.check]
    | [_], [] => rfl
    | [_], _ :: _ :: _ => simp [Out.check]
    | [x], [y] =>
      by_cases h1 : x.shape.length = 1
      · simp [Out.idx, h1]
      · by_cases h2 : y.shape.length = 1
        · simp [Out.idx, Out.check, h1, h2]
        · exact absurd ⟨x, y, rfl, rfl, h1, h2⟩ h
  unfold LinearSt.forward
  rw [hv, Out.bind_throw]

/-- The hypotheses hold for a batch of two images of shape {3, 2}. -/
example (X : Fin 2 → Fin 6 → ℝ) (W : Fin 4 → Fin 6 → ℝ) (b : Fin 4 → ℝ) :
    (layerOf W b [] []).forward [⟨[2, 3, 2], rowMajor X⟩] [⟨[2, 4], List.replicate 8 0⟩] =
      .ok (rowMajor (linear X W b)) :=
  linear_forward (rest := [3, 2]) (by simp) (by decide)
    (fun k => by rcases k with _ | _ | _ | k <;> simp) (by decide) X W b _ _ _ (by simp)

/-! ## C25 -/

/-- **C25**: `backward` adds the gradient with respect to the input. -/
theorem linear_backward {rest rest' : List Int} (hs : Static rest) (hf : CountFits rest) (hc : count rest = n)
    (W : Fin u → Fin n → ℝ) (b : Fin u → ℝ) (gw gb : List ℝ) (x : Fin B × Fin n → ℝ) :
    ∃ bwd, Backprop (fun y : Fin B × Fin n → ℝ => Function.uncurry (linear (Function.curry y) W b)) x bwd ∧
      ∀ (g : Fin B × Fin u → ℝ) (old : Fin B → Fin n → ℝ),
        (layerOf W b gw gb).backward ⟨B :: rest, rowMajor (Function.curry x)⟩ ⟨[B, u], rowMajor (Function.curry g)⟩
          ⟨B :: rest', rowMajor old⟩ = .ok (rowMajor fun i j => old i j + bwd g (i, j)) :=
  ⟨_, linear_backprop_input W b x, fun g old => linear_backward_eq hs hf hc _ W _ _ _ (Function.curry g) old⟩

/-- **C25**: `updateGradients` stores the gradients with respect to weight and bias, whatever the
gradient tensors held before. -/
theorem linear_updateGradients {rest : List Int} (hs : Static rest) (hf : CountFits rest) (hc : count rest = n)
    (X : Fin B → Fin n → ℝ) (w : Fin u × Fin n → ℝ) (b : Fin u → ℝ) :
    ∃ bw bb, Backprop (fun y : Fin u × Fin n → ℝ => Function.uncurry (linear X (Function.curry y) b)) w bw ∧
      Backprop (fun y : Fin u → ℝ => Function.uncurry (linear X (Function.curry w) y)) b bb ∧
      ∀ (g : Fin B × Fin u → ℝ) (gw gb : List ℝ), gw.length = u * n → gb.length = u →
        (layerOf (Function.curry w) b gw gb).updateGradients ⟨B :: rest, rowMajor X⟩
          ⟨[B, u], rowMajor (Function.curry g)⟩ =
          .ok (rowMajor (Function.curry (bw g)), List.ofFn (bb g)) :=
  ⟨_, _, linear_backprop_weight X b w, linear_backprop_bias X (Function.curry w) b,
    fun g gw gb hw hb => linear_update_eq hs hf hc X _ _ gw gb hw hb (Function.curry g)⟩

example (W : Fin 3 → Fin 2 → ℝ) (b : Fin 3 → ℝ) (x : Fin 5 × Fin 2 → ℝ) (g : Fin 5 × Fin 3 → ℝ) :
    ∃ r, (layerOf W b [] []).backward ⟨[5, 2], rowMajor (Function.curry x)⟩ ⟨[5, 3], rowMajor (Function.curry g)⟩
      ⟨[5, 2], rowMajor fun (_ : Fin 5) (_ : Fin 2) => 0⟩ = .ok r := by
  obtain ⟨bwd, -, h⟩ := linear_backward (rest := [2]) (rest' := [2]) (n := 2) (by decide)
    (fun k => by rcases k with _ | _ | k <;> simp) (by decide) W b [] [] x
  exact ⟨_, h g fun _ _ => 0⟩

/-! ## C26 -/

theorem relu_eq (x : ℝ) : (if 0 < x then x else 0) = relu x := by
  unfold relu
  split
  · next h => exact (max_eq_right h.le).symm
  · next h => exact (max_eq_left (not_lt.1 h)).symm

/-- **C26**: ReLU. `s` is any shape, `old` the output's previous contents. -/
theorem relu_forward (s : List Int) (x : Fin n → ℝ) (old : List ℝ) (ho : old.length = n) :
    reluFwd [⟨s, List.ofFn x⟩] [⟨s, old⟩] = .ok (List.ofFn fun i => relu (x i)) :=
  act_forward_eq _ _ (fun m v => by simp only [reluForward, EigL.vmap_mk, relu_eq]) s x old ho

/-- **C26**: LeakyReLU. -/
theorem leakyReLU_forward (alpha : ℝ) (s : List Int) (x : Fin n → ℝ) (old : List ℝ) (ho : old.length = n) :
    leakyReLUFwd alpha [⟨s, List.ofFn x⟩] [⟨s, old⟩] = .ok (List.ofFn fun i => leakyRelu alpha (x i)) :=
  act_forward_eq _ _ (fun m v => by
    simp only [leakyReLUForward, EigL.vmap_mk, leakyRelu]
    congr 1; funext i
    by_cases h : v i < 0
    · rw [if_pos h, if_neg (not_le.2 h), mul_comm]
    · rw [if_neg h, if_pos (not_lt.1 h)]) s x old ho

/-- **C26**: ELU. -/
theorem elu_forward (alpha : ℝ) (s : List Int) (x : Fin n → ℝ) (old : List ℝ) (ho : old.length = n) :
    eluFwd alpha [⟨s, List.ofFn x⟩] [⟨s, old⟩] = .ok (List.ofFn fun i => elu alpha (x i)) :=
  act_forward_eq _ _ (fun m v => by
    simp only [eluForward, EigL.vmap_mk, elu]
    congr 1; funext i
    by_cases h : v i < 0
    · rw [if_pos h, if_neg (not_le.2 h), mul_comm]
    · rw [if_neg h, if_pos (not_lt.1 h)]) s x old ho

/-- **C26**: Sigmoid. -/
theorem sigmoid_forward (s : List Int) (x : Fin n → ℝ) (old : List ℝ) (ho : old.length = n) :
    sigmoidFwd [⟨s, List.ofFn x⟩] [⟨s, old⟩] = .ok (List.ofFn fun i => sigmoid (x i)) :=
  act_forward_eq _ _ (fun m v => by
    simp only [sigmoidForward, EigL.vmap_mk, sigmoid]
    congr 1; funext i
    rw [mul_neg_one, one_div, add_comm]) s x old ho

/-- **C26**: the sigmoid lies strictly between 0 and 1. -/
theorem sigmoid_mem (x : ℝ) : 0 < sigmoid x ∧ sigmoid x < 1 := by
  have h : 0 < Real.exp (-x) := Real.exp_pos _
  unfold sigmoid
  refine ⟨by positivity, ?_⟩
  rw [div_lt_one (by positivity)]
  linarith

/-- **C26**: all four throw unless there is one input and one output, of the same shape. -/
theorem activation_throws (alpha : ℝ) (ins outs : List Buf)
    (h : ¬ ∃ x y, ins = [x] ∧ outs = [y] ∧ x.shape = y.shape) :
    reluFwd ins outs = .throw .dw ∧ leakyReLUFwd alpha ins outs = .throw .dw ∧
    eluFwd alpha ins outs = .throw .dw ∧ sigmoidFwd ins outs = .throw .dw := by
  have hv := act_validate_throws ins outs h
  refine ⟨?_, ?_, ?_, ?_⟩ <;>
  · simp only [reluFwd, leakyReLUFwd, eluFwd, sigmoidFwd, ActL.forward, hv, Out.bind_throw]

/-- A tensor of shape {2, 3} holding negative, zero and positive elements. -/
example (x : Fin 6 → ℝ) : reluFwd [⟨[2, 3], List.ofFn x⟩] [⟨[2, 3], [1, 2, 3, 4, 5, 6]⟩] =
    .ok (List.ofFn fun i => relu (x i)) := relu_forward _ x _ rfl

/-! ## C27 -/

/-- **C27**: ReLU adds the derivative times the output gradient wherever ReLU is differentiable. -/
theorem relu_backward (s : List Int) (x : Fin n → ℝ) (hx : ∀ i, DifferentiableAt ℝ relu (x i)) :
    ∃ bwd, Backprop (fun (y : Fin n → ℝ) i => relu (y i)) x bwd ∧ ∀ g old : Fin n → ℝ,
      reluBwd ⟨s, List.ofFn x⟩ ⟨s, List.ofFn g⟩ ⟨s, List.ofFn old⟩ = .ok (List.ofFn fun i => old i + bwd g i) := by
  refine ⟨_, backprop_map fun i => (hx i).hasDerivAt, fun g old => ?_⟩
  have hd : ∀ i, deriv relu (x i) = if 0 < x i then 1 else 0 := fun i => relu_deriv (hx i).hasDerivAt
  simp only [hd]
  refine (act_backward_eq _ (fun x g => if 0 < x then g else 0)
    (fun m x g gi => by simp [reluInputGrad]) s s s x g old).trans ?_
  simp

/-- **C27**: LeakyReLU. -/
theorem leakyReLU_backward (alpha : ℝ) (s : List Int) (x : Fin n → ℝ)
    (hx : ∀ i, DifferentiableAt ℝ (leakyRelu alpha) (x i)) :
    ∃ bwd, Backprop (fun (y : Fin n → ℝ) i => leakyRelu alpha (y i)) x bwd ∧ ∀ g old : Fin n → ℝ,
      leakyReLUBwd alpha ⟨s, List.ofFn x⟩ ⟨s, List.ofFn g⟩ ⟨s, List.ofFn old⟩ =
        .ok (List.ofFn fun i => old i + bwd g i) := by
  refine ⟨_, backprop_map fun i => (hx i).hasDerivAt, fun g old => ?_⟩
  have hd : ∀ i, deriv (leakyRelu alpha) (x i) = if x i < 0 then alpha else 1 :=
    fun i => leakyRelu_deriv (hx i).hasDerivAt
  simp only [hd]
  refine (act_backward_eq _ (fun x g => if x < 0 then g * alpha else g)
    (fun m x g gi => by simp [leakyReLUInputGrad]) s s s x g old).trans ?_
  simp

/-- **C27**: ELU. -/
theorem elu_backward (alpha : ℝ) (s : List Int) (x : Fin n → ℝ) (hx : ∀ i, DifferentiableAt ℝ (elu alpha) (x i)) :
    ∃ bwd, Backprop (fun (y : Fin n → ℝ) i => elu alpha (y i)) x bwd ∧ ∀ g old : Fin n → ℝ,
      eluBwd alpha ⟨s, List.ofFn x⟩ ⟨s, List.ofFn g⟩ ⟨s, List.ofFn old⟩ =
        .ok (List.ofFn fun i => old i + bwd g i) := by
  refine ⟨_, backprop_map fun i => (hx i).hasDerivAt, fun g old => ?_⟩
  have hd : ∀ i, deriv (elu alpha) (x i) = if x i < 0 then Real.exp (x i) * alpha else 1 :=
    fun i => elu_deriv (hx i).hasDerivAt
  simp only [hd]
  exact act_backward_eq _ (fun x g => g * if x < 0 then Real.exp x * alpha else 1)
    (fun m x g gi => by simp [eluInputGrad]) s s s x g old

/-- **C27**: Sigmoid, computed from the output the forward pass stored. -/
theorem sigmoid_backward (s : List Int) (x : Fin n → ℝ) :
    ∃ bwd, Backprop (fun (y : Fin n → ℝ) i => sigmoid (y i)) x bwd ∧ ∀ g old : Fin n → ℝ,
      sigmoidBwd ⟨s, List.ofFn fun i => sigmoid (x i)⟩ ⟨s, List.ofFn g⟩ ⟨s, List.ofFn old⟩ =
        .ok (List.ofFn fun i => old i + bwd g i) := by
  refine ⟨_, backprop_map fun i => sigmoid_deriv (x i), fun g old => ?_⟩
  refine (act_backward_eq _ (fun y g => g * (y * (y * -1 + 1)))
    (fun m x g gi => by simp [sigmoidInputGrad]) s s s _ g old).trans ?_
  congr 2
  funext i
  ring

/-- Every point but 0 is a point of differentiability. -/
theorem differentiableAt_of_ne_zero (alpha x : ℝ) (hx : x ≠ 0) :
    DifferentiableAt ℝ relu x ∧ DifferentiableAt ℝ (leakyRelu alpha) x ∧ DifferentiableAt ℝ (elu alpha) x := by
  rcases lt_or_gt_of_ne hx with h | h
  · have hev : ∀ᶠ y in nhds x, y < 0 := (isOpen_Iio).mem_nhds h
    refine ⟨(differentiableAt_const (0 : ℝ)).congr_of_eventuallyEq (hev.mono fun y hy => ?_),
      (differentiableAt_id.const_mul alpha).congr_of_eventuallyEq (hev.mono fun y hy => ?_),
      (((Real.differentiableAt_exp (x := x)).sub_const 1).const_mul alpha).congr_of_eventuallyEq
        (hev.mono fun y hy => ?_)⟩
    · exact max_eq_left hy.le
    · simp [leakyRelu, not_le.2 hy]
    · simp [elu, not_le.2 hy]
  · have hev : ∀ᶠ y in nhds x, 0 < y := (isOpen_Ioi).mem_nhds h
    refine ⟨differentiableAt_id.congr_of_eventuallyEq (hev.mono fun y hy => ?_),
      differentiableAt_id.congr_of_eventuallyEq (hev.mono fun y hy => ?_),
      differentiableAt_id.congr_of_eventuallyEq (hev.mono fun y hy => ?_)⟩
    · exact max_eq_right hy.le
    · simp [leakyRelu, hy.le]
    · simp [elu, hy.le]

example : ∃ r, reluBwd ⟨[2], List.ofFn ![(1 : ℝ), -2]⟩ ⟨[2], List.ofFn ![(3 : ℝ), 4]⟩ ⟨[2], List.ofFn ![(0 : ℝ), 0]⟩ = .ok r := by
  obtain ⟨bwd, -, h⟩ := relu_backward [2] ![(1 : ℝ), -2] (fun i =>
    (differentiableAt_of_ne_zero 0 _ (by fin_cases i <;> norm_num)).1)
  exact ⟨_, h _ _⟩

/-! ## C28 -/

/-- **C28**: `forward` stores the softmax of every row, for at least one class. -/
theorem softmax_forward (hn : 0 < n) (X : Fin B → Fin n → ℝ) (old : List ℝ) (ho : old.length = B * n) :
    SoftmaxL.forward [⟨[B, n], rowMajor X⟩] [⟨[B, n], old⟩] = .ok (rowMajor (softmax X)) :=
  softmax_forward_eq hn X old ho

/-- **C28**: every entry is positive and at most 1, and rows sum to 1. -/
theorem softmax_probability (X : Fin B → Fin n → ℝ) (i : Fin B) (j : Fin n) :
    0 < softmax X i j ∧ softmax X i j ≤ 1 ∧ ∑ k, softmax X i k = 1 := by
  have hs := softmax_pos X i j
  refine ⟨div_pos (Real.exp_pos _) hs, ?_, ?_⟩
  · unfold softmax
    rw [div_le_one hs]
    exact Finset.single_le_sum (f := fun k => Real.exp (X i k)) (fun k _ => (Real.exp_pos _).le) (Finset.mem_univ j)
  · simp only [softmax, div_eq_mul_inv, ← Finset.sum_mul]
    exact mul_inv_cancel₀ hs.ne'

/-- **C28**: adding a constant to each row changes nothing. -/
theorem softmax_shift (X : Fin B → Fin n → ℝ) (c : Fin B → ℝ) :
    softmax (fun i j => X i j + c i) = softmax X := by
  funext i j
  simp only [softmax, Real.exp_add, ← Finset.sum_mul]
  rw [mul_div_mul_right _ _ (Real.exp_ne_zero _)]

/-- **C28**: the numbers passed to `exp` are at most 0, and 0 occurs in every row (so no overflow, and
the sum is at least 1). -/
theorem softmax_exponents (hn : 0 < n) (X : Fin B → Fin n → ℝ) :
    ∃ A : Fin B → Fin n → ℝ, softmaxExp ⟨B, n, X⟩ = .ok ⟨B, n, fun i j => Real.exp (A i j)⟩ ∧
      (∀ i j, A i j ≤ 0) ∧ ∀ i, ∃ j, A i j = 0 := by
  obtain ⟨mx, e, h1, h2⟩ := softmaxExp_spec X hn
  refine ⟨_, e, fun i j => by have := h1 i j; linarith, fun i => ?_⟩
  obtain ⟨j, hj⟩ := h2 i
  exact ⟨j, by rw [hj, sub_self]⟩

/-- **C28**: a tensor that is not of rank 2 throws. -/
theorem softmax_throws (x y : Buf) (h : x.shape.length ≠ 2 ∨ y.shape.length ≠ 2) :
    SoftmaxL.forward [x] [y] = .throw .dw := by
  unfold SoftmaxL.forward SoftmaxL.validate
  by_cases h1 : x.shape.length = 2
  · have h2 : y.shape.length ≠ 2 := h.resolve_left (by simp [h1])
    simp [Out.idx, Out.check, h1, h2]
  · simp [Out.idx, Out.check, h1]

example (X : Fin 2 → Fin 3 → ℝ) : SoftmaxL.forward [⟨[2, 3], rowMajor X⟩] [⟨[2, 3], List.replicate 6 0⟩] =
    .ok (rowMajor (softmax X)) := softmax_forward (by decide) X _ (by simp)

/-! ## C29 -/

/-- **C29**: `backward`, given the output of `forward`, adds the gradient of softmax. -/
theorem softmax_backward (x : Fin B × Fin n → ℝ) :
    ∃ bwd, Backprop (fun y : Fin B × Fin n → ℝ => Function.uncurry (softmax (Function.curry y))) x bwd ∧
      ∀ (g : Fin B × Fin n → ℝ) (old : Fin B → Fin n → ℝ),
        SoftmaxL.backward ⟨[B, n], rowMajor (softmax (Function.curry x))⟩ ⟨[B, n], rowMajor (Function.curry g)⟩
          ⟨[B, n], rowMajor old⟩ = .ok (rowMajor fun i j => old i j + bwd g (i, j)) :=
  ⟨_, softmax_backprop x, fun g old => softmax_backward_eq _ (Function.curry g) old⟩

end DW.Props.DenseP
