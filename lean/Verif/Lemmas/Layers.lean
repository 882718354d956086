import Verif.Model.Layers
import Verif.Lemmas.Eigen
import Verif.Lemmas.Tensor
/-! Lemmas about the linear, softmax and activation layers. -/

set_option autoImplicit false

namespace DW.LayerL

open DW.Spec DW.MatL DW.Eig DW.EigL

theorem dim_zero (a : Int) (s : List Int) (v : List ℝ) : dim ⟨a :: s, v⟩ 0 = .ok a := rfl
theorem dim_one (a b : Int) (s : List Int) (v : List ℝ) : dim ⟨a :: b :: s, v⟩ 1 = .ok b := rfl
theorem idx_zero {α : Type} (a : α) (l : List α) : Out.idx (a :: l) 0 = .ok a := rfl

variable {B n u : Nat}

theorem second_eq {b : Int} {rest : List Int} (hs : Static rest) (hf : CountFits rest) (hc : count rest = n) :
    LinearSt.second (b :: rest) = .ok n := by
  rw [LinearSt.second, Tensor.accProd_eq hs hf, hc]

theorem linear_forward_eq {rest : List Int} (hne : rest ≠ []) (hs : Static rest) (hf : CountFits rest)
    (hc : count rest = n) (X : Fin B → Fin n → ℝ) (W : Fin u → Fin n → ℝ) (b : Fin u → ℝ) (old : List ℝ)
    (ho : old.length = B * u) (gw gb : Buf) :
    LinearSt.forward ⟨⟨[u, n], rowMajor W⟩, ⟨[u], List.ofFn b⟩, gw, gb⟩ [⟨B :: rest, rowMajor X⟩] [⟨[B, u], old⟩] =
      .ok (rowMajor fun i k => (∑ j, X i j * W k j) + b k) := by
  have hlen : ((B : Int) :: rest).length ≠ 1 := by
    cases rest with
    | nil => exact absurd rfl hne
    | cons => simp
  have h1 : (((B : Int) :: rest).length != 1) = true := by simpa using hlen
  unfold LinearSt.forward LinearSt.validate
  simp only [idx_zero, List.length_singleton, beq_self_eq_true, Out.check_true, Out.bind_ok, h1]
  simp only [second_eq hs hf hc, dim_zero, dim_one, Out.bind_ok, mat_rowMajor, vec_ofFn, linearForward, transpose_mk,
    mul_mk, setMat_zero _ _ ho, linearAddBias, rowwise_mk]
  simp only [List.length_cons, List.length_nil]
  exact setMat_zero _ _ (by simp)

theorem linear_backward_eq {rest rest' : List Int} (hs : Static rest) (hf : CountFits rest)
    (hc : count rest = n) (x : List ℝ) (W : Fin u → Fin n → ℝ) (b gw gb : Buf) (g : Fin B → Fin u → ℝ)
    (gi : Fin B → Fin n → ℝ) :
    LinearSt.backward ⟨⟨[u, n], rowMajor W⟩, b, gw, gb⟩ ⟨B :: rest, x⟩ ⟨[B, u], rowMajor g⟩ ⟨B :: rest', rowMajor gi⟩ =
      .ok (rowMajor fun i j => gi i j + ∑ k, g i k * W k j) := by
  unfold LinearSt.backward
  simp only [second_eq hs hf hc, dim_zero, dim_one, Out.bind_ok, mat_rowMajor, linearInputGrad, mul_mk, zip_mk]
  exact setMat_zero _ _ (by simp)

theorem linear_update_eq {rest : List Int} (hs : Static rest) (hf : CountFits rest)
    (hc : count rest = n) (X : Fin B → Fin n → ℝ) (w b : Buf) (oldW oldB : List ℝ) (hw : oldW.length = u * n)
    (hb : oldB.length = u) (g : Fin B → Fin u → ℝ) :
    LinearSt.updateGradients ⟨w, b, ⟨[u, n], oldW⟩, ⟨[u], oldB⟩⟩ ⟨B :: rest, rowMajor X⟩ ⟨[B, u], rowMajor g⟩ =
      .ok (rowMajor fun k j => ∑ i, g i k * X i j, List.ofFn fun k => ∑ i, g i k) := by
  unfold LinearSt.updateGradients
  simp only [second_eq hs hf hc, dim_zero, dim_one, Out.bind_ok, mat_rowMajor, linearWeightGrad, transpose_mk, mul_mk,
    setMat_zero _ _ hw, linearBiasGrad, colSum_mk, setVec_ofFn _ _ hb]

/-! ### Activations -/

theorem act_forward_eq (k : Vec → Vec) (f : ℝ → ℝ) (hk : ∀ (m : Nat) (v : Fin m → ℝ), k ⟨m, v⟩ = ⟨m, fun i => f (v i)⟩)
    (s : List Int) (x : Fin n → ℝ) (old : List ℝ) (ho : old.length = n) :
    ActL.forward k [⟨s, List.ofFn x⟩] [⟨s, old⟩] = .ok (List.ofFn fun i => f (x i)) := by
  unfold ActL.forward ActL.validate
  simp only [idx_zero, List.length_singleton, beq_self_eq_true, Out.check_true, Out.bind_ok, List.length_ofFn]
  rw [vec_ofFn, Out.bind_ok, hk, ho, setVec_ofFn _ _ ho]

theorem act_backward_eq (k : Vec → Vec → Vec → Out Vec) (f : ℝ → ℝ → ℝ)
    (hk : ∀ (m : Nat) (x g gi : Fin m → ℝ), k ⟨m, x⟩ ⟨m, g⟩ ⟨m, gi⟩ = .ok ⟨m, fun i => gi i + f (x i) (g i)⟩)
    (s1 s2 s3 : List Int) (x g gi : Fin n → ℝ) :
    ActL.backward k ⟨s1, List.ofFn x⟩ ⟨s2, List.ofFn g⟩ ⟨s3, List.ofFn gi⟩ =
      .ok (List.ofFn fun i => gi i + f (x i) (g i)) := by
  unfold ActL.backward
  simp only [List.length_ofFn]
  rw [vec_ofFn, Out.bind_ok, vec_ofFn, Out.bind_ok, vec_ofFn, Out.bind_ok, hk, Out.bind_ok,
    setVec_ofFn _ _ (by simp)]

theorem act_validate_throws (ins outs : List Buf)
    (h : ¬ ∃ x y, ins = [x] ∧ outs = [y] ∧ x.shape = y.shape) : ActL.validate ins outs = .throw .dw := by
  unfold ActL.validate
  match ins, outs with
  | [], _ => rfl
  | _ :: _ :: _, _ => simp [Out.check]
  | [_], [] => rfl
  | [_], _ :: _ :: _ => simp [Out.check]
  | [x], [y] =>
    have : (x.shape == y.shape) = false := by
      by_contra hc
      simp only [Bool.not_eq_false, beq_iff_eq] at hc
      exact h ⟨x, y, rfl, rfl, hc⟩
    simp [Out.idx, this]

/-! ### Softmax -/

theorem foldl_max_ge (x : ℝ) (xs : List ℝ) : x ≤ xs.foldl max x ∧ (∀ y ∈ xs, y ≤ xs.foldl max x) ∧
    (xs.foldl max x = x ∨ xs.foldl max x ∈ xs) := by
  induction xs generalizing x with
  | nil => simp
  | cons a xs ih =>
    obtain ⟨h1, h2, h3⟩ := ih (max x a)
    simp only [List.foldl_cons, List.mem_cons, forall_eq_or_imp]
    refine ⟨(le_max_left _ _).trans h1, ⟨(le_max_right _ _).trans h1, h2⟩, ?_⟩
    rcases h3 with h3 | h3
    · rcases max_choice x a with h | h
      · left; rw [h3, h]
      · right; left; rw [h3, h]
    · right; right; exact h3

theorem rowMax_spec (X : Fin B → Fin n → ℝ) (hn : 0 < n) : ∃ mx : Fin B → ℝ, rowMax ⟨B, n, X⟩ = .ok ⟨B, mx⟩ ∧
    (∀ i j, X i j ≤ mx i) ∧ ∀ i, ∃ j, mx i = X i j := by
  unfold rowMax
  rw [if_pos (by simp; omega)]
  refine ⟨_, rfl, fun i j => ?_, fun i => ?_⟩
  · have hmem : X i j ∈ List.ofFn (X i) := (List.mem_ofFn' _ _).2 ⟨j, rfl⟩
    simp only
    split
    · next h => rw [h] at hmem; simp at hmem
    · next x xs h =>
      rw [h] at hmem
      obtain ⟨h1, h2, -⟩ := foldl_max_ge x xs
      rcases List.mem_cons.1 hmem with e | e
      · rw [e]; exact h1
      · exact h2 _ e
  · simp only
    split
    · next h =>
      have := congrArg List.length h
      simp at this; omega
    · next x xs h =>
      obtain ⟨-, -, h3⟩ := foldl_max_ge x xs
      have : xs.foldl max x ∈ List.ofFn (X i) := by rw [h]; simpa using h3
      obtain ⟨j, hj⟩ := (List.mem_ofFn' _ _).1 this
      exact ⟨j, hj.symm⟩

theorem softmaxExp_spec (X : Fin B → Fin n → ℝ) (hn : 0 < n) : ∃ mx : Fin B → ℝ,
    softmaxExp ⟨B, n, X⟩ = .ok ⟨B, n, fun i j => Real.exp (X i j - mx i)⟩ ∧ (∀ i j, X i j ≤ mx i) ∧
    ∀ i, ∃ j, mx i = X i j := by
  obtain ⟨mx, e, h⟩ := rowMax_spec X hn
  refine ⟨mx, ?_, h⟩
  unfold softmaxExp
  simp only [e, Out.bind_ok, colwise_mk, map_mk]

theorem softmaxForward_eq (X : Fin B → Fin n → ℝ) (hn : 0 < n) :
    softmaxForward ⟨B, n, X⟩ = .ok ⟨B, n, fun i j => Real.exp (X i j) / ∑ k, Real.exp (X i k)⟩ := by
  obtain ⟨mx, e, -⟩ := softmaxExp_spec X hn
  unfold softmaxForward
  simp only [e, Out.bind_ok, rowSum_mk, colwise_mk]
  congr 2
  funext i j
  have : ∀ k, Real.exp (X i k - mx i) = Real.exp (X i k) * Real.exp (-mx i) := fun k => by
    rw [← Real.exp_add, sub_eq_add_neg]
  simp only [this, ← Finset.sum_mul]
  rw [mul_div_mul_right _ _ (Real.exp_ne_zero _)]

theorem softmax_forward_eq (hn : 0 < n) (X : Fin B → Fin n → ℝ) (old : List ℝ) (ho : old.length = B * n) :
    SoftmaxL.forward [⟨[B, n], rowMajor X⟩] [⟨[B, n], old⟩] =
      .ok (rowMajor fun i j => Real.exp (X i j) / ∑ k, Real.exp (X i k)) := by
  unfold SoftmaxL.forward SoftmaxL.validate
  simp only [idx_zero, List.length_singleton, beq_self_eq_true, Out.check_true, Out.bind_ok, dim_zero, dim_one,
    mat_rowMajor, softmaxForward_eq X hn]
  simp only [List.length_cons, List.length_nil]
  exact setMat_zero _ _ ho

theorem softmax_backward_eq (s g gi : Fin B → Fin n → ℝ) :
    SoftmaxL.backward ⟨[B, n], rowMajor s⟩ ⟨[B, n], rowMajor g⟩ ⟨[B, n], rowMajor gi⟩ =
      .ok (rowMajor fun i j => gi i j + s i j * (g i j - ∑ k, g i k * s i k)) := by
  unfold SoftmaxL.backward
  simp only [dim_zero, dim_one, Out.bind_ok, mat_rowMajor, softmaxInputGrad, zip_mk, rowSum_mk, colwise_mk]
  exact setMat_zero _ _ (by simp)

end DW.LayerL
