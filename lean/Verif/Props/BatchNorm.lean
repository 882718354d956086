import Verif.Lemmas.Norm
/-!
# Batch normalisation (C37-C40, C74)

`rowMajor X` / `flat4 X` are the elements of a tensor holding the matrix / image batch `X`.
-/

set_option autoImplicit false

namespace DW.Props.BatchNormP

open DW.Spec DW.MatL DW.FlatL DW.EigL DW.NormL DW.LayerL DW.LayoutL

noncomputable section

variable {B n : Nat}

/-- A batch normalisation layer with `n` features. `gg`, `gb` and `std` are the contents of the gradient
tensors and of the internal tensor of deviations. -/
def layer (training : Bool) (eps alpha : ℝ) (gamma beta rm rv : Fin n → ℝ) (gg gb std : List ℝ)
    (centered nhwcIn nhwcOut : Buf) : BnSt :=
  { gamma := ⟨[n], List.ofFn gamma⟩, beta := ⟨[n], List.ofFn beta⟩, gradGamma := ⟨[n], gg⟩, gradBeta := ⟨[n], gb⟩,
    std := ⟨[n], std⟩, runMean := ⟨[n], List.ofFn rm⟩, runVar := ⟨[n], List.ofFn rv⟩, centered := centered,
    nhwcIn := nhwcIn, nhwcOut := nhwcOut, gammaTrainable := training, betaTrainable := training,
    eps := eps, alpha := alpha }

/-- A tensor has as many elements as its shape says, unless it was default-constructed (part of the heap
invariant of C05). -/
def Full (b : Buf) : Prop := b.shape ≠ [] → (b.vals.length : Int) = count b.shape

/-- The matrix minus a row. -/
def minusRow (X : Fin B → Fin n → ℝ) (v : Fin n → ℝ) : Fin B → Fin n → ℝ := fun i j => X i j - v j

variable (eps alpha : ℝ) (gamma beta rm rv : Fin n → ℝ) (gg gb std : List ℝ) (centered nin nout : Buf)

theorem centered_ok (junk : Nat → ℝ) (hc : Full centered) (hf : CountFits [(B : Int), n]) :
    ∃ v, v.length = B * n ∧
      renew junk (centered.shape != [(B : Int), n]) centered [(B : Int), n] = .ok ⟨[B, n], v⟩ := by
  unfold renew
  by_cases h : centered.shape = [(B : Int), n]
  · refine ⟨centered.vals, ?_, ?_⟩
    · have := hc (by rw [h]; simp)
      simp only [Full, h, count, List.prod_cons, List.prod_nil, mul_one] at this
      exact_mod_cast this
    · rw [if_neg (by simpa using h), ← h]
  · refine ⟨(List.range (B * n)).map junk, ?_, by rw [if_pos (by simpa using h)]; exact freshBuf_eq junk (by simp [Static]) hf (k := B * n) (by simp [count])⟩
    simp

theorem forward1d_step (training : Bool) (junk : Nat → ℝ) (hc : Full centered) (hf : CountFits [(B : Int), n])
    (hs : std.length = n) (X : Fin B → Fin n → ℝ) (old : List ℝ) (ho : old.length = B * n)
    (out cen : Fin B → Fin n → ℝ) (s m v : Fin n → ℝ)
    (hk : bnForward ⟨B, n, X⟩ ⟨n, rm⟩ ⟨n, rv⟩ training eps alpha ⟨n, gamma⟩ ⟨n, beta⟩ =
      .ok ⟨⟨B, n, out⟩, ⟨B, n, cen⟩, ⟨n, s⟩, ⟨n, m⟩, ⟨n, v⟩⟩) :
    (layer training eps alpha gamma beta rm rv gg gb std centered nin nout).forward1d junk
        [⟨[B, n], rowMajor X⟩] [⟨[B, n], old⟩] =
      .ok (layer training eps alpha gamma beta m v gg gb (List.ofFn s) ⟨[B, n], rowMajor cen⟩ nin nout, rowMajor out) := by
  obtain ⟨w, hw, hcen⟩ := centered_ok centered junk hc hf
  have hv : BnSt.validate 2 [⟨[(B : Int), n], rowMajor X⟩] [⟨[(B : Int), n], old⟩] = .ok () := by
    simp [BnSt.validate, Out.check, Out.idx]
  unfold BnSt.forward1d
  rw [hv]
  simp only [Out.bind_ok, Out.idx, List.getElem?_cons_zero, layer]
  rw [hcen]
  simp only [Out.bind_ok, BEq.rfl, Out.check, if_true, dim, Out.idx, List.getElem?_cons_zero, List.getElem?_cons_succ,
    Bool.and_self]
  rw [mat_rowMajor, vec_ofFn, vec_ofFn, vec_ofFn, vec_ofFn]
  simp only [Out.bind_ok, hk]
  rw [setMat_zero w cen hw, setVec_ofFn std s hs, setVec_ofFn _ m (by simp), setVec_ofFn _ v (by simp),
    setMat_zero old out ho]
  simp only [Out.bind_ok, Buf.put]

/-! ## C37 -/

/-- **C37**: in training mode `BatchNorm1D` stores `gamma * (x - mean) / sqrt(var + eps) + beta` with the
statistics of the batch, and moves the running statistics by `1 - alpha` towards them. Nothing depends on
what the output, the internal tensors or fresh memory held. -/
theorem batchNorm1d_train (junk : Nat → ℝ) (hc : Full centered) (hf : CountFits [(B : Int), n])
    (hs : std.length = n) (X : Fin B → Fin n → ℝ) (old : List ℝ) (ho : old.length = B * n) :
    (layer true eps alpha gamma beta rm rv gg gb std centered nin nout).forward1d junk
        [⟨[B, n], rowMajor X⟩] [⟨[B, n], old⟩] =
      .ok (layer true eps alpha gamma beta
            (fun j => rm j * alpha + (mean fun i => X i j) * (1 - alpha))
            (fun j => rv j * alpha + (variance fun i => X i j) * (1 - alpha)) gg gb
            (List.ofFn fun j => Real.sqrt ((variance fun i => X i j) + eps))
            ⟨[B, n], rowMajor (minusRow X fun j => mean fun i => X i j)⟩ nin nout,
          rowMajor (batchNorm eps gamma beta X)) :=
  forward1d_step eps alpha gamma beta rm rv gg gb std centered nin nout true junk hc hf hs X old ho _ _ _ _ _
    (bnForward_train (Equiv.refl _) X rm rv gamma beta eps alpha)

/-- **C37**: each normalised column has mean 0. -/
theorem normalised_mean (X : Fin B → Fin n → ℝ) (j : Fin n) :
    (mean fun i => batchNorm eps (fun _ => 1) (fun _ => 0) X i j) = 0 := by
  rcases Nat.eq_zero_or_pos B with rfl | hB
  · simp [mean]
  have hB' : (B : ℝ) ≠ 0 := by exact_mod_cast hB.ne'
  simp only [batchNorm, normalise, one_mul, add_zero, div_eq_mul_inv]
  generalize (Real.sqrt ((variance fun i => X i j) + eps))⁻¹ = r
  simp only [mean, Fintype.card_fin, ← Finset.sum_mul, Finset.sum_sub_distrib, Finset.sum_const, Finset.card_univ,
    nsmul_eq_mul]
  field_simp
  ring

/-- **C37**: the mean square of each normalised column is `var / (var + eps)`. -/
theorem normalised_meanSq (heps : 0 < eps) (X : Fin B → Fin n → ℝ) (j : Fin n) :
    (mean fun i => batchNorm eps (fun _ => 1) (fun _ => 0) X i j ^ 2) =
      (variance fun i => X i j) / ((variance fun i => X i j) + eps) := by
  have hpos : 0 ≤ (variance fun i => X i j) + eps := by
    have := variance_nonneg fun i => X i j; linarith
  simp only [batchNorm, normalise, one_mul, add_zero, div_pow, Real.sq_sqrt hpos]
  generalize hD : (variance fun i => X i j) + eps = D
  rw [variance]
  simp only [mean, div_eq_mul_inv, ← Finset.sum_mul]
  ring

/-- The exponential average of the means of a sequence of batches of any sizes. -/
def runningMean (alpha : ℝ) (start : Fin n → ℝ) : List ((B : Nat) × (Fin B → Fin n → ℝ)) → Fin n → ℝ
  | [], j => start j
  | b :: bs, j => runningMean alpha (fun j => start j * alpha + (mean fun i => b.2 i j) * (1 - alpha)) bs j

/-- The same for the variances. -/
def runningVar (alpha : ℝ) (start : Fin n → ℝ) : List ((B : Nat) × (Fin B → Fin n → ℝ)) → Fin n → ℝ
  | [], j => start j
  | b :: bs, j => runningVar alpha (fun j => start j * alpha + (variance fun i => b.2 i j) * (1 - alpha)) bs j

/-- Calls of `forward` on a sequence of batches; `out` is the old contents of each output. -/
def train1d (junk : Nat → ℝ) (out : Nat → List ℝ) (st : BnSt) :
    List ((B : Nat) × (Fin B → Fin n → ℝ)) → Out BnSt
  | [] => .ok st
  | b :: bs => do
    let r ← st.forward1d junk [⟨[b.1, n], rowMajor b.2⟩] [⟨[b.1, n], out b.1⟩]
    train1d junk out r.1 bs

/-- **C37**: training on a sequence of batches leaves in the running statistics the exponential averages
of the batch statistics. -/
theorem batchNorm1d_history (junk : Nat → ℝ) (out : Nat → List ℝ) (hout : ∀ B, (out B).length = B * n)
    (bs : List ((B : Nat) × (Fin B → Fin n → ℝ))) (hf : ∀ b ∈ bs, CountFits [(b.1 : Int), n])
    (hc : Full centered) (hs : std.length = n) :
    ∃ std' centered', Full centered' ∧ std'.length = n ∧
      train1d junk out (layer true eps alpha gamma beta rm rv gg gb std centered nin nout) bs =
        .ok (layer true eps alpha gamma beta (runningMean alpha rm bs) (runningVar alpha rv bs) gg gb std' centered'
          nin nout) := by
  induction bs generalizing rm rv std centered with
  | nil => exact ⟨std, centered, hc, hs, rfl⟩
  | cons b bs ih =>
    obtain ⟨B, X⟩ := b
    obtain ⟨s', c', h1, h2, h3⟩ := ih
      (fun j => rm j * alpha + (mean fun i => X i j) * (1 - alpha))
      (fun j => rv j * alpha + (variance fun i => X i j) * (1 - alpha))
      (List.ofFn fun j => Real.sqrt ((variance fun i => X i j) + eps))
      ⟨[B, n], rowMajor (minusRow X fun j => mean fun i => X i j)⟩
      (fun b hb => hf b (List.mem_cons_of_mem _ hb)) (by simp [Full, count]) (by simp)
    refine ⟨s', c', h1, h2, ?_⟩
    rw [train1d, batchNorm1d_train eps alpha gamma beta rm rv gg gb std centered nin nout junk hc
      (hf ⟨B, X⟩ List.mem_cons_self) hs X (out B) (hout B)]
    simp only [Out.bind_ok, h3]
    rfl

/-- A layer as the model creates it, on a batch of three samples with two features. -/
example (X : Fin 3 → Fin 2 → ℝ) (gamma beta : Fin 2 → ℝ) :
    ∃ st, (layer true (1 / 100) (1 / 10) gamma beta (fun _ => 0) (fun _ => 1) [0, 0] [0, 0] [0, 0] ⟨[], []⟩ ⟨[], []⟩
      ⟨[], []⟩).forward1d (fun _ => 7) [⟨[3, 2], rowMajor X⟩] [⟨[3, 2], [0, 0, 0, 0, 0, 0]⟩] =
        .ok (st, rowMajor (batchNorm (1 / 100) gamma beta X)) := by
  refine ⟨_, batchNorm1d_train (B := 3) (n := 2) (1 / 100) (1 / 10) gamma beta _ _ [0, 0] [0, 0] [0, 0] ⟨[], []⟩ _ _
    (fun _ => 7) ?_ ?_ rfl X _ rfl⟩
  · simp [Full]
  · intro k; rcases k with _ | _ | k <;> simp

/-! ## C38 -/

/-- **C38**: in evaluation mode `BatchNorm1D` applies a fixed affine map given by the running statistics,
and leaves them unchanged. -/
theorem batchNorm1d_eval (junk : Nat → ℝ) (hc : Full centered) (hf : CountFits [(B : Int), n])
    (hs : std.length = n) (X : Fin B → Fin n → ℝ) (old : List ℝ) (ho : old.length = B * n) :
    (layer false eps alpha gamma beta rm rv gg gb std centered nin nout).forward1d junk
        [⟨[B, n], rowMajor X⟩] [⟨[B, n], old⟩] =
      .ok (layer false eps alpha gamma beta rm rv gg gb (List.ofFn fun j => Real.sqrt (rv j + eps))
            ⟨[B, n], rowMajor (minusRow X rm)⟩ nin nout,
          rowMajor fun i j => normalise (rm j) (rv j) eps (gamma j) (beta j) (X i j)) :=
  forward1d_step eps alpha gamma beta rm rv gg gb std centered nin nout false junk hc hf hs X old ho _ _ _ _ _
    (bnForward_eval X rm rv gamma beta eps alpha)

/-- Switching a layer to evaluation mode (`Model::train(false)`). -/
def evalMode (st : BnSt) : BnSt := { st with gammaTrainable := false, betaTrainable := false }

/-- **C38**: after training on any sequence of batches, evaluation uses the exponential averages; the output
for a sample depends on that sample only. -/
theorem batchNorm1d_train_then_eval (junk : Nat → ℝ) (out : Nat → List ℝ) (hout : ∀ B, (out B).length = B * n)
    (bs : List ((B : Nat) × (Fin B → Fin n → ℝ))) (hf : ∀ b ∈ bs, CountFits [(b.1 : Int), n])
    (hc : Full centered) (hs : std.length = n) (X : Fin B → Fin n → ℝ) (hX : CountFits [(B : Int), n]) :
    ∃ st st', train1d junk out (layer true eps alpha gamma beta rm rv gg gb std centered nin nout) bs = .ok st ∧
      (evalMode st).forward1d junk [⟨[B, n], rowMajor X⟩] [⟨[B, n], out B⟩] =
        .ok (st', rowMajor fun i j =>
          normalise (runningMean alpha rm bs j) (runningVar alpha rv bs j) eps (gamma j) (beta j) (X i j)) ∧
      st'.runMean = st.runMean ∧ st'.runVar = st.runVar := by
  obtain ⟨std', centered', h1, h2, h3⟩ := batchNorm1d_history eps alpha gamma beta rm rv gg gb std centered nin nout
    junk out hout bs hf hc hs
  refine ⟨_, _, h3, batchNorm1d_eval eps alpha gamma beta (runningMean alpha rm bs) (runningVar alpha rv bs) gg gb
    std' centered' nin nout junk h1 hX h2 X (out B) (hout B), rfl, rfl⟩

/-- Two training batches of sizes 3 and 1, then evaluation of two samples. -/
example (X : Fin 3 → Fin 2 → ℝ) (Y : Fin 1 → Fin 2 → ℝ) (Z : Fin 2 → Fin 2 → ℝ) (gamma beta : Fin 2 → ℝ) :
    ∃ st, train1d (n := 2) (fun _ => 7) (fun B => List.replicate (B * 2) 0)
      (layer true (1 / 100) (1 / 10) gamma beta (fun _ => 0) (fun _ => 1) [0, 0] [0, 0] [0, 0] ⟨[], []⟩ ⟨[], []⟩
      ⟨[], []⟩) [⟨3, X⟩, ⟨1, Y⟩] = .ok st := by
  obtain ⟨st, -, h, -⟩ := batchNorm1d_train_then_eval (B := 2) (1 / 100) (1 / 10) gamma beta (fun _ => 0) (fun _ => 1)
    [0, 0] [0, 0] [0, 0] ⟨[], []⟩ ⟨[], []⟩ ⟨[], []⟩ (fun _ => 7) (fun B => List.replicate (B * 2) 0) (by simp)
    [⟨3, X⟩, ⟨1, Y⟩] (fun b hb k => by
      simp only [List.mem_cons, List.not_mem_nil, or_false] at hb
      rcases hb with rfl | rfl <;> rcases k with _ | _ | k <;> simp) (by simp [Full]) rfl Z
    (fun k => by rcases k with _ | _ | k <;> simp)
  exact ⟨st, h⟩

/-! ## C39 -/

theorem backward1d_step (training : Bool) (c : Fin B → Fin n → ℝ) (s : Fin n → ℝ) (g old : Fin B → Fin n → ℝ) :
    (layer training eps alpha gamma beta rm rv gg gb (List.ofFn s) ⟨[B, n], rowMajor c⟩ nin nout).backward1d
        ⟨[B, n], rowMajor g⟩ ⟨[B, n], rowMajor old⟩ =
      .ok (rowMajor fun i j => old i j + bnGrad c s gamma g i j) := by
  unfold BnSt.backward1d
  simp only [layer, dim, Out.idx, List.getElem?_cons_zero, List.getElem?_cons_succ, Out.bind_ok]
  rw [mat_rowMajor, vec_ofFn, mat_rowMajor, mat_rowMajor, vec_ofFn]
  simp only [Out.bind_ok]
  have := bnInputGrad_eq (Equiv.refl (Fin B)) c s gamma g old
  simp only [Equiv.refl_apply] at this
  rw [this, Out.bind_ok, setMat_zero _ _ (by simp)]

theorem update1d_step (training : Bool) (hg : gg.length = n) (hb : gb.length = n) (c : Fin B → Fin n → ℝ)
    (s : Fin n → ℝ) (g : Fin B → Fin n → ℝ) :
    (layer training eps alpha gamma beta rm rv gg gb (List.ofFn s) ⟨[B, n], rowMajor c⟩ nin nout).updateGradients1d
        ⟨[B, n], rowMajor g⟩ =
      .ok (layer training eps alpha gamma beta rm rv (List.ofFn fun j => ∑ i, c i j / s j * g i j)
        (List.ofFn fun j => ∑ i, g i j) (List.ofFn s) ⟨[B, n], rowMajor c⟩ nin nout) := by
  unfold BnSt.updateGradients1d
  simp only [layer, dim, Out.idx, List.getElem?_cons_zero, List.getElem?_cons_succ, Out.bind_ok]
  rw [mat_rowMajor, vec_ofFn, mat_rowMajor]
  simp only [Out.bind_ok]
  have := bnParamGrad_eq (Equiv.refl (Fin B)) c s g
  simp only [Equiv.refl_apply] at this
  rw [this, Out.bind_ok, setVec_ofFn _ _ hb, Out.bind_ok, setVec_ofFn _ _ hg]
  rfl

/-- **C39**: after a training-mode `forward` of `BatchNorm1D` on `x`, `backward` adds the gradient of the
normalisation with respect to the input, including the dependence of mean and variance on it. -/
theorem batchNorm1d_backward (heps : 0 < eps) (junk : Nat → ℝ) (hc : Full centered)
    (hf : CountFits [(B : Int), n]) (hs : std.length = n) (x : Fin B × Fin n → ℝ) (old : List ℝ)
    (ho : old.length = B * n) :
    ∃ bwd, Backprop (fun y => Function.uncurry (batchNorm eps gamma beta (Function.curry y))) x bwd ∧
      ∃ st out, (layer true eps alpha gamma beta rm rv gg gb std centered nin nout).forward1d junk
          [⟨[B, n], rowMajor (Function.curry x)⟩] [⟨[B, n], old⟩] = .ok (st, out) ∧
        ∀ (g : Fin B × Fin n → ℝ) (old : Fin B → Fin n → ℝ),
          st.backward1d ⟨[B, n], rowMajor (Function.curry g)⟩ ⟨[B, n], rowMajor old⟩ =
            .ok (rowMajor fun i j => old i j + bwd g (i, j)) :=
  ⟨_, batchNorm_backprop eps gamma beta heps x, _, _,
    batchNorm1d_train eps alpha gamma beta rm rv gg gb std centered nin nout junk hc hf hs _ old ho,
    fun g old => backward1d_step eps alpha gamma beta _ _ gg gb nin nout true _ _ (Function.curry g) old⟩

/-- **C39**: and `updateGradients` stores the gradients with respect to gamma and beta, whatever the
gradient tensors held. -/
theorem batchNorm1d_updateGradients (junk : Nat → ℝ) (hc : Full centered) (hf : CountFits [(B : Int), n])
    (hs : std.length = n) (hg : gg.length = n) (hb : gb.length = n) (X : Fin B → Fin n → ℝ) (old : List ℝ)
    (ho : old.length = B * n) :
    ∃ bg bb, Backprop (fun y => Function.uncurry (batchNorm eps y beta X)) gamma bg ∧
      Backprop (fun y => Function.uncurry (batchNorm eps gamma y X)) beta bb ∧
      ∃ st out, (layer true eps alpha gamma beta rm rv gg gb std centered nin nout).forward1d junk
          [⟨[B, n], rowMajor X⟩] [⟨[B, n], old⟩] = .ok (st, out) ∧
        ∀ g : Fin B × Fin n → ℝ, st.updateGradients1d ⟨[B, n], rowMajor (Function.curry g)⟩ =
          .ok { st with gradGamma := ⟨[n], List.ofFn (bg g)⟩, gradBeta := ⟨[n], List.ofFn (bb g)⟩ } :=
  ⟨_, _, batchNorm_backprop_gamma eps X gamma beta, batchNorm_backprop_beta eps X gamma beta, _, _,
    batchNorm1d_train eps alpha gamma beta rm rv gg gb std centered nin nout junk hc hf hs _ old ho,
    fun g => update1d_step eps alpha gamma beta _ _ gg gb nin nout true hg hb _ _ (Function.curry g)⟩

/-! ## C74 -/

/-- The full property: after an evaluation-mode `forward`, `backward` adds the gradient of the
evaluation-mode map. -/
def EvalGradient : Prop := ∀ (B n : Nat) (eps alpha : ℝ) (gamma beta rm rv : Fin n → ℝ), 0 < eps → (∀ j, 0 ≤ rv j) →
  ∀ (x : Fin B × Fin n → ℝ) (st : BnSt) (out : List ℝ),
    (layer false eps alpha gamma beta rm rv [] [] (List.replicate n 0) ⟨[], []⟩ ⟨[], []⟩ ⟨[], []⟩).forward1d (fun _ => 0)
      [⟨[B, n], rowMajor (Function.curry x)⟩] [⟨[B, n], List.replicate (B * n) 0⟩] = .ok (st, out) →
    ∃ bwd, Backprop (fun (y : Fin B × Fin n → ℝ) p => normalise (rm p.2) (rv p.2) eps (gamma p.2) (beta p.2) (y p)) x bwd ∧
      ∀ (g : Fin B × Fin n → ℝ) (old : Fin B → Fin n → ℝ),
        st.backward1d ⟨[B, n], rowMajor (Function.curry g)⟩ ⟨[B, n], rowMajor old⟩ =
          .ok (rowMajor fun i j => old i j + bwd g (i, j))

/-- **C74** is false: for a single sample in evaluation mode the derivative is `gamma / sqrt(var + eps)`, and
`backward` adds 0. -/
theorem eval_gradient_refuted : ¬ EvalGradient := by
  intro h
  have hf : CountFits [((1 : Nat) : Int), ((1 : Nat) : Int)] := fun k => by rcases k with _ | _ | k <;> simp
  have hfwd := batchNorm1d_eval (B := 1) (n := 1) 1 0 (fun _ => 1) (fun _ => 0) (fun _ => 0) (fun _ => 0) [] []
    (List.replicate 1 0) ⟨[], []⟩ ⟨[], []⟩ ⟨[], []⟩ (fun _ => 0) (by simp [Full]) hf rfl
    (Function.curry fun _ => (0 : ℝ)) (List.replicate 1 0) rfl
  obtain ⟨bwd, hb, he⟩ := h 1 1 1 0 (fun _ => 1) (fun _ => 0) (fun _ => 0) (fun _ => 0) one_pos (fun _ => le_refl _)
    (fun _ => 0) _ _ hfwd
  have h1 := (he (fun _ => 1) fun _ _ => 0).symm.trans
    (backward1d_step (B := 1) (n := 1) 1 0 (fun _ => 1) (fun _ => 0) (fun _ => 0) (fun _ => 0) [] [] ⟨[], []⟩ ⟨[], []⟩
      false _ _ (Function.curry fun _ => 1) fun _ _ => 0)
  have h2 := congrFun (congrFun (rowMajor_inj (Out.ok.inj h1)) 0) 0
  have h3 : Backprop (fun (y : Fin 1 × Fin 1 → ℝ) (p : Fin 1 × Fin 1) => normalise 0 0 1 1 0 (y p)) (fun _ => 0)
      (fun g => g) := by
    refine DerivL.backprop_affine (fun y => y) 0 (by simp) (by simp) (fun y k => ?_) (by simp)
    simp [normalise]
  rw [MatL.backprop_unique hb h3] at h2
  simp [bnGrad, gxc] at h2

/-- **C74** (partial): the gradients of gamma and beta are those of the evaluation-mode map; the input
gradient is not. -/
theorem eval_gradient_partial (junk : Nat → ℝ) (hc : Full centered) (hf : CountFits [(B : Int), n])
    (hs : std.length = n) (hg : gg.length = n) (hb : gb.length = n) (X : Fin B → Fin n → ℝ) (old : List ℝ)
    (ho : old.length = B * n) :
    ∃ bg bb,
      Backprop (fun (y : Fin n → ℝ) (p : Fin B × Fin n) =>
        normalise (rm p.2) (rv p.2) eps (y p.2) (beta p.2) (X p.1 p.2)) gamma bg ∧
      Backprop (fun (y : Fin n → ℝ) (p : Fin B × Fin n) =>
        normalise (rm p.2) (rv p.2) eps (gamma p.2) (y p.2) (X p.1 p.2)) beta bb ∧
      ∃ st out, (layer false eps alpha gamma beta rm rv gg gb std centered nin nout).forward1d junk
          [⟨[B, n], rowMajor X⟩] [⟨[B, n], old⟩] = .ok (st, out) ∧
        ∀ g : Fin B × Fin n → ℝ, st.updateGradients1d ⟨[B, n], rowMajor (Function.curry g)⟩ =
          .ok { st with gradGamma := ⟨[n], List.ofFn (bg g)⟩, gradBeta := ⟨[n], List.ofFn (bb g)⟩ } := by
  refine ⟨fun g j => ∑ i, minusRow X rm i j / Real.sqrt (rv j + eps) * g (i, j), fun g j => ∑ i, g (i, j), ?_, ?_, _, _,
    batchNorm1d_eval eps alpha gamma beta rm rv gg gb std centered nin nout junk hc hf hs X old ho,
    fun g => update1d_step eps alpha gamma beta _ _ gg gb nin nout false hg hb _ _ (Function.curry g)⟩
  · refine DerivL.backprop_affine (fun y p => y p.2 * ((X p.1 p.2 - rm p.2) / Real.sqrt (rv p.2 + eps)))
      (fun p => beta p.2) (fun y z p => ?_) (fun a y p => ?_) (fun y p => rfl) (fun g v => ?_)
    · simp only [Pi.add_apply]; ring
    · simp only [Pi.smul_apply, smul_eq_mul]; ring
    · rw [Fintype.sum_prod_type_right]
      refine Finset.sum_congr rfl fun j _ => ?_
      rw [Finset.sum_mul]
      refine Finset.sum_congr rfl fun i _ => ?_
      simp only [minusRow]; ring
  · refine DerivL.backprop_affine (fun y p => y p.2) (fun p => gamma p.2 * ((X p.1 p.2 - rm p.2) /
      Real.sqrt (rv p.2 + eps))) (fun y z p => ?_) (fun a y p => ?_) (fun y p => ?_) (fun g v => ?_)
    · simp only [Pi.add_apply]
    · simp only [Pi.smul_apply, smul_eq_mul]
    · simp only [normalise]; ring
    · rw [Fintype.sum_prod_type_right]
      refine Finset.sum_congr rfl fun j _ => ?_
      rw [Finset.sum_mul]

/-- **C90**: a layer of which exactly one of `gamma` and `beta` is trainable refuses to run: whatever else the layer holds, its
forward pass throws, and there is no new state of the layer or of the output. -/
theorem batchNorm1d_flags_differ (st : BnSt) (junk : Nat → ℝ) (h : st.gammaTrainable ≠ st.betaTrainable) (hc : Full st.centered)
    (hf : CountFits [(B : Int), n]) (X : Fin B → Fin n → ℝ) (old : List ℝ) :
    st.forward1d junk [⟨[B, n], rowMajor X⟩] [⟨[B, n], old⟩] = .throw .dw := by
  obtain ⟨w, -, hcen⟩ := centered_ok st.centered junk hc hf
  have hv : BnSt.validate 2 [⟨[(B : Int), n], rowMajor X⟩] [⟨[(B : Int), n], old⟩] = .ok () := by
    simp [BnSt.validate, Out.check, Out.idx]
  unfold BnSt.forward1d
  rw [hv]
  simp only [Out.bind_ok, Out.idx, List.getElem?_cons_zero]
  rw [hcen]
  simp only [Out.bind_ok, beq_eq_false_iff_ne.2 h, Out.check, Bool.false_eq_true, if_false]
  rfl

example : ∃ st : BnSt, st.gammaTrainable ≠ st.betaTrainable ∧ Full st.centered ∧ CountFits [((2 : Nat) : Int), ((2 : Nat) : Int)] :=
  ⟨{ layer true 1 0 (fun _ : Fin 2 => 1) (fun _ => 0) (fun _ => 0) (fun _ => 1) [0, 0] [0, 0] [0, 0] ⟨[], []⟩ ⟨[], []⟩ ⟨[], []⟩ with
      betaTrainable := false }, by simp [layer], by simp [Full, layer], fun k => by rcases k with _ | _ | k <;> simp⟩

end

end DW.Props.BatchNormP
