import Verif.Props.Contracts
import Verif.Props.BatchNorm2d
/-! # Contracts of the batch normalisation layers -/

set_option autoImplicit false

namespace DW.Props.ContractP

open DW DW.Spec DW.ContractL DW.MatL DW.FlatL DW.DerivL DW.LayerL DW.NormL DW.LayoutL DW.Props.BatchNormP

noncomputable section

theorem ofFn_gamma_beta {n : Nat} (t : Fin (n + n) → ℝ) : List.ofFn t = List.ofFn (gammaOf t) ++ List.ofFn (betaOf t) := by
  have h1 := ofFn_sum (P := n + n) rfl fun p => t ((sumE rfl).symm p)
  simp only [Equiv.symm_apply_apply] at h1
  exact h1

/-- `BatchNorm1D` in training mode (`stat` anything) or evaluation mode (`stat` fixes the running statistics): `out` is
computed by the layer, `cen` and `sd` are the centred input and the deviations it keeps. -/
def norm1d {B n : Nat} (training : Bool) (eps alpha : ℝ) (hf : CountFits [(B : Int), n])
    (stat : (Fin n → ℝ) → (Fin n → ℝ) → Prop) (cen : (Fin B → Fin n → ℝ) → Fin B → Fin n → ℝ) (sd : (Fin B → Fin n → ℝ) → Fin n → ℝ)
    (out : (Fin n → ℝ) → (Fin n → ℝ) → (Fin B → Fin n → ℝ) → Fin B → Fin n → ℝ)
    (hfwd : ∀ (junk : Nat → ℝ) (gamma beta rm rv : Fin n → ℝ) (gg gb std : List ℝ) (centered nin nout : Buf)
      (X : Fin B → Fin n → ℝ) (old : List ℝ), stat rm rv → Full centered → std.length = n → old.length = B * n →
      ∃ rm' rv', stat rm' rv' ∧ (layer training eps alpha gamma beta rm rv gg gb std centered nin nout).forward1d junk
          [⟨[B, n], rowMajor X⟩] [⟨[B, n], old⟩] =
        .ok (layer training eps alpha gamma beta rm' rv' gg gb (List.ofFn (sd X)) ⟨[B, n], rowMajor (cen X)⟩ nin nout,
          rowMajor (out gamma beta X)))
    (θ : Fin (n + n) → ℝ) :
    Single [(B : Int), n] [(B : Int), n] (n + n)
      (fun t x => elems (matE (size_mat B n)) (Function.uncurry (out (gammaOf t) (betaOf t)
        (Function.curry (arr (matE (size_mat B n)) x))))) θ where
  Ready l := ∃ rm rv gg gb std centered nin nout,
    l = .batchNorm1D (layer training eps alpha (gammaOf θ) (betaOf θ) rm rv gg gb std centered nin nout) ∧
    stat rm rv ∧ Full centered ∧ std.length = n ∧ gg.length = n ∧ gb.length = n
  After x bk pk l :=
    let X := Function.curry (arr (matE (size_mat B n)) x)
    (∃ rm rv gg gb nin nout,
      l = .batchNorm1D (layer training eps alpha (gammaOf θ) (betaOf θ) rm rv gg gb (List.ofFn (sd X)) ⟨[B, n], rowMajor (cen X)⟩ nin nout) ∧
      stat rm rv ∧ gg.length = n ∧ gb.length = n) ∧
    (bk = fun g => elems (matE (size_mat B n)) (Function.uncurry (bnGrad (cen X) (sd X) (gammaOf θ)
      (Function.curry (arr (matE (size_mat B n)) g))))) ∧
    pk = fun g k => Sum.elim (fun j => ∑ i, cen X i j / sd X j * arr (matE (size_mat B n)) g (i, j))
      (fun j => ∑ i, arr (matE (size_mat B n)) g (i, j)) (sumE rfl k)
  params := by
    rintro l ⟨rm, rv, gg, gb, std, centered, nin, nout, rfl, -⟩
    rw [ofFn_gamma_beta]
    rfl
  ready := by
    rintro x bk pk l ⟨⟨rm, rv, gg, gb, nin, nout, rfl, hst, hg, hb⟩, -, -⟩
    exact ⟨rm, rv, gg, gb, _, _, nin, nout, rfl, hst, by simp [Full, count], by simp, hg, hb⟩
  det := fun h h' => ⟨h.2.1.trans h'.2.1.symm, h.2.2.trans h'.2.2.symm⟩
  regradReady := by
    rintro l ⟨rm, rv, gg, gb, std, centered, nin, nout, rfl, h1, h2, h3, hg, hb⟩ v hv
    simp only [Cpu.grads, layer, List.length_append, hg, hb] at hv
    exact ⟨rm, rv, v.take gg.length, v.drop gg.length, std, centered, nin, nout, rfl, h1, h2, h3, by simp [hg, hv], by simp [hg, hv]⟩
  regrad := by
    rintro x bk pk l ⟨⟨rm, rv, gg, gb, nin, nout, rfl, h1, hg, hb⟩, h⟩ v hv
    simp only [Cpu.grads, layer, List.length_append, hg, hb] at hv
    exact ⟨⟨rm, rv, v.take gg.length, v.drop gg.length, nin, nout, rfl, h1, by simp [hg, hv], by simp [hg, hv]⟩, h⟩
  forward := by
    rintro ev l - ⟨rm, rv, gg, gb, std, centered, nin, nout, rfl, hst, hF, hs, hg, hb⟩ x old ho
    obtain ⟨rm', rv', hst', h⟩ := hfwd ev.junk (gammaOf θ) (betaOf θ) rm rv gg gb std centered nin nout
      (Function.curry (arr (matE (size_mat B n)) x)) old hst hF hs (by rw [ho, size_mat])
    refine ⟨_, _, _, ?_, ⟨rm', rv', gg, gb, nin, nout, rfl, hst', hg, hb⟩, rfl, rfl⟩
    rw [ofFn_arr (size_mat B n) x]
    simp only [Cpu.forward, h, Out.bind_ok]
    rw [ofFn_elems]
  update := by
    rintro x bk pk l ⟨⟨rm, rv, gg, gb, nin, nout, rfl, hst, hg, hb⟩, rfl, rfl⟩ g
    have h := update1d_step eps alpha (gammaOf θ) (betaOf θ) rm rv gg gb nin nout training hg hb
      (cen (Function.curry (arr (matE (size_mat B n)) x))) (sd (Function.curry (arr (matE (size_mat B n)) x)))
      (Function.curry (arr (matE (size_mat B n)) g))
    refine ⟨_, ?_, ⟨⟨rm, rv, List.ofFn fun j => ∑ i, cen (Function.curry (arr (matE (size_mat B n)) x)) i j /
      sd (Function.curry (arr (matE (size_mat B n)) x)) j * Function.curry (arr (matE (size_mat B n)) g) i j,
      List.ofFn fun j => ∑ i, Function.curry (arr (matE (size_mat B n)) g) i j, nin, nout, rfl, hst, by simp, by simp⟩, rfl, rfl⟩, ?_⟩
    · simp only [Cpu.updateGradients, Out.idx, List.getElem?_cons_zero, Out.bind_ok]
      rw [ofFn_arr (size_mat B n) g, h, Out.bind_ok]
    · rw [ofFn_sum (P := n + n) rfl]
      rfl
  backward := by
    rintro ev x bk pk l ⟨⟨rm, rv, gg, gb, nin, nout, rfl, hst, hg, hb⟩, rfl, rfl⟩ g store i A hA
    refine ⟨_, A, False.elim, fun _ => rfl, writeFront_eq hA ?_, ⟨⟨rm, rv, gg, gb, nin, nout, rfl, hst, hg, hb⟩, rfl, rfl⟩, rfl⟩
    simp only [Out.idx, List.getElem?_cons_zero, Out.bind_ok]
    rw [ofFn_arr (size_mat B n) g, ofFn_arr (size_mat B n) A,
      backward1d_step eps alpha (gammaOf θ) (betaOf θ) rm rv gg gb nin nout training, Out.bind_ok, ofFn_add]
    rfl

/-- Running variances stay non-negative. -/
theorem running_nonneg {ι : Type} [Fintype ι] {n : Nat} {keep : Prop} {alpha : ℝ} (hk : keep → 0 ≤ alpha ∧ alpha ≤ 1)
    {rv : Fin n → ℝ} (h : keep → ∀ j, 0 ≤ rv j) (X : ι → Fin n → ℝ) :
    keep → ∀ j, 0 ≤ rv j * alpha + (variance fun i => X i j) * (1 - alpha) := fun hp j =>
  add_nonneg (mul_nonneg (h hp j) (hk hp).1) (mul_nonneg (variance_nonneg _) (sub_nonneg.2 (hk hp).2))

/-- **C37, C39**: `BatchNorm1D` in training mode. If `keep`, the running variances are non-negative. -/
def batchNorm1dK {B n : Nat} (eps alpha : ℝ) (keep : Prop) (hk : keep → 0 ≤ alpha ∧ alpha ≤ 1) (hf : CountFits [(B : Int), n]) (θ : Fin (n + n) → ℝ) :
    Single [(B : Int), n] [(B : Int), n] (n + n) (batchNormFn (size_mat B n) eps) θ :=
  norm1d true eps alpha hf (fun _ rv => keep → ∀ j, 0 ≤ rv j) (fun X => minusRow X fun j => mean fun i => X i j)
    (fun X j => Real.sqrt ((variance fun i => X i j) + eps)) (fun gamma beta X => batchNorm eps gamma beta X)
    (fun junk gamma beta rm rv gg gb std centered nin nout X old hst hF hs ho => ⟨_, _, running_nonneg hk hst X,
      batchNorm1d_train eps alpha gamma beta rm rv gg gb std centered nin nout junk hF hf hs X old ho⟩) θ

theorem norm_param_backprop {ι κ : Type} [Fintype ι] [Fintype κ] {n : Nat} {o : Shape} (F : Fin (size o) ≃ κ) (E : ι × Fin n ≃ κ)
    (q : ι → Fin n → ℝ) (θ : Fin (n + n) → ℝ) :
    Backprop (fun t => elems (s := o) F fun p => gammaOf t (E.symm p).2 * q (E.symm p).1 (E.symm p).2 + betaOf t (E.symm p).2) θ
      fun g k => Sum.elim (fun j => ∑ i, q i j * arr F g (E (i, j))) (fun j => ∑ i, arr F g (E (i, j))) (sumE rfl k) := by
  refine backprop_param (sumE rfl) F (f := fun (y : Fin n ⊕ Fin n → ℝ) p =>
    y (.inl (E.symm p).2) * q (E.symm p).1 (E.symm p).2 + y (.inr (E.symm p).2))
    (bwd := fun g => Sum.elim (fun j => ∑ i, q i j * g (E (i, j))) (fun j => ∑ i, g (E (i, j)))) ?_
  refine backprop_sum (c := 0) (f1 := fun y p => y (E.symm p).2 * q (E.symm p).1 (E.symm p).2)
    (f2 := fun y p => y (E.symm p).2) (fun y k => by simp) ?_ ?_
  · refine backprop_affine (fun y p => y (E.symm p).2 * q (E.symm p).1 (E.symm p).2) 0 (fun y z p => ?_) (fun a y p => ?_)
      (by simp) fun g v => ?_
    · simp only [Pi.add_apply]; ring
    · simp only [Pi.smul_apply, smul_eq_mul]; ring
    · rw [← Equiv.sum_comp E, Fintype.sum_prod_type_right]
      refine Finset.sum_congr rfl fun j _ => ?_
      rw [Finset.sum_mul]
      refine Finset.sum_congr rfl fun i _ => ?_
      simp only [Equiv.symm_apply_apply]; ring
  · refine backprop_affine (fun y p => y (E.symm p).2) 0 (by simp) (by simp) (by simp) fun g v => ?_
    rw [← Equiv.sum_comp E, Fintype.sum_prod_type_right]
    refine Finset.sum_congr rfl fun j _ => ?_
    rw [Finset.sum_mul]
    simp only [Equiv.symm_apply_apply]

theorem batchNorm1d_exact {B n : Nat} {eps alpha : ℝ} (heps : 0 < eps) {hf : CountFits [(B : Int), n]} {θ : Fin (n + n) → ℝ}
    {keep : Prop} {hk : keep → 0 ≤ alpha ∧ alpha ≤ 1} {x : Elems [(B : Int), n]} :
    Exact (batchNorm1dK (B := B) eps alpha keep hk hf θ) x := by
  intro bk pk l h
  obtain ⟨-, rfl, rfl⟩ := h
  refine ⟨backprop_unary _ _ (batchNorm_backprop eps (gammaOf θ) (betaOf θ) heps _), ?_⟩
  exact norm_param_backprop (matE (size_mat B n)) (Equiv.refl _) (fun i j =>
    (arr (matE (size_mat B n)) x (i, j) - mean fun i => arr (matE (size_mat B n)) x (i, j)) /
      Real.sqrt ((variance fun i => arr (matE (size_mat B n)) x (i, j)) + eps)) θ

/-- **C38**: `BatchNorm1D` in evaluation mode. -/
def batchNorm1dEvalK {B n : Nat} (eps alpha : ℝ) (mu var : Fin n → ℝ) (hf : CountFits [(B : Int), n]) (θ : Fin (n + n) → ℝ) :
    Single [(B : Int), n] [(B : Int), n] (n + n) (normaliseFn (size_mat B n) eps mu var) θ :=
  norm1d false eps alpha hf (fun rm rv => rm = mu ∧ rv = var) (fun X => minusRow X mu)
    (fun _ j => Real.sqrt (var j + eps)) (fun gamma beta X i j => normalise (mu j) (var j) eps (gamma j) (beta j) (X i j))
    (fun junk gamma beta rm rv gg gb std centered nin nout X old ⟨h1, h2⟩ hF hs ho => ⟨mu, var, ⟨rfl, rfl⟩, by
      subst h1 h2
      exact batchNorm1d_eval eps alpha gamma beta rm rv gg gb std centered nin nout junk hF hf hs X old ho⟩) θ

/-- **C74**: the parameter gradients of evaluation mode are right; the input gradient need not be
(`BatchNormP.eval_gradient_refuted`). -/
theorem batchNorm1dEval_params {B n : Nat} {eps alpha : ℝ} {mu var : Fin n → ℝ} {hf : CountFits [(B : Int), n]}
    {θ : Fin (n + n) → ℝ} {x : Elems [(B : Int), n]} {bk pk l} (h : (batchNorm1dEvalK (B := B) eps alpha mu var hf θ).After x bk pk l) :
    Backprop (fun t => normaliseFn (size_mat B n) eps mu var t x) θ pk := by
  obtain ⟨-, rfl, rfl⟩ := h
  exact norm_param_backprop (matE (size_mat B n)) (Equiv.refl _) (fun i j =>
    (arr (matE (size_mat B n)) x (i, j) - mu j) / Real.sqrt (var j + eps)) θ

/-! ### BatchNorm2D -/

theorem ofFn_img_arr {s : Shape} {a b c d : Nat} (h : size s = a * (b * (c * d))) (x : Elems s) :
    List.ofFn x = flat4 (arr4 (arr (Spec.imgE h) x)) := by
  rw [← ofFn_img h]
  simp [arr]

theorem ofFn_img_elems {s : Shape} {a b c d : Nat} (h : size s = a * (b * (c * d))) (y : Fin a → Fin b → Fin c → Fin d → ℝ) :
    List.ofFn (elems (Spec.imgE h) fun p => y p.1 p.2.1 p.2.2.1 p.2.2.2) = flat4 y :=
  ofFn_img h fun p : Fin a × Fin b × Fin c × Fin d => y p.1 p.2.1 p.2.2.1 p.2.2.2

theorem ofFn_img_add {s : Shape} {a b c d : Nat} (h : size s = a * (b * (c * d))) (A : Elems s) (Y : Fin a × Fin b × Fin c × Fin d → ℝ) :
    (List.ofFn fun i => A i + elems (Spec.imgE h) Y i) = flat4 fun i j k l => arr4 (arr (Spec.imgE h) A) i j k l + Y (i, j, k, l) := by
  rw [ofFn_img_arr h]
  congr 1
  funext i j k l
  simp [arr4, arr, elems]

/-- `BatchNorm2D` in training mode (`stat` anything) or evaluation mode (`stat` fixes the running statistics). -/
def norm2d {N C H W : Nat} (hC : C ≠ 0) (training : Bool) (eps alpha : ℝ) (hf : CountFits [(N : Int), H, W, C])
    (stat : (Fin C → ℝ) → (Fin C → ℝ) → Prop)
    (cen : (Fin N → Fin C → Fin H → Fin W → ℝ) → Fin N × Fin H × Fin W → Fin C → ℝ)
    (sd : (Fin N → Fin C → Fin H → Fin W → ℝ) → Fin C → ℝ)
    (out : (Fin C → ℝ) → (Fin C → ℝ) → (Fin N → Fin C → Fin H → Fin W → ℝ) → Fin N × Fin H × Fin W → Fin C → ℝ)
    (hker : ∀ (gamma beta rm rv : Fin C → ℝ) (X : Fin N → Fin C → Fin H → Fin W → ℝ), stat rm rv → ∃ m v, stat m v ∧
      bnForward ⟨N * H * W, C, fun q c => pixels X (rowsE N H W q) c⟩ ⟨C, rm⟩ ⟨C, rv⟩ training eps alpha ⟨C, gamma⟩ ⟨C, beta⟩ =
      .ok ⟨⟨N * H * W, C, fun q c => out gamma beta X (rowsE N H W q) c⟩, ⟨N * H * W, C, fun q c => cen X (rowsE N H W q) c⟩,
        ⟨C, sd X⟩, ⟨C, m⟩, ⟨C, v⟩⟩)
    (θ : Fin (C + C) → ℝ) :
    Single [(N : Int), C, H, W] [(N : Int), C, H, W] (C + C)
      (fun t x => elems (Spec.imgE (size_img N C H W)) fun p => out (gammaOf t) (betaOf t)
        (arr4 (arr (Spec.imgE (size_img N C H W)) x)) (p.1, p.2.2.1, p.2.2.2) p.2.1) θ where
  overwrites := True
  Ready l := ∃ rm rv gg gb std centered nin nout k,
    l = .batchNorm2D (layer training eps alpha (gammaOf θ) (betaOf θ) rm rv gg gb std centered nin nout) ∧
    stat rm rv ∧ Scratch k centered nin nout ∧ (k = 0 ∨ k = N * H * W * C) ∧ std.length = C ∧ gg.length = C ∧ gb.length = C
  After x bk pk l :=
    let X := arr4 (arr (Spec.imgE (size_img N C H W)) x)
    (∃ rm rv gg gb sh rest nin nout,
      l = .batchNorm2D (layer training eps alpha (gammaOf θ) (betaOf θ) rm rv gg gb (List.ofFn (sd X))
        ⟨sh, rowMajor (fun q c => cen X (rowsE N H W q) c) ++ rest⟩ nin nout) ∧
      stat rm rv ∧ Scratch (N * H * W * C) ⟨sh, rowMajor (fun q c => cen X (rowsE N H W q) c) ++ rest⟩ nin nout ∧
      gg.length = C ∧ gb.length = C) ∧
    (bk = fun g => elems (Spec.imgE (size_img N C H W)) fun p => bnGrad (cen X) (sd X) (gammaOf θ)
      (pixels (arr4 (arr (Spec.imgE (size_img N C H W)) g))) (p.1, p.2.2.1, p.2.2.2) p.2.1) ∧
    pk = fun g k => Sum.elim (fun c => ∑ p, cen X p c / sd X c * pixels (arr4 (arr (Spec.imgE (size_img N C H W)) g)) p c)
      (fun c => ∑ p, pixels (arr4 (arr (Spec.imgE (size_img N C H W)) g)) p c) (sumE rfl k)
  params := by
    rintro l ⟨rm, rv, gg, gb, std, centered, nin, nout, k, rfl, -⟩
    rw [ofFn_gamma_beta]
    rfl
  ready := by
    rintro x bk pk l ⟨⟨rm, rv, gg, gb, sh, rest, nin, nout, rfl, hst, hsc, hg, hb⟩, -, -⟩
    exact ⟨rm, rv, gg, gb, _, _, nin, nout, _, rfl, hst, hsc, .inr rfl, by simp, hg, hb⟩
  det := fun h h' => ⟨h.2.1.trans h'.2.1.symm, h.2.2.trans h'.2.2.symm⟩
  regradReady := by
    rintro l ⟨rm, rv, gg, gb, std, centered, nin, nout, k, rfl, h1, h2, h3, h4, hg, hb⟩ v hv
    simp only [Cpu.grads, layer, List.length_append, hg, hb] at hv
    exact ⟨rm, rv, v.take gg.length, v.drop gg.length, std, centered, nin, nout, k, rfl, h1, h2, h3, h4, by simp [hg, hv],
      by simp [hg, hv]⟩
  regrad := by
    rintro x bk pk l ⟨⟨rm, rv, gg, gb, sh, rest, nin, nout, rfl, h1, h2, hg, hb⟩, h⟩ v hv
    simp only [Cpu.grads, layer, List.length_append, hg, hb] at hv
    exact ⟨⟨rm, rv, v.take gg.length, v.drop gg.length, sh, rest, nin, nout, rfl, h1, h2, by simp [hg, hv], by simp [hg, hv]⟩, h⟩
  forward := by
    rintro ev l - ⟨rm, rv, gg, gb, std, centered, nin, nout, k, rfl, hst, hsc, hk, hs, hg, hb⟩ x old ho
    obtain ⟨m, v, hst', hker'⟩ := hker (gammaOf θ) (betaOf θ) rm rv (arr4 (arr (Spec.imgE (size_img N C H W)) x)) hst
    obtain ⟨sh, rest, nin', nout', hsc', h⟩ := forward2d_step eps alpha (gammaOf θ) (betaOf θ) rm rv gg gb std centered nin nout
      training ev.junk hsc (hk.imp_right fun h => h.ge) hf hs (arr4 (arr (Spec.imgE (size_img N C H W)) x)) old
      (by rw [ho, size_img]) _ _ _ _ _ hker'
    have hgr : grown k (N * H * W * C) = N * H * W * C := by
      unfold grown
      split
      · rfl
      · next h => exact hk.resolve_left h
    rw [hgr] at hsc'
    refine ⟨_, _, _, ?_, ⟨m, v, gg, gb, sh, rest, nin', nout', rfl, hst', hsc', hg, hb⟩, rfl, rfl⟩
    rw [ofFn_img_arr (size_img N C H W) x]
    simp only [Cpu.forward, h, Out.bind_ok]
    rw [ofFn_img_elems (size_img N C H W) fun n c h w => out (gammaOf θ) (betaOf θ)
      (arr4 (arr (Spec.imgE (size_img N C H W)) x)) (n, h, w) c]
  update := by
    rintro x bk pk l ⟨⟨rm, rv, gg, gb, sh, rest, nin, nout, rfl, hst, hsc, hg, hb⟩, rfl, rfl⟩ g
    obtain ⟨nout', hl, h⟩ := update2d_step eps alpha (gammaOf θ) (betaOf θ) rm rv gg gb nin nout training hC hg hb sh rest
      (cen (arr4 (arr (Spec.imgE (size_img N C H W)) x))) (sd (arr4 (arr (Spec.imgE (size_img N C H W)) x)))
      (by rw [hsc.2.2]) (arr4 (arr (Spec.imgE (size_img N C H W)) g))
    refine ⟨_, ?_, ⟨⟨rm, rv, List.ofFn fun c => ∑ p, cen (arr4 (arr (Spec.imgE (size_img N C H W)) x)) p c /
      sd (arr4 (arr (Spec.imgE (size_img N C H W)) x)) c * pixels (arr4 (arr (Spec.imgE (size_img N C H W)) g)) p c,
      List.ofFn fun c => ∑ p, pixels (arr4 (arr (Spec.imgE (size_img N C H W)) g)) p c, sh, rest, nin, nout', rfl, hst,
      ⟨hsc.1, hsc.2.1, hl.trans hsc.2.2⟩, by simp, by simp⟩, rfl, rfl⟩, ?_⟩
    · simp only [Cpu.updateGradients, Out.idx, List.getElem?_cons_zero, Out.bind_ok]
      rw [ofFn_img_arr (size_img N C H W) g, h, Out.bind_ok]
    · rw [ofFn_sum (P := C + C) rfl]
      rfl
  backward := by
    rintro ev x bk pk l ⟨⟨rm, rv, gg, gb, sh, rest, nin, nout, rfl, hst, hsc, hg, hb⟩, rfl, rfl⟩ g store i A hA
    obtain ⟨nin', nout', hl1, hl2, h⟩ := backward2d_step eps alpha (gammaOf θ) (betaOf θ) rm rv gg gb nin nout training hC sh rest
      (cen (arr4 (arr (Spec.imgE (size_img N C H W)) x))) (sd (arr4 (arr (Spec.imgE (size_img N C H W)) x))) hsc
      (arr4 (arr (Spec.imgE (size_img N C H W)) g))
    refine ⟨_, 0, fun _ => rfl, fun h => absurd trivial h, writeFront_eq hA ?_, ⟨⟨rm, rv, gg, gb, sh, rest, nin', nout', rfl, hst, ⟨hsc.1, hl1, hl2⟩, hg, hb⟩, rfl, rfl⟩, rfl⟩
    simp only [Out.idx, List.getElem?_cons_zero, Out.bind_ok]
    rw [ofFn_img_arr (size_img N C H W) g, h _ (by rw [List.length_ofFn, size_img]), Out.bind_ok, ofFn_img_add]
    simp [arr4, arr]

/-- **C37, C39, C40**: `BatchNorm2D` in training mode. If `keep`, the running variances are non-negative. -/
def batchNorm2dK {N C H W : Nat} (hC : C ≠ 0) (eps alpha : ℝ) (keep : Prop) (hk : keep → 0 ≤ alpha ∧ alpha ≤ 1)
    (hf : CountFits [(N : Int), H, W, C]) (θ : Fin (C + C) → ℝ) :
    Single [(N : Int), C, H, W] [(N : Int), C, H, W] (C + C) (batchNorm2dFn (size_img N C H W) eps) θ :=
  norm2d hC true eps alpha hf (fun _ rv => keep → ∀ j, 0 ≤ rv j) (fun X p c => pixels X p c - mean fun p => pixels X p c)
    (fun X c => Real.sqrt ((variance fun p => pixels X p c) + eps)) (fun gamma beta X p c => batchNorm eps gamma beta (pixels X) p c)
    (fun gamma beta rm rv X hst => ⟨_, _, running_nonneg hk hst (pixels X), bnForward_train (rowsE N H W) (pixels X) rm rv gamma beta eps alpha⟩) θ

theorem batchNorm2d_exact {N C H W : Nat} {hC : C ≠ 0} {eps alpha : ℝ} (heps : 0 < eps) {hf : CountFits [(N : Int), H, W, C]}
    {keep : Prop} {hk : keep → 0 ≤ alpha ∧ alpha ≤ 1} {θ : Fin (C + C) → ℝ} {x : Elems [(N : Int), C, H, W]} :
    Exact (batchNorm2dK hC eps alpha keep hk hf θ) x := by
  intro bk pk l h
  obtain ⟨-, rfl, rfl⟩ := h
  constructor
  · have hb := backprop_reindex (batchNorm_backprop eps (gammaOf θ) (betaOf θ) heps
      (fun p : (Fin N × Fin H × Fin W) × Fin C => pixels (arr4 (arr (Spec.imgE (size_img N C H W)) x)) p.1 p.2))
      (BatchNormP.imgE N C H W) (BatchNormP.imgE N C H W)
    exact backprop_unary (Spec.imgE (size_img N C H W)) (Spec.imgE (size_img N C H W)) hb
  · exact norm_param_backprop (Spec.imgE (size_img N C H W)) (BatchNormP.imgE N C H W).symm (fun p c =>
      (pixels (arr4 (arr (Spec.imgE (size_img N C H W)) x)) p c - mean fun p => pixels (arr4 (arr (Spec.imgE (size_img N C H W)) x)) p c) /
        Real.sqrt ((variance fun p => pixels (arr4 (arr (Spec.imgE (size_img N C H W)) x)) p c) + eps)) θ

/-- **C38**: `BatchNorm2D` in evaluation mode. -/
def batchNorm2dEvalK {N C H W : Nat} (hC : C ≠ 0) (eps alpha : ℝ) (mu var : Fin C → ℝ) (hf : CountFits [(N : Int), H, W, C])
    (θ : Fin (C + C) → ℝ) :
    Single [(N : Int), C, H, W] [(N : Int), C, H, W] (C + C) (normalise2dFn (size_img N C H W) eps mu var) θ :=
  norm2d hC false eps alpha hf (fun rm rv => rm = mu ∧ rv = var) (fun X p c => pixels X p c - mu c)
    (fun _ c => Real.sqrt (var c + eps)) (fun gamma beta X p c => normalise (mu c) (var c) eps (gamma c) (beta c) (pixels X p c))
    (fun gamma beta rm rv X ⟨h1, h2⟩ => ⟨mu, var, ⟨rfl, rfl⟩, by
      subst h1 h2
      exact bnForward_eval (fun q c => pixels X (rowsE N H W q) c) rm rv gamma beta eps alpha⟩) θ

end

end DW.Props.ContractP
