import Verif.Props.ContractsNorm
import Verif.Props.Conv
import Verif.Props.MaxPool
/-! # Contracts of pooling, convolution, dropout and addition -/

set_option autoImplicit false

namespace DW.Props.ContractP

open DW DW.Spec DW.ContractL DW.MatL DW.FlatL DW.DerivL DW.LayerL DW.NormL DW.LayoutL DW.Im2colL DW.ConvL DW.PoolL
  DW.Props.ElementwiseP

noncomputable section

/-! ### GlobalAvgPooling -/

/-- **C36**: global average pooling. -/
def gapK {N C H W : Nat} {o : Shape} (ho : size o = N * C) (θ : Fin 0 → ℝ) :
    Single [(N : Int), C, H, W] o 0 (gapFn (size_img N C H W) ho) θ where
  Ready l := l = .globalAvgPooling
  After _ bk _ l := l = .globalAvgPooling ∧ bk = fun g => elems (Spec.imgE (size_img N C H W)) fun p =>
    arr (matE ho) g (p.1, p.2.1) / ((H * W : Nat) : ℝ)
  params h := by rw [h, List.ofFn_zero]; rfl
  ready h := h.1
  det := fun h h' => ⟨h.2.trans h'.2.symm, no_params _ _⟩
  regradReady h v _ := by subst h; rfl
  regrad h v _ := by obtain ⟨rfl, h⟩ := h; exact ⟨rfl, h⟩
  forward := by
    rintro ev l - rfl x old hl
    refine ⟨_, _, fun _ => Fin.elim0, ?_, rfl, rfl⟩
    rw [ofFn_img_arr (size_img N C H W)]
    simp only [Cpu.forward, Out.idx, List.getElem?_cons_zero, Out.bind_ok, gap_forward _ _ old (hl.trans ho), gapFn]
    exact congrArg (fun v => Out.ok (Cpu.globalAvgPooling, v))
      (ofFn_elems ho fun n c => planeMean (arr4 (arr (Spec.imgE (size_img N C H W)) x)) n c).symm
  update h g := ⟨_, by rw [h.1]; rfl, ⟨rfl, h.2⟩, by rw [List.ofFn_zero]; rfl⟩
  backward := by
    rintro ev x bk pk l ⟨rfl, rfl⟩ g store i A hA
    refine ⟨_, A, False.elim, fun _ => rfl, writeFront_eq hA ?_, ⟨rfl, rfl⟩, rfl⟩
    obtain ⟨bwd, -, hv, hb⟩ := gap_backward (arr (Spec.imgE (size_img N C H W)) x)
    simp only [Out.idx, List.getElem?_cons_zero, Out.bind_ok]
    rw [ofFn_arr ho g, ofFn_img_arr (size_img N C H W) A, hb (arr (matE ho) g), Out.bind_ok, ofFn_img_add]
    simp only [hv]

theorem gap_exact {N C H W : Nat} {o : Shape} {ho : size o = N * C} {θ : Fin 0 → ℝ} {x : Elems [(N : Int), C, H, W]} :
    Exact (gapK (H := H) (W := W) ho θ) x := by
  intro bk pk l h
  refine ⟨?_, backprop_empty _ _⟩
  obtain ⟨-, rfl⟩ := h
  obtain ⟨bwd, hb, hv, -⟩ := gap_backward (arr (Spec.imgE (size_img N C H W)) x)
  have : bwd = fun g p => g (p.1, p.2.1) / ((H * W : Nat) : ℝ) := by
    funext g p
    exact hv g p.1 p.2.1 p.2.2.1 p.2.2.2
  rw [this] at hb
  exact backprop_unary (Spec.imgE (size_img N C H W)) (matE ho) hb

/-! ### Dropout -/

/-- **C41**: dropout in training mode, with the numbers `r` from the generator. -/
def dropoutK (s : Shape) (p : ℝ) (r : Nat → ℝ) (θ : Fin 0 → ℝ) : Single s s 0 (dropFn s p r) θ where
  env ev := ∀ i < size s, ev.rng i = r i
  Ready l := ∃ sm mask, l = .dropout ⟨⟨sm, mask⟩, true, p⟩ ∧ mask.length = size s
  After _ bk _ l := (∃ sm, l = .dropout ⟨⟨sm, List.ofFn fun i : Fin (size s) => r i⟩, true, p⟩) ∧
    bk = fun (g : Elems s) (i : Fin (size s)) => open Classical in if p ≤ r i then g i else 0
  params := by rintro l ⟨sm, mask, rfl, -⟩; rw [List.ofFn_zero]; rfl
  ready := by rintro x bk pk l ⟨⟨sm, rfl⟩, -⟩; exact ⟨sm, _, rfl, by simp⟩
  det := fun h h' => ⟨h.2.trans h'.2.symm, no_params _ _⟩
  regradReady := by rintro l ⟨sm, mask, rfl, h⟩ v -; exact ⟨sm, mask, rfl, h⟩
  regrad := by rintro x bk pk l ⟨⟨sm, rfl⟩, h⟩ v -; exact ⟨⟨sm, rfl⟩, h⟩
  forward := by
    rintro ev l he ⟨sm, mask, rfl, hm⟩ x old ho
    refine ⟨_, _, fun _ => Fin.elim0, ?_, ⟨sm, rfl⟩, rfl⟩
    have hr : (fun i : Fin (size s) => ev.rng i) = fun i : Fin (size s) => r i := funext fun i => he i i.is_lt
    simp only [Cpu.forward, dropout_forward_train _ _ _ _ _ _ x hm ho, Out.bind_ok, hr, dropFn]
  update := by rintro x bk pk l ⟨⟨sm, rfl⟩, rfl⟩ g; exact ⟨_, rfl, ⟨⟨sm, rfl⟩, rfl⟩, by rw [List.ofFn_zero]; rfl⟩
  backward := by
    rintro ev x bk pk l ⟨⟨sm, rfl⟩, rfl⟩ g store i A hA
    refine ⟨_, A, False.elim, fun _ => rfl, writeFront_eq hA ?_, ⟨⟨sm, rfl⟩, rfl⟩, rfl⟩
    simp only [Out.idx, List.getElem?_cons_zero, Out.bind_ok, dropout_backward]

/-- The gradient is right if nothing is dropped. -/
theorem dropout_exact {s : Shape} {r : Nat → ℝ} {θ : Fin 0 → ℝ} {x : Elems s} : Exact (dropoutK s 0 r θ) x := by
  intro bk pk l h
  refine ⟨?_, backprop_empty _ _⟩
  obtain ⟨-, rfl⟩ := h
  have := dropped_backprop 0 (fun i : Fin (size s) => r i) x
  simp only [sub_zero, div_one] at this
  exact this

/-- **C41**: dropout in evaluation mode. -/
def dropoutEvalK (s : Shape) (hn : size s ≠ 0) (p : ℝ) (m : Elems s) (θ : Fin 0 → ℝ) : Single s s 0 (idFn s) θ where
  Ready l := ∃ sm, l = .dropout ⟨⟨sm, List.ofFn m⟩, false, p⟩
  After _ bk _ l := (∃ sm, l = .dropout ⟨⟨sm, List.ofFn m⟩, false, p⟩) ∧
    bk = fun g i => open Classical in if p ≤ m i then g i else 0
  params := by rintro l ⟨sm, rfl⟩; rw [List.ofFn_zero]; rfl
  ready := by rintro x bk pk l ⟨h, -⟩; exact h
  det := fun h h' => ⟨h.2.trans h'.2.symm, no_params _ _⟩
  regradReady := by rintro l ⟨sm, rfl⟩ v -; exact ⟨sm, rfl⟩
  regrad := by rintro x bk pk l ⟨⟨sm, rfl⟩, h⟩ v -; exact ⟨⟨sm, rfl⟩, h⟩
  forward := by
    rintro ev l - ⟨sm, rfl⟩ x old ho
    refine ⟨_, _, fun _ => Fin.elim0, ?_, ⟨sm, rfl⟩, rfl⟩
    simp only [Cpu.forward, dropout_forward_eval _ _ _ _ _ _ x hn ho, Out.bind_ok, idFn]
  update := by rintro x bk pk l ⟨⟨sm, rfl⟩, rfl⟩ g; exact ⟨_, rfl, ⟨⟨sm, rfl⟩, rfl⟩, by rw [List.ofFn_zero]; rfl⟩
  backward := by
    rintro ev x bk pk l ⟨⟨sm, rfl⟩, rfl⟩ g store i A hA
    refine ⟨_, A, False.elim, fun _ => rfl, writeFront_eq hA ?_, ⟨⟨sm, rfl⟩, rfl⟩, rfl⟩
    simp only [Out.idx, List.getElem?_cons_zero, Out.bind_ok, dropout_backward]

/-- The gradient is right if the mask the layer holds drops nothing. -/
theorem dropoutEval_exact {s : Shape} {hn : size s ≠ 0} {p : ℝ} {m : Elems s} (hm : ∀ i, p ≤ m i) {θ : Fin 0 → ℝ} {x : Elems s} :
    Exact (dropoutEvalK s hn p m θ) x := by
  intro bk pk l h
  refine ⟨?_, backprop_empty _ _⟩
  obtain ⟨-, rfl⟩ := h
  simp only [hm, if_true]
  exact backprop_affine (fun y => y) 0 (by simp) (by simp) (by simp [idFn]) (by simp)

/-! ### Convolution -/

theorem ofFn_kernel {O C kh kw : Nat} (t : Fin (O * (C * (kh * kw)) + O) → ℝ) :
    List.ofFn t = flat4 (kernelOf t) ++ List.ofFn (shiftOf t) := by
  have h1 := ofFn_sum (P := O * (C * (kh * kw)) + O) rfl fun p => t ((sumE rfl).symm p)
  simp only [Equiv.symm_apply_apply] at h1
  rw [h1]
  congr 1
  have h2 := ofFn_img (N := O * (C * (kh * kw))) rfl fun p => t ((kernelE O C kh kw).symm (.inl p))
  refine Eq.trans ?_ h2
  congr 1
  funext k
  simp [kernelE]

theorem kernel_append {O C kh kw : Nat} (W : Fin O × Fin C × Fin kh × Fin kw → ℝ) (b : Fin O → ℝ) :
    (List.ofFn fun k => Sum.elim W b (kernelE O C kh kw k)) = flat4 (arr4 W) ++ List.ofFn b := by
  rw [ofFn_kernel]
  have h1 : (shiftOf fun k => Sum.elim W b (kernelE O C kh kw k)) = b := by
    funext k; simp only [shiftOf, Equiv.apply_symm_apply, Sum.elim_inr]
  have h2 : (kernelOf fun k => Sum.elim W b (kernelE O C kh kw k)) = arr4 W := by
    funext i j k l; simp only [kernelOf, arr4, Equiv.apply_symm_apply, Sum.elim_inl]
  rw [h1, h2]

open ConvP in
/-- **C32, C33**: convolution. -/
def convK {N C O : Nat} {a b : Axis} (ha : ConvAxis a) (hb : ConvAxis b)
    (hf : N * (C * a.kernel * b.kernel * (a.out * b.out)) ≤ 2147483647)
    (hpos : 0 < N * (C * a.kernel * b.kernel * (a.out * b.out))) (θ : Fin (O * (C * (a.kernel * b.kernel)) + O) → ℝ) :
    Single [(N : Int), C, a.size, b.size] [(N : Int), O, a.out, b.out] (O * (C * (a.kernel * b.kernel)) + O)
      (convFn a b (size_img N C a.size b.size) (size_img N O a.out b.out)) θ where
  Ready l := ∃ gw gb buf, l = .convolution (ConvP.layer (kernelOf θ) (shiftOf θ) gw gb buf) ∧
    gw.length = O * (C * a.kernel * b.kernel) ∧ gb.length = O
  After x bk pk l :=
    let X := arr4 (arr (Spec.imgE (size_img N C a.size b.size)) x)
    (∃ gw gb sh, l = .convolution (ConvP.layer (kernelOf θ) (shiftOf θ) gw gb ⟨sh, convCols a b X⟩) ∧
      gw.length = O * (C * a.kernel * b.kernel) ∧ gb.length = O) ∧
    (bk = fun g => elems (Spec.imgE (size_img N C a.size b.size)) fun p =>
      convGradIn a b (kernelOf θ) (arr4 (arr (Spec.imgE (size_img N O a.out b.out)) g)) p.1 p.2.1 p.2.2.1 p.2.2.2) ∧
    pk = fun g k => Sum.elim
      (fun p : Fin O × Fin C × Fin a.kernel × Fin b.kernel => ∑ n, ∑ r, ∑ q,
        arr4 (arr (Spec.imgE (size_img N O a.out b.out)) g) n p.1 r q * window a b (X n p.2.1) 0 p.2.2.1 p.2.2.2 r q)
      (fun o => ∑ n, ∑ r, ∑ q, arr4 (arr (Spec.imgE (size_img N O a.out b.out)) g) n o r q) (kernelE O C a.kernel b.kernel k)
  params := by
    rintro l ⟨gw, gb, buf, rfl, -⟩
    rw [ofFn_kernel]
    rfl
  ready := by
    rintro x bk pk l ⟨⟨gw, gb, sh, rfl, h1, h2⟩, -⟩
    exact ⟨gw, gb, _, rfl, h1, h2⟩
  det := fun h h' => ⟨h.2.1.trans h'.2.1.symm, h.2.2.trans h'.2.2.symm⟩
  regradReady := by
    rintro l ⟨gw, gb, buf, rfl, h1, h2⟩ v hv
    simp only [Cpu.grads, ConvP.layer, List.length_append, h1, h2] at hv
    exact ⟨v.take gw.length, v.drop gw.length, buf, rfl, by simp [h1, hv], by simp [h1, hv]⟩
  regrad := by
    rintro x bk pk l ⟨⟨gw, gb, sh, rfl, h1, h2⟩, h⟩ v hv
    simp only [Cpu.grads, ConvP.layer, List.length_append, h1, h2] at hv
    exact ⟨⟨v.take gw.length, v.drop gw.length, sh, rfl, by simp [h1, hv], by simp [h1, hv]⟩, h⟩
  forward := by
    rintro ev l - ⟨gw, gb, buf, rfl, h1, h2⟩ x old ho
    obtain ⟨sh, h⟩ := convolution_forward (kernelOf θ) (shiftOf θ) gw gb buf ha hb ev.junk
      (arr4 (arr (Spec.imgE (size_img N C a.size b.size)) x)) old (by rw [ho, size_img]) hf
    refine ⟨_, _, _, ?_, ⟨gw, gb, sh, rfl, h1, h2⟩, rfl, rfl⟩
    rw [ofFn_img_arr (size_img N C a.size b.size) x]
    simp only [Cpu.forward, h, Out.bind_ok, convFn]
    rw [ofFn_img_elems (size_img N O a.out b.out) fun n o r q => conv a b (arr4 (arr (Spec.imgE (size_img N C a.size b.size)) x))
      (kernelOf θ) (shiftOf θ) n o r q]
  update := by
    rintro x bk pk l ⟨⟨gw, gb, sh, rfl, h1, h2⟩, rfl, rfl⟩ g
    have h := update_step (kernelOf θ) (shiftOf θ) gw gb sh (arr4 (arr (Spec.imgE (size_img N C a.size b.size)) x)) hpos h1 h2
      (arr4 (arr (Spec.imgE (size_img N O a.out b.out)) g))
    refine ⟨_, ?_, ⟨⟨flat4 fun o c kh kw => ∑ n, ∑ r, ∑ q, arr4 (arr (Spec.imgE (size_img N O a.out b.out)) g) n o r q *
      window a b (arr4 (arr (Spec.imgE (size_img N C a.size b.size)) x) n c) 0 kh kw r q,
      List.ofFn fun o => ∑ n, ∑ r, ∑ q, arr4 (arr (Spec.imgE (size_img N O a.out b.out)) g) n o r q,
      sh, rfl, by rw [flat4_length]; ring, by simp⟩, rfl, rfl⟩, ?_⟩
    · simp only [Cpu.updateGradients, Out.idx, List.getElem?_cons_zero, Out.bind_ok]
      rw [ofFn_img_arr (size_img N O a.out b.out) g, h, Out.bind_ok]
    · rw [kernel_append]
      rfl
  backward := by
    rintro ev x bk pk l ⟨⟨gw, gb, sh, rfl, h1, h2⟩, rfl, rfl⟩ g store i A hA
    refine ⟨_, A, False.elim, fun _ => rfl, writeFront_eq hA ?_, ⟨⟨gw, gb, sh, rfl, h1, h2⟩, rfl, rfl⟩, rfl⟩
    simp only [Out.idx, List.getElem?_cons_zero, Out.bind_ok]
    rw [ofFn_img_arr (size_img N O a.out b.out) g, ofFn_img_arr (size_img N C a.size b.size) A,
      backward_step (kernelOf θ) (shiftOf θ) gw gb ha hb ev.junk sh _ hf hpos, Out.bind_ok, ofFn_img_add]

theorem conv_param_backprop {s o : Shape} {N C O : Nat} {a b : Axis} (hs : size s = N * (C * (a.size * b.size)))
    (ho : size o = N * (O * (a.out * b.out))) (x : Elems s) (θ : Fin (O * (C * (a.kernel * b.kernel)) + O) → ℝ) :
    Backprop (fun t => convFn a b hs ho t x) θ fun g k => Sum.elim
      (fun p : Fin O × Fin C × Fin a.kernel × Fin b.kernel => ∑ n, ∑ r, ∑ q,
        arr4 (arr (Spec.imgE ho) g) n p.1 r q * window a b (arr4 (arr (Spec.imgE hs) x) n p.2.1) 0 p.2.2.1 p.2.2.2 r q)
      (fun o => ∑ n, ∑ r, ∑ q, arr4 (arr (Spec.imgE ho) g) n o r q) (kernelE O C a.kernel b.kernel k) := by
  let X := arr4 (arr (Spec.imgE hs) x)
  have h1 := conv_backprop_weight (O := O) X 0 fun p => θ ((kernelE O C a.kernel b.kernel).symm (.inl p))
  have h2 := conv_backprop_bias X (0 : Fin O → Fin C → Fin a.kernel → Fin b.kernel → ℝ)
    fun k => θ ((kernelE O C a.kernel b.kernel).symm (.inr k))
  have h3 := backprop_sum (c := 0) (f := fun y (p : Fin N × Fin O × Fin a.out × Fin b.out) =>
      conv a b X (arr4 fun q => y (.inl q)) (fun k => y (.inr k)) p.1 p.2.1 p.2.2.1 p.2.2.2)
    (x := fun i => θ ((kernelE O C a.kernel b.kernel).symm i)) (fun y k => by simp [conv, add_comm]) h1 h2
  exact backprop_param (kernelE O C a.kernel b.kernel) (Spec.imgE ho) h3

theorem conv_exact {N C O : Nat} {a b : Axis} {ha : ConvP.ConvAxis a} {hb : ConvP.ConvAxis b}
    {hf : N * (C * a.kernel * b.kernel * (a.out * b.out)) ≤ 2147483647}
    {hpos : 0 < N * (C * a.kernel * b.kernel * (a.out * b.out))} {θ : Fin (O * (C * (a.kernel * b.kernel)) + O) → ℝ}
    {x : Elems [(N : Int), C, a.size, b.size]} : Exact (convK (O := O) ha hb hf hpos θ) x := by
  intro bk pk l h
  obtain ⟨-, rfl, rfl⟩ := h
  refine ⟨backprop_unary (Spec.imgE (size_img N C a.size b.size)) (Spec.imgE (size_img N O a.out b.out))
    (conv_backprop_input _ _ _), ?_⟩
  exact conv_param_backprop (size_img N C a.size b.size) (size_img N O a.out b.out) x θ

/-! ### MaxPooling -/

open MaxPoolP in
/-- **C34, C35**: max pooling; `pick` tells which of several largest elements is found. -/
def poolK (pick : List ℝ → Nat) {N C : Nat} {a b : Axis} (ha : PoolAxis a) (hb : PoolAxis b)
    (hf : CountFits [(N : Int), C, a.out, b.out]) (hf' : a.kernel * b.kernel * (a.out * b.out) ≤ 2147483647) (θ : Fin 0 → ℝ) :
    Single [(N : Int), C, a.size, b.size] [(N : Int), C, a.out, b.out] 0
      (poolFn a b (size_img N C a.size b.size) (size_img N C a.out b.out)) θ where
  env ev := ev.pick = pick ∧ IsPick pick
  Ready l := ∃ st, l = .maxPooling st ∧ MaxPoolP.Ready N C a b st
  After x bk _ l :=
    let X := arr4 (arr (Spec.imgE (size_img N C a.size b.size)) x)
    ∃ (st : PoolSt) (win : Fin N → Fin C → Fin a.out → Fin b.out → Fin a.kernel × Fin b.kernel),
      l = .maxPooling st ∧ Remembers st win ∧
      (∀ n c r q kh kw, window a b (X n c) floatMin kh kw r q ≤
        window a b (X n c) floatMin (win n c r q).1 (win n c r q).2 r q) ∧
      Chosen pick a b X win ∧
      bk = fun g => elems (Spec.imgE (size_img N C a.size b.size)) fun p => ∑ r : Fin a.out, ∑ q : Fin b.out,
        if a.pos r (win p.1 p.2.1 r q).1 = p.2.2.1.val ∧ b.pos q (win p.1 p.2.1 r q).2 = p.2.2.2.val
        then arr (Spec.imgE (size_img N C a.out b.out)) g (p.1, p.2.1, r, q) else 0
  params := by rintro l ⟨st, rfl, -⟩; rw [List.ofFn_zero]; rfl
  ready := by rintro x bk pk l ⟨st, win, rfl, h, -⟩; exact ⟨st, rfl, h.ready⟩
  det := by
    rintro x bk pk bk' pk' l l' ⟨st, win, -, -, -, hc, rfl⟩ ⟨st', win', -, -, -, hc', rfl⟩
    rw [hc.unique hc']
    exact ⟨rfl, no_params _ _⟩
  regradReady := by rintro l ⟨st, rfl, h⟩ v -; exact ⟨st, rfl, h⟩
  regrad := by rintro x bk pk l ⟨st, win, rfl, h⟩ v -; exact ⟨st, win, rfl, h⟩
  forward := by
    rintro ev l ⟨rfl, he⟩ ⟨st, rfl, hst⟩ x old ho
    obtain ⟨win, st', hrem, hmax, hch, h⟩ := maxPooling_forward he ev.junk ha hb hst
      (arr4 (arr (Spec.imgE (size_img N C a.size b.size)) x)) old (by rw [ho, size_img]) hf hf'
    refine ⟨_, _, fun _ => Fin.elim0, ?_, st', win, rfl, hrem, hmax, hch, rfl⟩
    rw [ofFn_img_arr (size_img N C a.size b.size) x]
    simp only [Cpu.forward, h, Out.bind_ok, poolFn]
    rw [ofFn_img_elems (size_img N C a.out b.out) fun n c r q =>
      maxPool a b floatMin (arr4 (arr (Spec.imgE (size_img N C a.size b.size)) x)) n c r q]
    congr 3
    funext n c r q
    exact (maxPool_eq _ (win n c r q) fun kh kw => hmax n c r q kh kw).symm
  update := by
    rintro x bk pk l ⟨st, win, rfl, hrem, hmax, hch, rfl⟩ g
    exact ⟨_, rfl, ⟨st, win, rfl, hrem, hmax, hch, rfl⟩, by rw [List.ofFn_zero]; rfl⟩
  backward := by
    rintro ev x bk pk l ⟨st, win, rfl, hrem, hmax, hch, rfl⟩ g store i A hA
    obtain ⟨st', hrem', h⟩ := maxPooling_backward ha hb hrem (arr4 (arr (Spec.imgE (size_img N C a.out b.out)) g))
      (arr4 (arr (Spec.imgE (size_img N C a.size b.size)) A))
    refine ⟨_, A, False.elim, fun _ => rfl, writeFront_eq hA ?_, ⟨st', win, rfl, hrem', hmax, hch, rfl⟩, rfl⟩
    simp only [Out.idx, List.getElem?_cons_zero, Out.bind_ok]
    rw [ofFn_img_arr (size_img N C a.out b.out) g, ofFn_img_arr (size_img N C a.size b.size) A, h, Out.bind_ok, ofFn_img_add]
    rfl

/-- The gradient is right wherever pooling is differentiable. -/
theorem pool_exact {pick : List ℝ → Nat} {N C : Nat} {a b : Axis} {ha : MaxPoolP.PoolAxis a} {hb : MaxPoolP.PoolAxis b}
    {hf : CountFits [(N : Int), C, a.out, b.out]} {hf' : a.kernel * b.kernel * (a.out * b.out) ≤ 2147483647} {θ : Fin 0 → ℝ}
    {x : Elems [(N : Int), C, a.size, b.size]}
    (hd : DifferentiableAt ℝ (poolFn a b (size_img N C a.size b.size) (size_img N C a.out b.out) θ) x) :
    Exact (poolK pick ha hb hf hf' θ) x := by
  rintro bk pk l ⟨st, win, rfl, hrem, hmax, hch, rfl⟩
  refine ⟨?_, backprop_empty _ _⟩
  have h1 : DifferentiableAt ℝ (fun (y : Fin N × Fin C × Fin a.size × Fin b.size → ℝ) (p : Fin N × Fin C × Fin a.out × Fin b.out) =>
      maxPool a b floatMin (arr4 y) p.1 p.2.1 p.2.2.1 p.2.2.2) (arr (Spec.imgE (size_img N C a.size b.size)) x) :=
    differentiable_unary (Spec.imgE (size_img N C a.size b.size)) (Spec.imgE (size_img N C a.out b.out)) hd
  have h2 := MaxPoolP.maxPool_backprop_of_differentiable floatMin _ h1 win hmax
  exact backprop_unary (Spec.imgE (size_img N C a.size b.size)) (Spec.imgE (size_img N C a.out b.out)) h2

/-! ### Add -/

/-- **C42**: addition. -/
def addK (s : Shape) (θ : Fin 0 → ℝ) : Contract (fun _ : Fin 2 => s) s 0 (addFn s) θ where
  env _ := True
  overwrites := False
  Ready l := l = .add
  After _ bk _ l := l = .add ∧ bk = fun g _ => g
  params h := by rw [h, List.ofFn_zero]; rfl
  ready h := h.1
  det := fun h h' => ⟨h.2.trans h'.2.symm, no_params _ _⟩
  regradReady h v _ := by subst h; rfl
  regrad h v _ := by obtain ⟨rfl, h⟩ := h; exact ⟨rfl, h⟩
  forward := by
    rintro ev l - rfl X old ho
    refine ⟨_, _, fun _ => Fin.elim0, ?_, rfl, rfl⟩
    have : bufs X = [⟨s, List.ofFn (X 0)⟩, ⟨s, List.ofFn (X 1)⟩] := rfl
    rw [this]
    simp only [Cpu.forward, add_forward s s s (X 0) (X 1) old ho [], Out.bind_ok]
    rfl
  update h g := ⟨_, by rw [h.1]; rfl, ⟨rfl, h.2⟩, by rw [List.ofFn_zero]; rfl⟩
  backward := by
    rintro ev X bk pk l ⟨rfl, rfl⟩ g gis store hn hst
    match gis, hn with
    | [i, j], _ =>
    obtain ⟨A0, hA0⟩ := hst 0
    obtain ⟨A1, hA1⟩ := hst 1
    obtain ⟨r, hr, ha⟩ := add_backward s g i j store ⟨_, hA0, by simp⟩ ⟨_, hA1, by simp⟩
    refine ⟨.add, store, r, by simp [Cpu.backward, hr], ⟨rfl, rfl⟩, rfl, cleared_refl False.elim, ha.congr fun h k => ?_⟩
    rw [Fin.sum_univ_two]
    simp only [uses, Fin.getElem_fin, Fin.val_zero, Fin.val_one, List.getElem_cons_zero, List.getElem_cons_succ, entry]
    rw [add_mul]
    congr 1
    · by_cases hi : h = i
      · rw [if_pos hi, if_pos hi.symm, one_mul]
      · rw [if_neg hi, if_neg (Ne.symm hi), zero_mul]
    · by_cases hi : h = j
      · rw [if_pos hi, if_pos hi.symm, one_mul]
      · rw [if_neg hi, if_neg (Ne.symm hi), zero_mul]

theorem add_exact {s : Shape} {θ : Fin 0 → ℝ} {X : Args fun _ : Fin 2 => s} {bk pk l} (h : (addK s θ).After X bk pk l) :
    BackpropN (addFn s θ) X bk ∧ Backprop (fun t => addFn s t X) θ pk := by
  refine ⟨?_, backprop_empty _ _⟩
  obtain ⟨-, rfl⟩ := h
  let J : (Args fun _ : Fin 2 => s) →L[ℝ] Elems s :=
    ContinuousLinearMap.proj (R := ℝ) (φ := fun _ : Fin 2 => Elems s) 0 + ContinuousLinearMap.proj (R := ℝ) (φ := fun _ : Fin 2 => Elems s) 1
  refine ⟨J, J.hasFDerivAt, fun g V => ?_⟩
  rw [Fin.sum_univ_two]
  simp only [J, ← Finset.sum_add_distrib, ← mul_add]
  rfl

end

end DW.Props.ContractP
