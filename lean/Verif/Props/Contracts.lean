import Verif.Lemmas.Contracts
import Verif.Spec.LayerFn
import Verif.Props.Dense
/-!
# Every layer meets its contract

For each layer object, what it computes as a function of its input and parameters, and that the gradients it passes
on are those of that function.
-/

set_option autoImplicit false

namespace DW.Props.ContractP

open DW DW.Spec DW.ContractL DW.MatL DW.FlatL DW.DerivL DW.LayerL DW.Props.DenseP

noncomputable section

/-- Whenever the layer has run on `x`, the gradients it passes back and stores are those of its function. -/
def Exact {s o : Shape} {P : Nat} {fn : (Fin P → ℝ) → Elems s → Elems o} {θ : Fin P → ℝ} (K : Single s o P fn θ) (x : Elems s) :
    Prop :=
  ∀ bk pk l, K.After x bk pk l → Backprop (fn θ) x bk ∧ Backprop (fun t => fn t x) θ pk

/-! ### Activations -/

/-- An activation layer `l`. -/
def activation (s : Shape) (l : Cpu) (f : ℝ → ℝ) (d : ℝ → ℝ → ℝ) (hp : l.params = []) (hg : l.grads = [])
    (hu : ∀ ins gos, l.updateGradients ins gos = .ok l)
    (hf : ∀ (ev : Env) (x : Elems s) (old : List ℝ), old.length = size s →
      l.forward ev [⟨s, List.ofFn x⟩] [⟨s, old⟩] = .ok (l, List.ofFn fun i => f (x i)))
    (hb : ∀ (ev : Env) (x g A : Elems s) (store : List Buf) (h : Nat), store[h]? = some ⟨s, List.ofFn A⟩ →
      l.backward ev [⟨s, List.ofFn x⟩] [⟨s, List.ofFn fun i => f (x i)⟩] [⟨s, List.ofFn g⟩] [h] store =
        .ok (l, store.set h ⟨s, List.ofFn fun i => A i + d (x i) (g i)⟩)) (θ : Fin 0 → ℝ) : Single s s 0 (mapFn s f) θ where
  Ready l' := l' = l
  After x bk _ l' := l' = l ∧ bk = fun g i => d (x i) (g i)
  params h := by rw [h, hp, List.ofFn_zero]
  ready h := h.1
  det := fun h h' => ⟨h.2.trans h'.2.symm, no_params _ _⟩
  regradReady h v hv := by subst h; exact setGrads_nil hg hv
  regrad h v hv := ⟨by obtain ⟨rfl, -⟩ := h; exact setGrads_nil hg hv, h.2⟩
  forward _ h x old ho := ⟨l, _, fun _ => Fin.elim0, by rw [h]; exact hf _ x old ho, rfl, rfl⟩
  update h g := ⟨l, by rw [h.1, hu], ⟨rfl, h.2⟩, by rw [hg, List.ofFn_zero]⟩
  backward h g store i A hA := by
    obtain ⟨h1, rfl⟩ := h
    exact ⟨l, A, False.elim, fun _ => rfl, by rw [h1]; exact hb _ _ g A store i hA, ⟨rfl, rfl⟩, by rw [h1]⟩

theorem activation_exact {s : Shape} {l : Cpu} {f : ℝ → ℝ} {d : ℝ → ℝ → ℝ} {h1 h2 h3 h4 h5} {θ : Fin 0 → ℝ} {x : Elems s}
    (hd : ∀ i, ∃ d', HasDerivAt f d' (x i) ∧ ∀ g, d (x i) g = g * d') : Exact (activation s l f d h1 h2 h3 h4 h5 θ) x := by
  intro bk pk l h
  refine ⟨?_, backprop_empty _ _⟩
  obtain ⟨-, rfl⟩ := h
  choose d' hd' he using hd
  have := backprop_map (f := f) (x := x) hd'
  simp only [he]
  exact this

/-- **C26, C27**: the ReLU layer. -/
def reluK (s : Shape) (θ : Fin 0 → ℝ) : Single s s 0 (mapFn s relu) θ :=
  activation s .relu relu (fun x g => open Classical in if 0 < x then g else 0) rfl rfl (fun _ _ => rfl)
    (fun ev x old ho => by simp only [Cpu.forward, relu_forward s x old ho, Out.bind_ok])
    (fun ev x g A store h hs => writeFront_eq hs (by
      simp only [Out.idx, List.getElem?_cons_zero, Out.bind_ok, reluBwd]
      rw [act_backward_eq _ (fun x g => if 0 < x then g else 0) (fun m x g gi => by simp [reluInputGrad]) s s s x g A,
        Out.bind_ok])) θ

theorem relu_exact {s : Shape} {θ : Fin 0 → ℝ} {x : Elems s} (hd : DifferentiableAt ℝ (mapFn s relu θ) x) : Exact (reluK s θ) x := by
  refine activation_exact fun i => ⟨_, (differentiable_map hd i).hasDerivAt, fun g => ?_⟩
  rw [relu_deriv (differentiable_map hd i).hasDerivAt]
  simp

/-- The LeakyReLU layer. -/
def leakyReLUK (s : Shape) (alpha : ℝ) (θ : Fin 0 → ℝ) : Single s s 0 (mapFn s (leakyRelu alpha)) θ :=
  activation s (.leakyReLU alpha) (leakyRelu alpha) (fun x g => open Classical in if x < 0 then g * alpha else g) rfl rfl
    (fun _ _ => rfl) (fun ev x old ho => by simp only [Cpu.forward, leakyReLU_forward alpha s x old ho, Out.bind_ok])
    (fun ev x g A store h hs => writeFront_eq hs (by
      simp only [Out.idx, List.getElem?_cons_zero, Out.bind_ok, leakyReLUBwd]
      rw [act_backward_eq _ (fun x g => if x < 0 then g * alpha else g) (fun m x g gi => by simp [leakyReLUInputGrad])
        s s s x g A, Out.bind_ok])) θ

theorem leakyReLU_exact {s : Shape} {alpha : ℝ} {θ : Fin 0 → ℝ} {x : Elems s} (hd : DifferentiableAt ℝ (mapFn s (leakyRelu alpha) θ) x) :
    Exact (leakyReLUK s alpha θ) x := by
  refine activation_exact fun i => ⟨_, (differentiable_map hd i).hasDerivAt, fun g => ?_⟩
  rw [leakyRelu_deriv (differentiable_map hd i).hasDerivAt]
  simp

/-- The ELU layer. -/
def eluK (s : Shape) (alpha : ℝ) (θ : Fin 0 → ℝ) : Single s s 0 (mapFn s (elu alpha)) θ :=
  activation s (.elu alpha) (elu alpha) (fun x g => open Classical in g * if x < 0 then Real.exp x * alpha else 1) rfl rfl
    (fun _ _ => rfl) (fun ev x old ho => by simp only [Cpu.forward, elu_forward alpha s x old ho, Out.bind_ok])
    (fun ev x g A store h hs => writeFront_eq hs (by
      simp only [Out.idx, List.getElem?_cons_zero, Out.bind_ok, eluBwd]
      rw [act_backward_eq _ (fun x g => g * if x < 0 then Real.exp x * alpha else 1)
        (fun m x g gi => by simp [eluInputGrad]) s s s x g A, Out.bind_ok])) θ

theorem elu_exact {s : Shape} {alpha : ℝ} {θ : Fin 0 → ℝ} {x : Elems s} (hd : DifferentiableAt ℝ (mapFn s (elu alpha) θ) x) :
    Exact (eluK s alpha θ) x := by
  refine activation_exact fun i => ⟨_, (differentiable_map hd i).hasDerivAt, fun g => ?_⟩
  rw [elu_deriv (differentiable_map hd i).hasDerivAt]

/-- The Sigmoid layer. -/
def sigmoidK (s : Shape) (θ : Fin 0 → ℝ) : Single s s 0 (mapFn s sigmoid) θ :=
  activation s .sigmoid sigmoid (fun x g => g * (sigmoid x * (1 - sigmoid x))) rfl rfl
    (fun _ _ => rfl) (fun ev x old ho => by simp only [Cpu.forward, sigmoid_forward s x old ho, Out.bind_ok])
    (fun ev x g A store h hs => writeFront_eq hs (by
      simp only [Out.idx, List.getElem?_cons_zero, Out.bind_ok, sigmoidBwd]
      rw [act_backward_eq _ (fun y g => g * (y * (y * -1 + 1)))
        (fun m x g gi => by simp [sigmoidInputGrad]) s s s _ g A, Out.bind_ok]
      have : ∀ y : ℝ, y * -1 + 1 = 1 - y := fun y => by ring
      simp only [this])) θ

theorem sigmoid_exact {s : Shape} {θ : Fin 0 → ℝ} {x : Elems s} : Exact (sigmoidK s θ) x :=
  activation_exact fun i => ⟨_, sigmoid_deriv (x i), fun _ => rfl⟩

/-! ### Softmax -/

/-- The elements of a tensor as a matrix. -/
theorem ofFn_arr {s : Shape} {m n : Nat} (h : size s = m * n) (x : Elems s) :
    List.ofFn x = rowMajor (Function.curry (arr (matE h) x)) := by
  rw [← ofFn_mat h]
  simp [arr]

theorem ofFn_elems {s : Shape} {m n : Nat} (h : size s = m * n) (y : Fin m → Fin n → ℝ) :
    List.ofFn (elems (matE h) (Function.uncurry y)) = rowMajor y := ofFn_mat h _

theorem ofFn_add {s : Shape} {m n : Nat} (h : size s = m * n) (A : Elems s) (Y : Fin m × Fin n → ℝ) :
    (List.ofFn fun i => A i + elems (matE h) Y i) = rowMajor fun i j => Function.curry (arr (matE h) A) i j + Y (i, j) := by
  rw [ofFn_arr h]
  congr 1
  funext i j
  simp [Function.curry, arr, elems]

/-- **C28, C29**: the Softmax layer. -/
def softmaxK {B n : Nat} (hn : 0 < n) (θ : Fin 0 → ℝ) :
    Single [(B : Int), n] [(B : Int), n] 0 (softmaxFn (size_mat B n)) θ where
  Ready l := l = .softmax
  After x bk _ l := l = .softmax ∧ bk = fun g => elems (matE (size_mat B n)) fun p =>
    softmax (Function.curry (arr (matE (size_mat B n)) x)) p.1 p.2 * (arr (matE (size_mat B n)) g p -
      ∑ k, arr (matE (size_mat B n)) g (p.1, k) * softmax (Function.curry (arr (matE (size_mat B n)) x)) p.1 k)
  params h := by rw [h, List.ofFn_zero]; rfl
  ready h := h.1
  det := fun h h' => ⟨h.2.trans h'.2.symm, no_params _ _⟩
  regradReady h v _ := by subst h; rfl
  regrad h v _ := by obtain ⟨rfl, h⟩ := h; exact ⟨rfl, h⟩
  forward _ h x old ho := by
    refine ⟨.softmax, _, fun _ => Fin.elim0, ?_, rfl, rfl⟩
    rw [h, ofFn_arr (size_mat B n)]
    simp only [Cpu.forward, softmax_forward hn _ old (by rw [ho, size_mat]), Out.bind_ok, softmaxFn]
    rw [ofFn_elems]
  update h g := ⟨.softmax, by rw [h.1]; rfl, ⟨rfl, h.2⟩, by rw [List.ofFn_zero]; rfl⟩
  backward h g store i A hA := by
    obtain ⟨rfl, rfl⟩ := h
    refine ⟨.softmax, A, False.elim, fun _ => rfl, writeFront_eq hA ?_, ⟨rfl, rfl⟩, rfl⟩
    simp only [Out.idx, List.getElem?_cons_zero, Out.bind_ok, softmaxFn]
    rw [ofFn_elems, ofFn_arr (size_mat B n) g, ofFn_arr (size_mat B n) A, softmax_backward_eq, Out.bind_ok, ofFn_add]
    rfl

theorem softmax_exact {B n : Nat} {hn : 0 < n} {θ : Fin 0 → ℝ} {x : Elems [(B : Int), n]} : Exact (softmaxK (B := B) hn θ) x := by
  intro bk pk l h
  refine ⟨?_, backprop_empty _ _⟩
  obtain ⟨-, rfl⟩ := h
  exact backprop_unary _ _ (softmax_backprop _)

/-! ### Linear -/

theorem ofFn_affine {u n : Nat} (t : Fin (u * n + u) → ℝ) :
    List.ofFn t = rowMajor (fun k j => t ((affineE u n).symm (.inl (k, j)))) ++
      List.ofFn fun k => t ((affineE u n).symm (.inr k)) := by
  have h1 := ofFn_sum (P := u * n + u) rfl fun p => t ((sumE rfl).symm p)
  simp only [Equiv.symm_apply_apply] at h1
  rw [h1]
  congr 1
  have h2 := ofFn_mat (N := u * n) rfl fun p => t ((affineE u n).symm (.inl p))
  refine Eq.trans ?_ h2
  congr 1
  funext k
  simp [affineE]

theorem affine_append {u n : Nat} (W : Fin u × Fin n → ℝ) (b : Fin u → ℝ) :
    (List.ofFn fun k => Sum.elim W b (affineE u n k)) = rowMajor (Function.curry W) ++ List.ofFn b := by
  rw [ofFn_affine]
  simp only [Equiv.apply_symm_apply, Sum.elim_inl, Sum.elim_inr]
  rfl

/-- **C24, C25**: the Linear layer. -/
def linearK {B n u : Nat} {rest : Shape} (hne : rest ≠ []) (hs : Static rest) (hf : CountFits rest) (hc : count rest = n)
    (θ : Fin (u * n + u) → ℝ) :
    Single ((B : Int) :: rest) [(B : Int), u] (u * n + u) (linearFn (size_cons hc) (size_mat B u)) θ where
  Ready l := ∃ gw gb, l = .linear (layerOf (weightOf θ) (biasOf θ) gw gb) ∧ gw.length = u * n ∧ gb.length = u
  After x bk pk l := (∃ gw gb, l = .linear (layerOf (weightOf θ) (biasOf θ) gw gb) ∧ gw.length = u * n ∧ gb.length = u) ∧
    (bk = fun g => elems (matE (size_cons hc)) fun p => ∑ k, arr (matE (size_mat B u)) g (p.1, k) * weightOf θ k p.2) ∧
    pk = fun g k => Sum.elim (fun p : Fin u × Fin n => ∑ i, arr (matE (size_mat B u)) g (i, p.1) * arr (matE (size_cons hc)) x (i, p.2))
      (fun k => ∑ i, arr (matE (size_mat B u)) g (i, k)) (affineE u n k)
  params := by
    rintro l ⟨gw, gb, rfl, -, -⟩
    rw [ofFn_affine]
    rfl
  ready h := h.1
  det := fun h h' => ⟨h.2.1.trans h'.2.1.symm, h.2.2.trans h'.2.2.symm⟩
  regradReady := by
    rintro l ⟨gw, gb, rfl, hw, hb⟩ v hv
    simp only [Cpu.grads, layerOf, List.length_append, hw, hb] at hv
    exact ⟨v.take gw.length, v.drop gw.length, rfl, by simp [hw, hv], by simp [hw, hv]⟩
  regrad := by
    rintro x bk pk l ⟨⟨gw, gb, rfl, hw, hb⟩, h⟩ v hv
    simp only [Cpu.grads, layerOf, List.length_append, hw, hb] at hv
    exact ⟨⟨v.take gw.length, v.drop gw.length, rfl, by simp [hw, hv], by simp [hw, hv]⟩, h⟩
  forward := by
    rintro ev l - ⟨gw, gb, rfl, hw, hb⟩ x old ho
    refine ⟨_, _, _, ?_, ⟨gw, gb, rfl, hw, hb⟩, rfl, rfl⟩
    rw [ofFn_arr (size_cons hc) x]
    simp only [Cpu.forward, linear_forward hne hs hf hc _ (weightOf θ) (biasOf θ) gw gb old (by rw [ho, size_mat]), Out.bind_ok,
      linearFn]
    rw [ofFn_elems]
  update := by
    rintro x bk pk l ⟨⟨gw, gb, rfl, hw, hb⟩, rfl, rfl⟩ g
    refine ⟨.linear (layerOf (weightOf θ) (biasOf θ) (rowMajor fun k j => ∑ i, arr (matE (size_mat B u)) g (i, k) *
      arr (matE (size_cons hc)) x (i, j)) (List.ofFn fun k => ∑ i, arr (matE (size_mat B u)) g (i, k))), ?_,
      ⟨⟨_, _, rfl, by simp, by simp⟩, rfl, rfl⟩, ?_⟩
    · simp only [Cpu.updateGradients, Out.idx, List.getElem?_cons_zero, Out.bind_ok]
      rw [ofFn_arr (size_cons hc) x, ofFn_arr (size_mat B u) g, layerOf, linear_update_eq hs hf hc _ _ _ gw gb hw hb, Out.bind_ok]
      rfl
    · rw [affine_append]
      rfl
  backward := by
    rintro ev x bk pk l ⟨⟨gw, gb, rfl, hw, hb⟩, rfl, rfl⟩ g store i A hA
    refine ⟨_, A, False.elim, fun _ => rfl, writeFront_eq hA ?_, ⟨⟨gw, gb, rfl, hw, hb⟩, rfl, rfl⟩, rfl⟩
    simp only [Out.idx, List.getElem?_cons_zero, Out.bind_ok]
    rw [ofFn_arr (size_mat B u) g, ofFn_arr (size_cons hc) A, layerOf, linear_backward_eq hs hf hc, Out.bind_ok,
      ofFn_add]
    rfl

theorem linear_param_backprop {s o : Shape} {B n u : Nat} (hs : size s = B * n) (ho : size o = B * u) (x : Elems s)
    (θ : Fin (u * n + u) → ℝ) :
    Backprop (fun t => linearFn hs ho t x) θ fun g k =>
      Sum.elim (fun p : Fin u × Fin n => ∑ i, arr (matE ho) g (i, p.1) * arr (matE hs) x (i, p.2))
        (fun k => ∑ i, arr (matE ho) g (i, k)) (affineE u n k) := by
  let X := Function.curry (arr (matE hs) x)
  have h1 := linear_backprop_weight (u := u) X 0 fun p => θ ((affineE u n).symm (.inl p))
  have h2 := linear_backprop_bias X (0 : Fin u → Fin n → ℝ) fun k => θ ((affineE u n).symm (.inr k))
  have h3 := backprop_sum (c := 0) (f := fun y => Function.uncurry (linear X (fun k j => y (.inl (k, j))) fun k => y (.inr k)))
    (x := fun i => θ ((affineE u n).symm i)) (fun y k => by simp [Function.uncurry, linear, Function.curry]) h1 h2
  exact backprop_param (affineE u n) (matE ho) h3

theorem linear_exact {B n u : Nat} {rest : Shape} {hne : rest ≠ []} {hs : Static rest} {hf : CountFits rest}
    {hc : count rest = n} {θ : Fin (u * n + u) → ℝ} {x : Elems ((B : Int) :: rest)} :
    Exact (linearK (B := B) (u := u) hne hs hf hc θ) x := by
  intro bk pk l h
  obtain ⟨-, rfl, rfl⟩ := h
  refine ⟨backprop_unary _ _ (linear_backprop_input _ _ _), ?_⟩
  exact linear_param_backprop (size_cons hc) (size_mat B u) x θ

end

end DW.Props.ContractP
