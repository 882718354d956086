import Verif.Props.SampleForward
import Verif.Props.GradientDescent
/-!
# The training programs of the samples (C96)
-/

set_option autoImplicit false

namespace DW.Props.SampleModelsP

open DW DW.Spec DW.Samples DW.GraphL DW.SampleL DW.ValueL DW.MatL DW.FlatL DW.Props.BackendP DW.Props.GraphP DW.AgainL DW.DL DW.NetL
  DW.Props.EpochP DW.Props.LoopP DW.Props.TrainP DW.Props.LossP DW.Optim DW.OptL DW.EpochL DW.HistL DW.BackendL

noncomputable section

section

variable {topo : Graph → List Node} {e : Expr} {m : Model} {real : F32 → ℝ} {tensors : Nat → InfoTensors} {L : Layers e} {θ₀ : L.Params}
  {B n out : Nat}

/-- Layers with trainable parameters compute exact gradients, except dropout. -/
theorem exact_of_trainable {t : InfoTensors} {op : Op} {k : Nat} {ishape : Fin k → Shape} {o : Shape} {P : Nat}
    {fn : (Nat → ℝ) → (Fin P → ℝ) → Args ishape → Elems o} {ϑ : Fin P → ℝ} {ex : Prop} (h : Computes real t op ishape o P fn ϑ ex)
    (ht : Trainable t) (hd : ∀ p, op ≠ .dropout p) : ex := by
  have no : ∀ {name s vals}, ¬ HasParam t name s vals false := fun ⟨g, hg, _⟩ => absurd (ht _ _ hg) (by simp)
  cases h with
  | one hn hs ho h =>
    cases h with
    | batchNorm1DEval _ _ _ _ _ _ _ _ _ hg => exact absurd hg no
    | batchNorm2DEval _ _ _ _ _ _ _ _ _ _ hg => exact absurd hg no
    | dropout p => exact absurd rfl (hd p)
    | dropoutEval p => exact absurd rfl (hd p)
    | _ => trivial
  | add => trivial

theorem predOf_rows {s : Shape} (h : s = [(B : Int), n]) (u : Elems s) : predOf h u = rowsOf B n u := by
  rw [← arr_matE (show size s = B * n by rw [h]; exact size_mat B n)]
  rfl

/-- Predictions computed by a `Softmax` layer are positive. -/
theorem softmax_positive {ins outs : List Nat} (Bt : Built topo e ins outs m real tensors L θ₀) {c : Nat} (hx : out ∈ dataOf m)
    (hc : e.callOf out = some c) (hop : (infoOf e (e.callInfo c)).op = .softmax) (hs : phShape e out = [(B : Int), n]) {env : Nat → Env}
    {θ : L.Params} {v : Vals e} (hv : (L.net m env).Evaluates θ v) (i : Fin B) (j : Fin n) : 0 < predOf hs (v out) i j := by
  obtain ⟨B', n', hs', hr⟩ := softmax_rows (Bt.layers out hx c hc) hop
  have h1 := hv out (mem_net.2 ⟨hx, by rw [hc]; rfl⟩)
  rw [predOf_rows hs, h1]
  have := hs.symm.trans hs'
  simp only [List.cons.injEq, Nat.cast_inj, and_true] at this
  obtain ⟨rfl, rfl⟩ := this
  exact (hr _ _ _ i).1 j

end

/-! ### The samples -/

/-- The data are for the network: batches of `B` samples of the shape `input`, with one label of `n` classes each. -/
structure DataFits {σ : Type} (B : Nat) (input : List Nat) (n : Nat) (S : Setup σ) : Prop where
  batch : S.train.batch = B
  vbatch : S.val.batch = B
  sample : S.train.dataset.shapeX = input.map Nat.cast
  vsample : S.val.dataset.shapeX = input.map Nat.cast
  label : S.train.dataset.shapeY = [1]
  vlabel : S.val.dataset.shapeY = [1]
  fits : (S.train.dataset.size : Int) + B ≤ 2147483647
  vfits : (S.val.dataset.size : Int) + B ≤ 2147483647
  enough : B ≤ S.train.dataset.size
  venough : B ≤ S.val.dataset.size
  order : S.val.shuffle = false
  classes : ∀ k : Int, 0 ≤ k → k < S.train.dataset.size → ∃ c : Fin n, S.train.dataset.y k 0 = c.val

/-- The constants of batch normalisation are as they should be: a positive epsilon, and an averaging factor between 0 and 1. -/
def NormOk (real : F32 → ℝ) : Op → Prop
  | .batchNorm1D eps alpha | .batchNorm2D eps alpha => 0 < real eps ∧ 0 ≤ real alpha ∧ real alpha ≤ 1
  | _ => True

theorem NormOk.eps {real : F32 → ℝ} {op : Op} (h : NormOk real op) : EpsPos real op := by
  cases op <;> first | trivial | exact h.1

/-- A program that trains the model of the expressions with input 0 and output `out` does gradient descent. The model has the layers
`l`, and trainable parameters and running statistics of the right shapes; the program may have used the model before in any way, and
has any parameters in it. It makes the optimizer for `model.params()` and trains for any number of epochs, on any data and with any
shuffling. Then there is a descent from those parameters that the program follows: it prints for each epoch the mean of its losses and
the fraction of the validation samples that the model classifies correctly in evaluation mode, and leaves the parameters of the descent
in the model (`Reports`). It follows every descent that does not meet a kink. -/
def Trains (e : Expr) (real : F32 → ℝ) (B : Nat) (input : List Nat) (l : List Step) (n : Nat) {σ : Type} (M : Method σ) :
    Prop :=
  ∀ (topo : Graph → List Node) (tensors : Nat → InfoTensors) (m : Model) (L : Layers e) (θ₀ : L.Params), NetTensors B input l tensors →
    (∀ i, Trainable (tensors i)) → Built topo e [0] [l.length] m real tensors L θ₀ →
    ∀ (S : Setup σ), S.step = M.step → DataFits B input n S → Possible B S →
    ∃ hs : phShape e l.length = [(B : Int), n], ∀ θ : L.Params,
      (∃ Θ v Lb gr, Descent L m 0 hs S M.rule θ Θ v Lb gr) ∧
      ∀ epochNo fuel, batches S.train < fuel → batches S.val < fuel → ∀ last w b, History e [0] [l.length] m real tensors L θ₀ θ last w →
        EpochArgs e m 0 l.length B w b S.x S.p S.y S.g →
        (∃ Θ v Lb gr, Descent L m 0 hs S M.rule θ Θ v Lb gr ∧
          Reports topo e 0 l.length m real hs S v Lb Θ fuel epochNo w b
            (M.create ((objects true b.layers).map Prod.snd) (paramMap e m true b.layers))) ∧
        ∀ Θ v Lb gr, Descent L m 0 hs S M.rule θ Θ v Lb gr → (∀ r < epochNo * batches S.train, NoKinks e m (v r)) →
          Reports topo e 0 l.length m real hs S v Lb Θ fuel epochNo w b
            (M.create ((objects true b.layers).map Prod.snd) (paramMap e m true b.layers))

variable {B K n : Nat} {input : List Nat} {l : List Step} {real : F32 → ℝ} {e : Expr}

theorem net_step (h : IsNet e B input l) {x c : Nat} (hc : e.callOf x = some c) :
    ∃ s, x = c + 1 ∧ l[c]? = some s ∧ e.callInfo c = c ∧ (infoOf e c).op = s.op := by
  obtain ⟨rfl, hl⟩ := net_callOf_inv h hc
  exact ⟨l[c], rfl, List.getElem?_eq_getElem hl, net_callInfo h hl, (net_info h (List.getElem?_eq_getElem hl)).2⟩

theorem goodVar_of {t : InfoTensors} {op : Op} {rs : List (List Nat)} {o : List Nat} (hf : fitsOk K op rs o = true) (hn : NormOk real op)
    (ht : TensorsFit t op (rs.map (batchOf B))) (hK : K ≤ 2147483647) : GoodVar real t op := by
  obtain ⟨train, ht⟩ := ht
  have key : ∀ c : Nat, c ≤ 2147483647 →
      initEntries op (rs.map (batchOf B)) = (do tensorShapeOk [(c : Int)]
                                                pure ([("gamma", [(c : Int)]), ("beta", [(c : Int)])],
                                                  [("running_mean", [(c : Int)]), ("running_var", [(c : Int)])])) →
      ∀ b, t.buffers.lookup "running_var" = some b → ∀ v ∈ b.vals, 0 ≤ v := by
    intro c hc hi b hb v hv
    have hok : tensorShapeOk [(c : Int)] = .ok () := by
      have h1 : Tensor.fitsInt (c : Int) = true := by simp [Tensor.fitsInt]; omega
      simp [tensorShapeOk, Tensor.hasNegative, Tensor.accProd, Out.check, h1]
    rw [hok] at hi
    obtain ⟨-, h2⟩ := ht _ _ hi
    obtain ⟨vals, h3, -, h4⟩ := h2 ("running_var", [(c : Int)]) (by simp)
    unfold HasBuffer at h3
    obtain rfl := Option.some.inj (hb.symm.trans h3)
    exact h4 rfl v hv
  cases op with
  | batchNorm1D eps alpha =>
    obtain ⟨-, h1, h2⟩ := hn
    match rs, hf with
    | [[c]], hf =>
      simp only [fitsOk, small, List.all_cons, List.all_nil, Bool.and_true, List.prod_cons, List.prod_nil, mul_one, Bool.and_eq_true,
        decide_eq_true_eq] at hf
      exact ⟨h1, h2, key c (by omega) rfl⟩
  | batchNorm2D eps alpha =>
    obtain ⟨-, h1, h2⟩ := hn
    match rs, hf with
    | [[c, h, w]], hf =>
      simp only [fitsOk, small, List.all_cons, List.all_nil, Bool.and_true, List.prod_cons, List.prod_nil, mul_one, Bool.and_eq_true,
        decide_eq_true_eq] at hf
      have : c ≤ c * (h * w) := Nat.le_mul_of_pos_right _ (Nat.mul_pos hf.1.2.1 hf.1.2.2)
      exact ⟨h1, h2, key c (by omega) rfl⟩
  | _ => trivial

theorem net_trains (hr : Reachable e) (h : IsNet e B input l) (hc : Checked K input l) (hB : 0 < B) (hK : B * K ≤ 2147483647)
    (he : ∀ s ∈ l, NormOk real s.op) (hn : restAt input l l.length = [n]) (hn0 : 0 < n) (hn1 : n ≤ K)
    (hop : ∃ s, l[l.length - 1]? = some s ∧ s.op = .softmax) {σ : Type} {M : Method σ} (hM : Follows M)
    (hD : Descends M) (hcau : Causal M.rule) : Trains e real B input l n M := by
  intro topo tensors m L θ₀ ht htr Bt S hstep hdata pos
  have hs : phShape e l.length = [(B : Int), n] := by rw [net_phShape h le_rfl, hn]; rfl
  obtain ⟨e', hm⟩ := Bt.ctor
  have hK' : K ≤ 2147483647 := Nat.le_trans (Nat.le_mul_of_pos_left K hB) hK
  have hstepf : ∀ {c : Nat} {s : Step}, l[c]? = some s → fitsOk K s.op (s.args.map (restAt input l)) s.rest = true := fun hs =>
    List.all_eq_true.1 hc.fits _ (List.mem_of_getElem? hs)
  have nodrop : ∀ x c, e.callOf x = some c → ∀ p, (infoOf e (e.callInfo c)).op ≠ .dropout p := by
    intro x c hcx p hp
    obtain ⟨s, -, hs, hi, ho⟩ := net_step h hcx
    rw [hi, ho] at hp
    have := hstepf hs
    rw [hp] at this
    simp [fitsOk] at this
  have hx : ∀ x ∈ dataOf m, (e.callOf x).isSome → L.exact x := fun x hx hcx => by
    obtain ⟨c, hcx⟩ := Option.isSome_iff_exists.1 hcx
    exact exact_of_trainable (Bt.layers x hx c hcx) (htr _) (nodrop x c hcx)
  have ho : SoleConsumer e m [l.length] := net_sole h hc
  have hd : ∀ x ∈ dataOf m, ∀ c, e.callOf x = some c → DropOk real (infoOf e (e.callInfo c)).op (phShape e x) :=
    fun x _ c hcx p hp => absurd hp (nodrop x c hcx p)
  have hg : ∀ x ∈ dataOf m, ∀ c, e.callOf x = some c → GoodVar real (tensors (e.callInfo c)) (infoOf e (e.callInfo c)).op := by
    intro x _ c hcx
    obtain ⟨s, -, hs, hi, hop⟩ := net_step h hcx
    rw [hi, hop]
    refine goodVar_of (B := B) (hstepf hs) (he s (List.mem_of_getElem? hs)) ?_ hK'
    have := ht c s hs
    rwa [List.map_map]
  have fit : LoadersFit e 0 l.length B n S :=
    { pos := hB, classes := hn0, out := hs, small := Nat.le_trans (Nat.mul_le_mul_left B hn1) hK, batch := hdata.batch,
      vbatch := hdata.vbatch, sample := by rw [net_phShape h (Nat.zero_le _), hdata.sample]; rfl,
      vsample := by rw [net_phShape h (Nat.zero_le _), hdata.vsample]; rfl, label := hdata.label, vlabel := hdata.vlabel,
      fits := hdata.fits, vfits := hdata.vfits, enough := hdata.enough, venough := hdata.venough, order := hdata.order }
  have hpos : ∀ (env : Nat → Env) (θ : L.Params) (v : Vals e), (L.net m env).Evaluates θ v → ∀ i j, 0 < predOf fit.out (v l.length) i j := by
    intro env θ v hv i j
    obtain ⟨s, hs, hop⟩ := hop
    have hl := (List.getElem?_eq_some_iff.1 hs).1
    have hcall := net_callOf h hl
    rw [Nat.sub_add_cancel (by omega)] at hcall
    refine softmax_positive Bt ((net_data hr h hc Bt.sorts hm _).2 le_rfl) hcall ?_ fit.out hv i j
    rw [net_callInfo h hl, (net_info h hs).2, hop]
  refine ⟨hs, fun θ => ⟨descent_exists Bt ho fit pos hx hdata.classes hpos hcau θ, ?_⟩⟩
  intro epochNo fuel hf1 hf2 last w b hist ha
  refine ⟨hD topo e m real tensors L θ₀ 0 l.length B n θ S hstep Bt (fun x _ c _ => htr _) ho hd hg fit pos hx hdata.classes hpos epochNo fuel
    hf1 hf2 last w b hist ha, fun Θ v Lb gr D hk => ?_⟩
  refine hM topo e m real tensors L θ₀ 0 l.length B n θ v Lb Θ gr S hstep Bt (fun x _ c _ => htr _) ho hd hg fit pos hx epochNo
    ⟨⟨fun r _ => ⟨D.values r, fun _ _ => rfl⟩, fun r hr => ⟨hk r hr, fun i => hpos _ _ _ (D.values r) i _⟩, fun r hr => D.gradient r (hk r hr)⟩,
      fun i _ k hk => D.feeds i k hk⟩ (fun r _ x i => D.moves r x i) fuel hf1 hf2 last w b hist ha

/-- Layers other than batch normalisation do not matter. -/
theorem norms_of {l : List Step} {op : Op} (he : NormOk real op)
    (hl : l.all (fun s => match s.op with | .batchNorm1D _ _ | .batchNorm2D _ _ => decide (s.op = op) | _ => true) = true) :
    ∀ s ∈ l, NormOk real s.op := by
  intro s hs
  have := List.all_eq_true.1 hl s hs
  cases hop : s.op <;> simp only [hop, decide_eq_true_eq] at this ⊢ <;> first | trivial | exact this ▸ he

/-- **C96**: the training program of the MNIST sample, for every batch size up to the limit of `int` and every reading `real` of the
constants of the code in which they are as they should be. -/
theorem mnist_trained (hB : 0 < B) (hK : B * 784 ≤ 2147483647) (he : NormOk real norm1D) :
    ∃ e, buildMNIST B {} = (.ok (0, 5), e) ∧ ∀ lr gamma, Trains e real B [784] (denseNet 10) 10 (momentumMethod lr gamma) := by
  obtain ⟨e, h1, h2, h3⟩ := buildMNIST_net B
  exact ⟨e, h1, fun lr gamma => net_trains h2 h3 denseNet_checked hB hK (norms_of he (by decide +kernel)) rfl (by norm_num) (by norm_num) ⟨_, rfl, rfl⟩
    (momentum_follows lr gamma) (momentum_descends lr gamma) (momentum_causal lr gamma)⟩

/-- **C96** for the Iris sample. -/
theorem iris_trained (hB : 0 < B) (hK : B * 100 ≤ 2147483647) (he : NormOk real norm1D) :
    ∃ e, buildIris B {} = (.ok (0, 5), e) ∧ ∀ lr gamma, Trains e real B [4] (denseNet 3) 3 (momentumMethod lr gamma) := by
  obtain ⟨e, h1, h2, h3⟩ := buildIris_net B
  exact ⟨e, h1, fun lr gamma => net_trains h2 h3 iris_checked hB hK (norms_of he (by decide +kernel)) rfl (by norm_num) (by norm_num) ⟨_, rfl, rfl⟩
    (momentum_follows lr gamma) (momentum_descends lr gamma) (momentum_causal lr gamma)⟩

/-- **C96** for the CIFAR-10 sample. -/
theorem cifar10_trained (hB : 0 < B) (hK : B * 409600 ≤ 2147483647) (he : NormOk real norm1D) :
    ∃ e, buildCIFAR10 B {} = (.ok (0, 14), e) ∧ ∀ lr beta0 beta1 eps t0, Trains e real B [3, 32, 32] cifar10Net 10 (adamMethod lr beta0 beta1 eps t0) := by
  obtain ⟨e, h1, h2, h3⟩ := buildCIFAR10_net B
  exact ⟨e, h1, fun lr beta0 beta1 eps t0 => net_trains h2 h3 cifar10_checked hB hK (norms_of he (by decide +kernel)) rfl (by norm_num) (by norm_num) ⟨_, rfl, rfl⟩
    (adam_follows lr beta0 beta1 eps t0) (adam_descends lr beta0 beta1 eps t0) (adam_causal lr beta0 beta1 eps t0)⟩

/-- **C96** for the CIFAR-100 sample. -/
theorem resnet_trained (hB : 0 < B) (hK : B * 147456 ≤ 2147483647) (he : NormOk real norm2D) :
    ∃ e, buildResnet B {} = (.ok (0, 52), e) ∧ ∀ lr gamma, Trains e real B [3, 32, 32] resnet 100 (momentumMethod lr gamma) := by
  obtain ⟨e, h1, h2, h3⟩ := buildResnet_net B
  exact ⟨e, h1, fun lr gamma => net_trains h2 h3 resnet_checked hB hK (norms_of he (by decide +kernel)) (by decide +kernel) (by norm_num) (by norm_num) (by decide +kernel)
    (momentum_follows lr gamma) (momentum_descends lr gamma) (momentum_causal lr gamma)⟩

/-! ### A descent without kinks -/

/-- With positive weights and biases in the first layer and samples without negative elements, the network of the MNIST sample does not
meet a kink. -/
theorem dense_noKinks {k n : Nat} {topo : Graph → List Node} {m : Model} {t : Nat → InfoTensors} {L : Layers e} {θ : L.Params}
    (h : IsNet e B [k] (denseNet n)) (hc : Checked K [k] (denseNet n)) (Bt : Built topo e [0] [5] m real t L θ)
    {env : Nat → Env} {v : Vals e} (hv : (L.net m env).Evaluates θ v) {a : ℝ} (ha : 0 < a) (hall : ∀ i, AllParams a (t i))
    (h0 : ∀ i, 0 ≤ v 0 i) : NoKinks e m v := by
  have hval := net_values h hc Bt hv
  intro x hx c hcx
  obtain ⟨s, rfl, hs, hi, hop⟩ := net_step h hcx
  rw [hi, hop]
  have hcl := (List.getElem?_eq_some_iff.1 hs).1
  have : c = 0 ∨ c = 1 ∨ c = 2 ∨ c = 3 ∨ c = 4 := by simp [denseNet] at hcl; omega
  rcases this with rfl | rfl | rfl | rfl | rfl <;> obtain rfl := Option.some.inj hs <;> try trivial
  obtain ⟨p, hp⟩ := affine_in hval (i := 0) (a := 0) (k := k) (u := 100) rfl (by simp [restAt])
  have hl := v_linear hval (i := 0) (a := 0) (k := k) rfl (by simp [restAt]) hp
  obtain ⟨⟨tw, pw, hw1, -⟩, tb, pb, hb1, -⟩ := hp
  have hw : ∀ q r, p.weight q r = a := fun q r => hall 0 _ _ hw1 _ (List.mem_of_getElem? (rowMajor_getElem? p.weight q r))
  have hb : ∀ q, p.bias q = a := fun q => hall 0 _ _ hb1 _ (List.mem_ofFn.2 ⟨q, rfl⟩)
  have pos : ∀ (i : Fin B) (j : Fin 100), 0 < rowsOf B 100 (v 1) i j := fun i j => by
    rw [hl]
    refine add_pos_of_nonneg_of_pos (Finset.sum_nonneg fun q _ => mul_nonneg ?_ ?_) ?_
    · show 0 ≤ entry _ _
      unfold entry
      split
      · exact h0 _
      · exact le_rfl
    · rw [hw]; exact ha.le
    · rw [hb]; exact ha
  have hsz : size (phShape e 1) = B * 100 := by
    rw [show phShape e 1 = [(B : Int), 100] from net_phShape h (by simp [denseNet])]
    exact size_mat B 100
  have hne : ∀ q : Fin (size (phShape e 1)), v 1 q ≠ 0 := fun q => by
    have hq : q.val < B * 100 := hsz ▸ q.2
    have := pos ⟨q.val / 100, by omega⟩ ⟨q.val % 100, Nat.mod_lt _ (by norm_num)⟩
    have he : q.val / 100 * 100 + q.val % 100 = q.val := by omega
    simp only [rowsOf, he, entry, q.2, dif_pos] at this
    exact this.ne'
  have hargs : e.argsOf 2 = [1] := net_argsOf h (i := 1) rfl
  have key : ∀ y ∈ e.argsOf 2, ∀ q : Fin (size (phShape e y)), v y q ≠ 0 := fun y hy => by
    rw [hargs] at hy
    obtain rfl := List.mem_singleton.1 hy
    exact hne
  exact fun j q => key _ (List.getElem_mem _) q

/-- The MNIST sample with the batch size 32: all parameters 1, any samples without negative elements, in any order. The program can
run, and the first round does not meet a kink, so that `mnist_trained` says what an epoch of one round does, for any learning rate. -/
example (train val : Dataset ℝ) (ht : train.shapeX = [784] ∧ train.shapeY = [1] ∧ 32 ≤ train.size ∧ train.size ≤ 63)
    (hv : val.shapeX = [784] ∧ val.shapeY = [1] ∧ 32 ≤ val.size ∧ val.size ≤ 60000) (hlab : ∀ k, ∃ c : Fin 10, train.y k 0 = c.val)
    (hnn : ∀ k j, 0 ≤ train.x k j)
    (rands : Nat → Nat → List Int) (hr : ∀ i k, (rands i k).length = 32 ∧ ∀ v ∈ rands i k, 0 ≤ v ∧ v < train.size) (lr gamma : ℝ) :
    ∃ (e : Expr) (m : Model) (t : Nat → InfoTensors) (L : Layers e) (θ₀ : L.Params) (w : World) (b : Backend) (x p y g : Nat)
      (env : Nat → Nat → Nat → Env) (hs : phShape e 5 = [((32 : Nat) : Int), (10 : Nat)]) (v : Nat → Vals e) (Lb : Nat → Fin 32 → Fin 10) (Θ : Nat → L.Params),
    buildMNIST 32 {} = (.ok (0, 5), e) ∧ Built (creationOrder e) e [0] [5] m (fun _ => 1) t L θ₀ ∧
    History e [0] [5] m (fun _ => 1) t L θ₀ θ₀ none w ∧ EpochArgs e m 0 5 32 w b x p y g ∧ NoKinks e m (v 0) ∧
    Reports (creationOrder e) e 0 5 m (fun _ => 1) hs
      ⟨momentumStep, ⟨train, 32, true⟩, ⟨val, 32, false⟩, x, p, y, g, fun _ => 0, rands, fun _ _ => [], env, env, env⟩ v Lb Θ 60000 1 w b
      (Momentum.create ((objects true b.layers).map Prod.snd) (paramMap e m true b.layers) lr gamma) := by
  obtain ⟨e, h1, hT⟩ := mnist_trained (B := 32) (real := fun _ => 1) (by norm_num) (by norm_num) (by norm_num [NormOk, norm1D])
  obtain ⟨e', h1', h2, h3, h4⟩ := mnist_model (B := 32) (real := fun _ => 1) (by norm_num) (by norm_num) (by norm_num [EpsPos, norm1D])
  obtain rfl : e' = e := (Prod.mk.inj (h1'.symm.trans h1)).2
  obtain ⟨m, e₁, hm, -, -, hb⟩ := h4 (creationOrder e') (topological_order_exists h2 (by
    intro x hx
    obtain rfl := List.mem_singleton.1 hx
    rw [net_phs_length h3]; simp [denseNet]))
  obtain ⟨t, ht1, ht2, ht3⟩ := netTensors_filled 1 32 [784] (denseNet 10)
  obtain ⟨L, θ₀, hL⟩ := hb t ht1
  obtain ⟨pick, hpick⟩ := Props.MaxPoolP.exists_pick
  let env : Nat → Nat → Nat → Env := fun _ _ _ => ⟨fun _ => 0, fun _ => 0, pick⟩
  obtain ⟨w, b, x, p, y, g, hist, ha⟩ := epoch_session hL 32
  let S : Setup Momentum :=
    ⟨momentumStep, ⟨train, 32, true⟩, ⟨val, 32, false⟩, x, p, y, g, fun _ => 0, rands, fun _ _ => [], env, env, env⟩
  have hdata : DataFits 32 [784] 10 S := ⟨rfl, rfl, ht.1, hv.1, ht.2.1, hv.2.1, by have := ht.2.2.2; simp only [S]; omega,
    by have := hv.2.2.2; simp only [S]; omega, ht.2.2.1, hv.2.2.1, rfl, fun k _ _ => hlab k⟩
  obtain ⟨hs, hD⟩ := hT lr gamma _ t m L θ₀ ht1 ht2 hL S rfl hdata ⟨fun _ => hr, fun _ _ _ => hpick, fun _ _ _ => hpick⟩
  obtain ⟨⟨Θ, v, Lb, gr, D⟩, hrep⟩ := hD θ₀
  have hbt : batches S.train = 1 := by
    have := ht.2.2
    show train.size / 32 = 1
    omega
  have hΘ : Θ 0 = θ₀ := by funext x i; exact D.moves 0 x i
  have hk : NoKinks e' m (v 0) := by
    have hv0 := D.values 0
    rw [hΘ] at hv0
    refine dense_noKinks h3 denseNet_checked hL hv0 one_pos ht3 fun i => ?_
    have := (D.feeds 0 0 (by rw [hbt]; norm_num)).inputs
    rw [hbt] at this
    have hi : v 0 0 i ∈ List.ofFn (v 0 0) := List.mem_ofFn.2 ⟨i, rfl⟩
    rw [show (0 * 1 + 0 : Nat) = 0 from rfl] at this
    rw [this] at hi
    obtain ⟨k, -, hi⟩ := List.mem_flatMap.1 hi
    obtain ⟨j, -, hi⟩ := List.mem_map.1 hi
    rw [← hi]
    exact hnn _ _
  exact ⟨e', m, t, L, θ₀, w, b, x, p, y, g, env, hs, v, Lb, Θ, h1, hL, hist, ha, hk, (hrep 1 60000 (by rw [hbt]; norm_num)
    (by show val.size / 32 < 60000; have := hv.2.2.2; omega) none w b hist ha).2 Θ v Lb gr D fun r hr => by
    rw [hbt] at hr
    obtain rfl : r = 0 := by omega
    exact hk⟩

/-- The CIFAR-10 sample with the batch size 16: any samples and any number of epochs, also through kinks. The program can run, and there
is a descent it follows. -/
example (train val : Dataset ℝ) (ht : train.shapeX = [3, 32, 32] ∧ train.shapeY = [1] ∧ 16 ≤ train.size ∧ train.size ≤ 60000)
    (hv : val.shapeX = [3, 32, 32] ∧ val.shapeY = [1] ∧ 16 ≤ val.size ∧ val.size ≤ 60000) (hlab : ∀ k, ∃ c : Fin 10, train.y k 0 = c.val)
    (rands : Nat → Nat → List Int) (hr : ∀ i k, (rands i k).length = 16 ∧ ∀ v ∈ rands i k, 0 ≤ v ∧ v < train.size)
    (epochNo : Nat) (lr beta0 beta1 eps : ℝ) :
    ∃ (e : Expr) (m : Model) (t : Nat → InfoTensors) (L : Layers e) (θ₀ : L.Params) (w : World) (b : Backend) (x p y g : Nat)
      (env : Nat → Nat → Nat → Env) (hs : phShape e 14 = [((16 : Nat) : Int), (10 : Nat)]) (v : Nat → Vals e) (Lb : Nat → Fin 16 → Fin 10)
      (Θ gr : Nat → L.Params) (S : Setup Adam),
    S = ⟨adamStep, ⟨train, 16, true⟩, ⟨val, 16, false⟩, x, p, y, g, fun _ => 0, rands, fun _ _ => [], env, env, env⟩ ∧
    buildCIFAR10 16 {} = (.ok (0, 14), e) ∧ Built (creationOrder e) e [0] [14] m (fun _ => 1) t L θ₀ ∧
    History e [0] [14] m (fun _ => 1) t L θ₀ θ₀ none w ∧ EpochArgs e m 0 14 16 w b x p y g ∧
    Descent L m 0 hs S (adamMethod lr beta0 beta1 eps 0).rule θ₀ Θ v Lb gr ∧
    Reports (creationOrder e) e 0 14 m (fun _ => 1) hs S v Lb Θ 60000 epochNo w b
      (Adam.create ((objects true b.layers).map Prod.snd) (paramMap e m true b.layers) lr beta0 beta1 eps 0) := by
  obtain ⟨e, h1, hT⟩ := cifar10_trained (B := 16) (real := fun _ => 1) (by norm_num) (by norm_num) (by norm_num [NormOk, norm1D])
  obtain ⟨e', h1', h2, h3, h4⟩ := cifar10_model (B := 16) (real := fun _ => 1) (by norm_num) (by norm_num) (by norm_num [EpsPos, norm1D])
  obtain rfl : e' = e := (Prod.mk.inj (h1'.symm.trans h1)).2
  obtain ⟨m, e₁, hm, -, -, hb⟩ := h4 (creationOrder e') (topological_order_exists h2 (by
    intro x hx
    obtain rfl := List.mem_singleton.1 hx
    rw [net_phs_length h3]; decide))
  obtain ⟨t, ht1, ht2, -⟩ := netTensors_filled 1 16 [3, 32, 32] cifar10Net
  obtain ⟨L, θ₀, hL⟩ := hb t ht1
  obtain ⟨pick, hpick⟩ := Props.MaxPoolP.exists_pick
  let env : Nat → Nat → Nat → Env := fun _ _ _ => ⟨fun _ => 0, fun _ => 0, pick⟩
  obtain ⟨w, b, x, p, y, g, hist, ha⟩ := epoch_session hL 16
  let S : Setup Adam :=
    ⟨adamStep, ⟨train, 16, true⟩, ⟨val, 16, false⟩, x, p, y, g, fun _ => 0, rands, fun _ _ => [], env, env, env⟩
  have hdata : DataFits 16 [3, 32, 32] 10 S := ⟨rfl, rfl, ht.1, hv.1, ht.2.1, hv.2.1, by have := ht.2.2.2; simp only [S]; omega,
    by have := hv.2.2.2; simp only [S]; omega, ht.2.2.1, hv.2.2.1, rfl, fun k _ _ => hlab k⟩
  obtain ⟨hs, hD⟩ := hT lr beta0 beta1 eps 0 _ t m L θ₀ ht1 ht2 hL S rfl hdata ⟨fun _ => hr, fun _ _ _ => hpick, fun _ _ _ => hpick⟩
  obtain ⟨Θ, v, Lb, gr, D, hrep⟩ := ((hD θ₀).2 epochNo 60000 (by show train.size / 16 < 60000; have := ht.2.2.2; omega)
    (by show val.size / 16 < 60000; have := hv.2.2.2; omega) none w b hist ha).1
  exact ⟨e', m, t, L, θ₀, w, b, x, p, y, g, env, hs, v, Lb, Θ, gr, S, rfl, h1, hL, hist, ha, D, hrep⟩

end

end DW.Props.SampleModelsP
