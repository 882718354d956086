import Verif.Lemmas.SampleForward
import Verif.Props.SampleModels
import Verif.Props.Batch
/-!
# What the models of the samples compute (C92, C93)
-/

set_option autoImplicit false

namespace DW.Props.SampleModelsP

open DW DW.Spec DW.Samples DW.GraphL DW.SampleL DW.ValueL DW.MatL DW.FlatL DW.Props.BackendP DW.Props.GraphP DW.AgainL

noncomputable section

variable {real : F32 → ℝ} {e : Expr} {B : Nat} {tensors : Nat → InfoTensors} {topo : Graph → List Node} {m : Model} {L : Layers e}
  {θ : L.Params} {last : Option ((Nat → Env) × Vals e)} {w : World} {b : Backend} {env : Nat → Env} {x p : Nat} {training : Bool}

theorem ofFn_rows {s : Shape} {n : Nat} (h : s = [(B : Int), n]) (u : Elems s) : List.ofFn u = rowMajor (rowsOf B n u) := by
  subst h
  rw [ContractP.ofFn_arr (size_mat B n), arr_matE]

theorem ofFn_images {s : Shape} {N C H W : Nat} (h : s = [(N : Int), C, H, W]) (u : Elems s) : List.ofFn u = flat4 (imagesOf N C H W u) := by
  subst h
  rw [← arr_imgE (size_img N C H W), ← ContractL.ofFn_img (size_img N C H W)]
  simp [arr]

/-- `forward` of a network given as a table. -/
theorem net_forward {input : List Nat} {l : List Step} {K n : Nat} (h : IsNet e B input l) (hc : Checked K input l)
    (Bt : Built topo e [0] [l.length] m real tensors L θ) (hist : History e [0] [l.length] m real tensors L θ θ last w)
    (ha : FwdArgs e m [0] [l.length] w b [x] [p]) (hp : ∀ c, IsPick (env c).pick) (hn : restAt input l l.length = [n]) :
    ∃ (v : Vals e) (w' : World), Values real e B input l tensors v ∧ w.store[x]? = some ⟨phShape e 0, List.ofFn (v 0)⟩ ∧
      m.forward env [x] [p] w = (.ok (), w') ∧ w'.store[p]? = some ⟨[B, n], rowMajor (rowsOf B n (v l.length))⟩ := by
  obtain ⟨v, hv, hcar⟩ := values_of_inputs Bt ha env θ
  obtain ⟨w', b', h1, -, -, h2, -, -⟩ := forward_evaluates_partial Bt hist ha hp hv hcar
  have hs : phShape e l.length = [(B : Int), n] := by rw [net_phShape h le_rfl, hn]; rfl
  refine ⟨v, w', net_values h hc Bt hv, hcar 0 0 x rfl rfl, h1, ?_⟩
  have := h2 0 l.length p rfl rfl
  unfold Holds at this
  rw [this, ofFn_rows hs]
  generalize rowMajor (rowsOf B n (v l.length)) = r
  rw [hs]

/-- The network that a function of the samples builds. -/
theorem built_net {f : Expr → Out (Nat × Nat) × Expr} {r : Out (Nat × Nat)} {input : List Nat} {l : List Step}
    (h : ∃ e, f {} = (r, e) ∧ Reachable e ∧ IsNet e B input l) (hb : f {} = (r, e)) : IsNet e B input l := by
  obtain ⟨e', h1, -, h3⟩ := h
  rw [hb] at h1
  exact (Prod.mk.inj h1).2 ▸ h3

/-- **C92**: what `forward` of the MNIST model puts into the output tensor, for all inputs, parameters and running statistics:
`softmax(norm(relu(X W^T + b)) V^T + c)`. In training mode the normalisation is that by the batch, in evaluation mode that by the
running statistics. -/
theorem mnist_forward (hbuild : buildMNIST B {} = (.ok (0, 5), e)) (Bt : Built topo e [0] [5] m real tensors L θ)
    (hist : History e [0] [5] m real tensors L θ θ last w) (ha : FwdArgs e m [0] [5] w b [x] [p]) (hp : ∀ c, IsPick (env c).pick)
    {P : DenseParams 784 10} (hP : P.In training tensors) {X : Fin B → Fin 784 → ℝ} (hX : w.store[x]? = some ⟨[B, 784], rowMajor X⟩) :
    ∃ w', m.forward env [x] [p] w = (.ok (), w') ∧
      w'.store[p]? = some ⟨[B, 10], rowMajor (denseForward training (real 0x3a83126f#32) P X)⟩ := by
  have h := built_net (buildMNIST_net B) hbuild
  obtain ⟨v, w', h1, h2, h3, h4⟩ := net_forward h denseNet_checked Bt hist ha hp (n := 10) rfl
  refine ⟨w', h3, ?_⟩
  have h0 : phShape e 0 = [(B : Int), 784] := net_phShape h (Nat.zero_le _)
  rw [hX, ofFn_rows h0] at h2
  obtain rfl := rowMajor_inj (Buf.mk.inj (Option.some.inj h2)).2
  rw [h4, ← dense_values h1 hP]
  rfl

/-- **C92** for the Iris model. -/
theorem iris_forward (hbuild : buildIris B {} = (.ok (0, 5), e)) (Bt : Built topo e [0] [5] m real tensors L θ)
    (hist : History e [0] [5] m real tensors L θ θ last w) (ha : FwdArgs e m [0] [5] w b [x] [p]) (hp : ∀ c, IsPick (env c).pick)
    {P : DenseParams 4 3} (hP : P.In training tensors) {X : Fin B → Fin 4 → ℝ} (hX : w.store[x]? = some ⟨[B, 4], rowMajor X⟩) :
    ∃ w', m.forward env [x] [p] w = (.ok (), w') ∧
      w'.store[p]? = some ⟨[B, 3], rowMajor (denseForward training (real 0x3a83126f#32) P X)⟩ := by
  have h := built_net (buildIris_net B) hbuild
  obtain ⟨v, w', h1, h2, h3, h4⟩ := net_forward h iris_checked Bt hist ha hp (n := 3) rfl
  refine ⟨w', h3, ?_⟩
  have h0 : phShape e 0 = [(B : Int), 4] := net_phShape h (Nat.zero_le _)
  rw [hX, ofFn_rows h0] at h2
  obtain rfl := rowMajor_inj (Buf.mk.inj (Option.some.inj h2)).2
  rw [h4, ← dense_values h1 hP]
  rfl

/-- **C92** for the CIFAR-10 model. -/
theorem cifar10_forward (hbuild : buildCIFAR10 B {} = (.ok (0, 14), e)) (Bt : Built topo e [0] [14] m real tensors L θ)
    (hist : History e [0] [14] m real tensors L θ θ last w) (ha : FwdArgs e m [0] [14] w b [x] [p]) (hp : ∀ c, IsPick (env c).pick)
    {P : CifarParams} (hP : P.In training tensors) {X : Images B 3 32 32} (hX : w.store[x]? = some ⟨[B, 3, 32, 32], flat4 X⟩) :
    ∃ w', m.forward env [x] [p] w = (.ok (), w') ∧
      w'.store[p]? = some ⟨[B, 10], rowMajor (cifarForward training (real 0x3a83126f#32) P X)⟩ := by
  have h := built_net (buildCIFAR10_net B) hbuild
  obtain ⟨v, w', h1, h2, h3, h4⟩ := net_forward h cifar10_checked Bt hist ha hp (n := 10) rfl
  refine ⟨w', h3, ?_⟩
  have h0 : phShape e 0 = [(B : Int), ((3 : Nat) : Int), ((32 : Nat) : Int), ((32 : Nat) : Int)] := net_phShape h (Nat.zero_le _)
  rw [hX, ofFn_images h0] at h2
  obtain rfl := flat4_inj (Buf.mk.inj (Option.some.inj h2)).2
  rw [h4, ← cifar_values h1 hP]
  rfl

/-- **C92** for the residual network of the CIFAR-100 sample. -/
theorem resnet_forward (hbuild : buildResnet B {} = (.ok (0, 52), e)) (Bt : Built topo e [0] [52] m real tensors L θ)
    (hist : History e [0] [52] m real tensors L θ θ last w) (ha : FwdArgs e m [0] [52] w b [x] [p]) (hp : ∀ c, IsPick (env c).pick)
    {P : ResnetParams} (hP : P.In training tensors) {X : Images B 3 32 32} (hX : w.store[x]? = some ⟨[B, 3, 32, 32], flat4 X⟩) :
    ∃ w', m.forward env [x] [p] w = (.ok (), w') ∧
      w'.store[p]? = some ⟨[B, 100], rowMajor (resnetForward training (real 0x3727c5ac#32) P X)⟩ := by
  have h := built_net (buildResnet_net B) hbuild
  obtain ⟨v, w', h1, h2, h3, h4⟩ := net_forward h resnet_checked Bt hist ha hp (n := 100) rfl
  refine ⟨w', h3, ?_⟩
  have h0 : phShape e 0 = [(B : Int), ((3 : Nat) : Int), ((32 : Nat) : Int), ((32 : Nat) : Int)] := net_phShape h (Nat.zero_le _)
  rw [hX, ofFn_images h0] at h2
  obtain rfl := flat4_inj (Buf.mk.inj (Option.some.inj h2)).2
  rw [h4, ← resnet_values h1 hP]
  rfl

/-- The hypotheses of `resnet_forward` can be met: with the batch size 128 and trainable parameters, for any images. -/
example (inp : ∀ e, Vals e) : ∃ e m t L θ w b x p, ∃ (P : ResnetParams) (X : Images 128 3 32 32), buildResnet 128 {} = (.ok (0, 52), e) ∧ IsNet e 128 [3, 32, 32] resnet ∧
    Built (creationOrder e) e [0] [52] m (fun _ => 1) t L θ ∧ History e [0] [52] m (fun _ => 1) t L θ θ none w ∧
    FwdArgs e m [0] [52] w b [x] [p] ∧ P.In true t ∧ X = imagesOf 128 3 32 32 (inp e 0) ∧
    w.store[x]? = some ⟨[128, 3, 32, 32], flat4 X⟩ := by
  obtain ⟨e, h1, h2, h3, h4⟩ := resnet_model (B := 128) (real := fun _ => 1) (by norm_num) (by norm_num) (by norm_num [EpsPos, norm2D])
  obtain ⟨m, e', hm, -, -, hb⟩ := h4 (creationOrder e) (topological_order_exists h2 (by
    intro x hx
    obtain rfl := List.mem_singleton.1 hx
    rw [net_phs_length h3]; decide +kernel))
  obtain ⟨t, ht, htr⟩ := netTensors_exist 128 [3, 32, 32] resnet
  obtain ⟨L, θ, hL⟩ := hb t ht
  obtain ⟨w, b, it, ot, hw, ha, hc⟩ := BatchP.fwd_session hL (inp e)
  obtain ⟨x, rfl⟩ := List.length_eq_one_iff.1 ha.givenIns.length
  obtain ⟨p, rfl⟩ := List.length_eq_one_iff.1 ha.givenOuts.length
  obtain ⟨v, hv, -⟩ := values_of_inputs hL ha (fun _ => ⟨fun _ => 0, fun _ => 0, fun _ => 0⟩) θ
  obtain ⟨P, hP⟩ := resnet_in (net_values h3 resnet_checked hL hv) (training := true) htr
  have h0 : phShape e 0 = [((128 : Nat) : Int), ((3 : Nat) : Int), ((32 : Nat) : Int), ((32 : Nat) : Int)] := net_phShape h3 (Nat.zero_le _)
  have hx := hc 0 0 x rfl rfl
  unfold Holds at hx
  rw [ofFn_images h0] at hx
  exact ⟨e, m, t, L, θ, w, b, x, p, P, _, h1, h3, hL, hw, ha, hP, rfl, by
    rw [hx]
    generalize flat4 (imagesOf 128 3 32 32 (inp e 0)) = r
    rw [h0]; rfl⟩

/-- A row of a softmax. -/
theorem softmax_row {n : Nat} (hn : 0 < n) (X : Fin B → Fin n → ℝ) (i : Fin B) : (∀ j, 0 < softmax X i j) ∧ ∑ j, softmax X i j = 1 := by
  have hpos := DerivL.softmax_pos X i ⟨0, hn⟩
  refine ⟨fun j => div_pos (Real.exp_pos _) hpos, ?_⟩
  simp only [softmax, div_eq_mul_inv]
  rw [← Finset.sum_mul, mul_inv_cancel₀ hpos.ne']

/-- What a `Softmax` layer computes. -/
theorem softmax_rows {t : InfoTensors} {op : Op} {k : Nat} {ishape : Fin k → Shape} {o : Shape} {P : Nat}
    {fn : (Nat → ℝ) → (Fin P → ℝ) → Args ishape → Elems o} {ϑ : Fin P → ℝ} {ex : Prop} (h : Computes real t op ishape o P fn ϑ ex)
    (hop : op = .softmax) : ∃ B n : Nat, o = [(B : Int), n] ∧ ∀ r ϑ X i,
      (∀ j, 0 < rowsOf B n (fn r ϑ X) i j) ∧ ∑ j, rowsOf B n (fn r ϑ X) i j = 1 := by
  cases h with
  | one hn' hs ho h =>
    cases h with
    | @softmax B' k' hk ϑ =>
      refine ⟨B', k', ho.symm, fun r ϑ X i => ?_⟩
      simp only [softmaxFn]
      rw [rowsOf_recast, rowsOf_elems]
      exact softmax_row hk _ i
    | _ => exact Op.noConfusion hop
  | add => exact Op.noConfusion hop

/-- **C93**: an output of a model computed by a `Softmax` layer is a table of probabilities after `forward`, whatever the inputs,
the parameters and the rest of the network: positive numbers that sum up to 1 in each row. -/
theorem softmax_probabilities {ins outs : List Nat} (Bt : Built topo e ins outs m real tensors L θ)
    {θ' : L.Params} (hist : History e ins outs m real tensors L θ θ' last w) {it ot : List Nat} (ha : FwdArgs e m ins outs w b it ot)
    (hp : ∀ c, IsPick (env c).pick) {i y c : Nat} (hy : outs[i]? = some y) (ho : ot[i]? = some p) (hc : e.callOf y = some c)
    (hop : (infoOf e (e.callInfo c)).op = .softmax) :
    ∃ (w' : World) (B n : Nat) (P : Fin B → Fin n → ℝ), m.forward env it ot w = (.ok (), w') ∧
      w'.store[p]? = some ⟨[B, n], rowMajor P⟩ ∧ ∀ r, (∀ j, 0 < P r j) ∧ ∑ j, P r j = 1 := by
  obtain ⟨v, hv, hcar⟩ := values_of_inputs Bt ha env θ'
  obtain ⟨w', b', h1, -, -, h2, -, -⟩ := forward_evaluates_partial Bt hist ha hp hv hcar
  have hx := (HistL.plan Bt).outs_mem y (List.mem_of_getElem? hy)
  obtain ⟨B, n, hs, hr⟩ := softmax_rows (Bt.layers y hx c hc) hop
  refine ⟨w', B, n, rowsOf B n (v y), h1, ?_, ?_⟩
  · have := h2 i y p hy ho
    unfold Holds at this
    rw [this, ofFn_rows hs]
    generalize rowMajor (rowsOf B n (v y)) = r
    rw [hs]
  · have := hv y (mem_net.2 ⟨hx, by rw [hc]; rfl⟩)
    rw [this]
    exact hr _ _ _

/-- The output of the residual network, and so of the example above, is computed by such a layer. -/
example (h : IsNet e B [3, 32, 32] resnet) : e.callOf 52 = some 51 ∧ (infoOf e (e.callInfo 51)).op = .softmax :=
  ⟨net_callOf h (i := 51) (by decide +kernel), by
    rw [net_callInfo h (by decide +kernel), (net_info h (i := 51) (s := resnet[51]) rfl).2]; rfl⟩

end

end DW.Props.SampleModelsP
