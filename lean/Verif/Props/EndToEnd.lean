import Verif.Spec.Saved
import Verif.Props.TestMode
import Verif.Props.SampleSave
import Verif.Props.SampleTrain
/-!
# Training, saving, loading and testing (C97)
-/

set_option autoImplicit false

namespace DW.Props.EndToEndP

open DW DW.Spec DW.DL DW.GraphL DW.HistL DW.BackendL DW.NetL DW.TrainL DW.ReloadL DW.RebuildL DW.ValL DW.EpochL DW.Optim DW.OptL
  DW.Samples DW.SampleL DW.AgainL DW.Props.SampleModelsP DW.Props.GraphP DW.Props.SaveLoadP DW.Props.BackendP DW.Props.ReloadP
  DW.Props.ValidationP DW.Props.BatchP DW.Props.EpochP DW.Props.TestModeP

noncomputable section

/-- Tensors a layer object shows are those it has. -/
theorem shows_param {l : Cpu} {mode : Bool} {t : InfoTensors} (h : l.Shows mode t) {name : String} {p : Parameter}
    (hp : (tensorsOf mode l).params.lookup name = some p) : (t.params.lookup name).map Parameter.data = some p.data := by
  have hp := lookup_mem hp
  cases l <;> simp only [tensorsOf, List.mem_cons, Prod.mk.injEq, List.not_mem_nil, or_false] at hp
  case linear => rcases hp with ⟨rfl, rfl⟩ | ⟨rfl, rfl⟩ <;> simp [h.1, h.2]
  case convolution => rcases hp with ⟨rfl, rfl⟩ | ⟨rfl, rfl⟩ <;> simp [h.1, h.2]
  case batchNorm1D => rcases hp with ⟨rfl, rfl⟩ | ⟨rfl, rfl⟩ <;> simp [h.1, h.2.1]
  case batchNorm2D => rcases hp with ⟨rfl, rfl⟩ | ⟨rfl, rfl⟩ <;> simp [h.1, h.2.1]
  case dropout =>
    obtain ⟨rfl, rfl⟩ := hp
    obtain ⟨g, h, -⟩ := h
    simp [h]

theorem shows_buffer {l : Cpu} {mode : Bool} {t : InfoTensors} (h : l.Shows mode t) {name : String} {b : Buf}
    (hb : (tensorsOf mode l).buffers.lookup name = some b) : t.buffers.lookup name = some b := by
  have hb := lookup_mem hb
  cases l <;> simp only [tensorsOf, List.mem_cons, Prod.mk.injEq, List.not_mem_nil, or_false] at hb
  case batchNorm1D => rcases hb with ⟨rfl, rfl⟩ | ⟨rfl, rfl⟩ <;> simp [h.2.2.1, h.2.2.2]
  case batchNorm2D => rcases hb with ⟨rfl, rfl⟩ | ⟨rfl, rfl⟩ <;> simp [h.2.2.1, h.2.2.2]

variable {lim : Nat} {topo topo₂ : Graph → List Node} {e e' e₂ : Expr} {xi yo N n : Nat} {m : Model} {real : F32 → ℝ}
  {L : Layers e} {d : Dict} {fresh : Expr → Model → Dict}

/-- What is saved is what any tensors hold that the layer objects show. -/
theorem saves_holds {ins outs : List Nat} {tensors tensors' : Nat → InfoTensors} {θ₀ θ : L.Params}
    (B : Built topo e ins outs m real tensors L θ₀) {last : Option ((Nat → Env) × Vals e)} {w : World}
    (h : History e ins outs m real tensors L θ₀ θ last (trained false w))
    (hsh : ∀ x ∈ dataOf m, ∀ c, e.callOf x = some c → ∀ b l, w.backend = some b → layerAt e m b x = some l →
      l.Shows false (tensors' (e.callInfo c))) (hd : Saves real e m w d) : StateHolds real m tensors' d := by
  intro k r hk
  obtain ⟨s, h1, h2⟩ := hd k r hk
  refine ⟨s, h1, ?_⟩
  have key : ∀ i (f : InfoTensors → Option Buf) {u}, tensorIn.look e m w i f = some u →
      ∃ l, l.Shows false (tensors' i) ∧ f (tensorsOf false l) = some u := by
    intro i f u hu
    unfold tensorIn.look at hu
    obtain ⟨b, hb, hu⟩ := Option.bind_eq_some_iff.1 hu
    obtain ⟨l, hl, hu⟩ := Option.bind_eq_some_iff.1 hu
    refine ⟨l, ?_, hu⟩
    have hlen : b.layers.length = (sortedOps m.sorted).length := by
      have := (layer_facts B h (b := { b with layers := b.layers.map (Cpu.train false) }) (by unfold trained; rw [hb]; rfl)).1
      simpa using this
    have hlt := (List.getElem?_eq_some_iff.1 hl).1
    rw [hlen] at hlt
    have hi := List.findIdx_getElem (xs := sortedOps m.sorted) (p := fun c => e.callInfo c == i) (w := hlt)
    obtain ⟨x, hx, hc⟩ := (plan B).op _ (List.getElem_mem hlt)
    have hi : e.callInfo _ = i := beq_iff_eq.1 hi
    rw [← hi]
    refine hsh x hx _ hc b l hb ?_
    unfold layerAt
    rw [hc]
    simp only [Option.bind_some]
    rw [(plan B).ops_nodup.idxOf_getElem _ hlt, hl]
  cases r with
  | param i name =>
    obtain ⟨l, hs, hf⟩ := key i (fun t => (t.params.lookup name).map Parameter.data) h2
    obtain ⟨p, hp, hpd⟩ := Option.map_eq_some_iff.1 hf
    rw [← hpd]
    exact shows_param hs hp
  | buffer i name =>
    obtain ⟨l, hs, hf⟩ := key i (fun t => t.buffers.lookup name) h2
    exact shows_buffer hs hf

open Classical in
/-- What the model predicts in a state, in evaluation mode, is what test mode sees with the file saved in that state. -/
theorem saved_tests {w : World} {f : List ℝ → List ℝ} {θ : L.Params} (h : PredictsAt topo e xi yo m real θ N w f)
    (hS : Restorable lim topo e [xi] [yo] m e' d e₂ topo₂ fresh) (hd : Saves real e m w d) {ld : Loader ℝ}
    (fit : ValFits e xi yo N n ld) {fuel : Nat} (hfuel : ld.dataset.size / N < fuel) :
    TestPrints lim topo₂ fresh e₂ (save m.cfg d []).2 real ld fuel
      ((Nat.count (Correct ld.dataset f) (ld.dataset.size / N * N) : ℝ) / (ld.dataset.size / N * N : Nat)) := by
  obtain ⟨tensors', L', θ', B', hist, -, h3, hf⟩ := h
  have hd' : StateHolds real m tensors' d := saves_holds B' hist (fun x hx c hc => (h3 x hx c hc).2) hd
  obtain ⟨m', d', e₃, φ, h1, h2, h4, h5⟩ := reloaded_computes B' hS hd' (mode := false) fun x hx c hc => (h3 x hx c hc).1
  have hsh : ∀ x ∈ dataOf m, phShape e₃ (φ x) = phShape e x := fun x hx => by
    rw [h2.shape x ((mem_dataOf B'.reachable B'.sorts hS.ctor x).1 hx)]
    obtain ⟨-, -, -, -, he, -⟩ := ctor_maps B'.reachable hS.ctor
    rw [he]
    simp [phShape, (nameOps_frame e (sortedOps m.sorted)).1]
  have hxi : xi ∈ dataOf m := (plan B').ins_mem xi (by simp)
  have hyo : yo ∈ dataOf m := (plan B').outs_mem yo (by simp)
  refine ⟨m', d', e₃, φ xi, φ yo, h1, h4, fun tensors₃ hd₃ hm₃ => ?_⟩
  obtain ⟨topo₃, L₃, θ₃, B₃, hsame⟩ := h5 tensors₃ hd₃ hm₃
  refine ⟨topo₃, L₃, θ₃, B₃, val_session B₃ ld, ?_⟩
  intro last₃ w₃ b₃ x₃ p₃ y₃ hist₃ ha₃ env hp junk rands
  have hf₃ : Predicts e₃ (φ xi) (φ yo) m' real tensors₃ L₃ θ₃ θ₃ N f :=
    predicts_same B' B₃ (hsh xi hxi) (fun a1 a2 a3 a4 a5 a6 => hsame a1 a2 a3 a4 a5 a6 (.inl rfl)) hf
  obtain ⟨w', b', last', r1, -⟩ := rounds B₃ hf₃ fit.batch fit.pos ((hsh xi hxi).trans fit.sample) fit.label ((hsh yo hyo).trans fit.out)
    fit.classes fit.order fit.fits hp junk rands (ld.dataset.size / N) 0 fuel 0 (by omega) hfuel hist₃ ha₃
  simp only [Nat.zero_mul, Nat.cast_zero, Nat.zero_add, Nat.count_zero, sub_zero, zero_add] at r1
  refine ⟨_, _, Nat.div_pos fit.enough fit.pos, by rw [r1], ?_⟩
  rw [div_div, Nat.cast_mul, mul_comm (N : ℝ)]

variable {σ : Type} {S : Setup σ}

theorem valFits_of (fit : LoadersFit e xi yo N n S) : ValFits e xi yo N n S.val where
  pos := fit.pos
  classes := fit.classes
  batch := fit.vbatch
  sample := fit.vsample
  label := by rw [fit.vlabel]; rfl
  out := fit.out
  order := fit.order
  fits := fit.vfits
  enough := fit.venough

/-- **C97.** A program trains a model for some epochs and prints loss and accuracy of each; then it saves the model. Another program
loads the file and runs in test mode with the same validation set: it prints the accuracy the first program printed last. -/
theorem trained_saved_tested {hs : phShape e yo = [(N : Int), n]} (fit : LoadersFit e xi yo N n S) {v : Nat → Vals e}
    {Lb : Nat → Fin N → Fin n} {Θ : Nat → L.Params} {fuel epochNo : Nat} (h0 : 0 < epochNo) {w : World} {b : Backend} {aux : σ}
    (h : Reports topo e xi yo m real hs S v Lb Θ fuel epochNo w b aux) (hfuel : batches S.val < fuel) :
    ∃ (results : List (ℝ × ℝ)) (w' : World) (aux' : σ) (loss acc : ℝ),
      epochs e m S fuel epochNo ⟨w, aux, 0, 0⟩ = (.ok (some results), ⟨w', aux', 0, 0⟩) ∧ results.length = epochNo ∧
      results.getLast? = some (loss, acc) ∧
      ∀ {lim e' d e₂ topo₂ fresh}, Restorable lim topo e [xi] [yo] m e' d e₂ topo₂ fresh → Saves real e m w' d →
        TestPrints lim topo₂ fresh e₂ (save m.cfg d []).2 real S.val fuel acc := by
  classical
  obtain ⟨f, w', b', aux', h1, -, -, -, -, -, h2, -⟩ := h
  obtain ⟨i, rfl⟩ : ∃ i, epochNo = i + 1 := ⟨epochNo - 1, by omega⟩
  have hT : batches S.val = S.val.dataset.size / N := by unfold batches; rw [fit.vbatch]; rfl
  refine ⟨_, w', aux', _, _, h1, by simp, by rw [List.range_succ, List.map_append]; simp; exact ⟨rfl, rfl⟩, ?_⟩
  intro lim e' d e₂ topo₂ fresh hS hd
  have := saved_tests (h2 i rfl) hS hd (valFits_of fit) (hT ▸ hfuel)
  rw [← hT, Nat.cast_mul] at this
  exact this

/-! ### The samples -/

/-- The training mode and the test mode of a sample fit together. The model of the expressions with input 0 and output `out` has the
layers `l`, trainable parameters and running statistics of the right shapes, and any parameters; the program may have used it before in
any way. It trains the model for one or more epochs, on any data and with any shuffling, printing loss and accuracy of each, and saves
it. If the numbers in the tensors of the model are then floats, given by the bytes in `d`, then test mode with that file, in a process
that may have made any expressions before, prints the accuracy the training printed last (`TestPrints`). -/
def Tests (e : Expr) (real : F32 → ℝ) (B : Nat) (input : List Nat) (l : List Step) (n : Nat) {σ : Type} (M : Method σ) : Prop :=
  ∀ (topo : Graph → List Node) (tensors : Nat → InfoTensors) (m : Model) (L : Layers e) (θ₀ : L.Params), NetTensors B input l tensors →
    (∀ i, Trainable (tensors i)) → Built topo e [0] [l.length] m real tensors L θ₀ →
    ∀ (S : Setup σ), S.step = M.step → DataFits B input n S → Possible B S →
    ∀ (θ : L.Params) (epochNo fuel : Nat), 0 < epochNo → batches S.train < fuel → batches S.val < fuel →
    ∀ last w b, History e [0] [l.length] m real tensors L θ₀ θ last w → EpochArgs e m 0 l.length B w b S.x S.p S.y S.g →
    ∃ (results : List (ℝ × ℝ)) (w' : World) (aux' : σ) (loss acc : ℝ),
      epochs e m S fuel epochNo ⟨w, M.create ((objects true b.layers).map Prod.snd) (paramMap e m true b.layers), 0, 0⟩ =
        (.ok (some results), ⟨w', aux', 0, 0⟩) ∧ results.length = epochNo ∧ results.getLast? = some (loss, acc) ∧
      ∀ (lim : Nat) (e' : Expr) (d : Dict) (e₂ : Expr) (topo₂ : Graph → List Node) (fresh : Expr → Model → Dict), 1000 ≤ lim → lim < 2 ^ 63 →
        modelCtor topo [0] [l.length] e = (.ok m, e') → IsStateOf e' m d → Saves real e m w' d → Reachable e₂ → SortsRebuilt topo₂ m.cfg e₂ →
        (∀ e m, IsStateOf e m (fresh e m)) → TestPrints lim topo₂ fresh e₂ (save m.cfg d []).2 real S.val fuel acc

variable {B K : Nat} {input : List Nat} {l : List Step}

theorem net_tests (hr : Reachable e) (h : IsNet e B input l) (hc : Checked K input l) (hv : Savable input l) (hd : Direct e) (hB : 0 < B)
    (hK : B * K ≤ 2147483647) (hn : restAt input l l.length = [n]) (hn0 : 0 < n) (hn1 : n ≤ K) {M : Method σ}
    (hT : Trains e real B input l n M) : Tests e real B input l n M := by
  intro topo tensors m L θ₀ ht htr Bt S hstep hdata pos θ epochNo fuel h0 hf1 hf2 last w b hist ha
  obtain ⟨hs, hT⟩ := hT topo tensors m L θ₀ ht htr Bt S hstep hdata pos
  obtain ⟨⟨Θ, v, Lb, gr, -, hrep⟩, -⟩ := (hT θ).2 epochNo fuel hf1 hf2 last w b hist ha
  have fit : LoadersFit e 0 l.length B n S :=
    { pos := hB, classes := hn0, out := hs, small := Nat.le_trans (Nat.mul_le_mul_left B hn1) hK, batch := hdata.batch,
      vbatch := hdata.vbatch, sample := by rw [net_phShape h (Nat.zero_le _), hdata.sample]; rfl,
      vsample := by rw [net_phShape h (Nat.zero_le _), hdata.vsample]; rfl, label := hdata.label, vlabel := hdata.vlabel,
      fits := hdata.fits, vfits := hdata.vfits, enough := hdata.enough, venough := hdata.venough, order := hdata.order }
  obtain ⟨results, w', aux', loss, acc, h1, h2, h3, h4⟩ := trained_saved_tested fit h0 hrep hf2
  exact ⟨results, w', aux', loss, acc, h1, h2, h3, fun lim e' d e₂ topo₂ fresh hlim hlim' hm hst hsv hr₂ hs₂ hf =>
    h4 (net_restorable hr h hc hv hd Bt.sorts hm hB hK hlim hlim' hst hr₂ hs₂ hf) hsv⟩

/-- **C97** for the MNIST sample, for every batch size up to the limit of `int`. -/
theorem mnist_tested (hB : 0 < B) (hK : B * 784 ≤ 2147483647) (he : NormOk real norm1D) :
    ∃ e, buildMNIST B {} = (.ok (0, 5), e) ∧ ∀ lr gamma, Tests e real B [784] (denseNet 10) 10 (momentumMethod lr gamma) := by
  obtain ⟨e, h1, h2, h3⟩ := buildMNIST_net B
  have hd := direct_mnist B
  rw [h1] at hd
  obtain ⟨e', h1', hT⟩ := mnist_trained hB hK he
  obtain rfl : e' = e := (Prod.mk.inj (h1'.symm.trans h1)).2
  exact ⟨e', h1, fun lr gamma => net_tests h2 h3 denseNet_checked denseNet_savable hd hB hK rfl (by norm_num) (by norm_num) (hT lr gamma)⟩

/-- **C97** for the Iris sample. -/
theorem iris_tested (hB : 0 < B) (hK : B * 100 ≤ 2147483647) (he : NormOk real norm1D) :
    ∃ e, buildIris B {} = (.ok (0, 5), e) ∧ ∀ lr gamma, Tests e real B [4] (denseNet 3) 3 (momentumMethod lr gamma) := by
  obtain ⟨e, h1, h2, h3⟩ := buildIris_net B
  have hd := direct_iris B
  rw [h1] at hd
  obtain ⟨e', h1', hT⟩ := iris_trained hB hK he
  obtain rfl : e' = e := (Prod.mk.inj (h1'.symm.trans h1)).2
  exact ⟨e', h1, fun lr gamma => net_tests h2 h3 iris_checked iris_savable hd hB hK rfl (by norm_num) (by norm_num) (hT lr gamma)⟩

/-- **C97** for the CIFAR-10 sample. -/
theorem cifar10_tested (hB : 0 < B) (hK : B * 409600 ≤ 2147483647) (he : NormOk real norm1D) :
    ∃ e, buildCIFAR10 B {} = (.ok (0, 14), e) ∧
      ∀ lr beta0 beta1 eps t0, Tests e real B [3, 32, 32] cifar10Net 10 (adamMethod lr beta0 beta1 eps t0) := by
  obtain ⟨e, h1, h2, h3⟩ := buildCIFAR10_net B
  have hd := direct_cifar10 B
  rw [h1] at hd
  obtain ⟨e', h1', hT⟩ := cifar10_trained hB hK he
  obtain rfl : e' = e := (Prod.mk.inj (h1'.symm.trans h1)).2
  exact ⟨e', h1, fun lr beta0 beta1 eps t0 =>
    net_tests h2 h3 cifar10_checked cifar10_savable hd hB hK rfl (by norm_num) (by norm_num) (hT lr beta0 beta1 eps t0)⟩

/-- **C97** for the CIFAR-100 sample. -/
theorem resnet_tested (hB : 0 < B) (hK : B * 147456 ≤ 2147483647) (he : NormOk real norm2D) :
    ∃ e, buildResnet B {} = (.ok (0, 52), e) ∧ ∀ lr gamma, Tests e real B [3, 32, 32] resnet 100 (momentumMethod lr gamma) := by
  obtain ⟨e, h1, h2, h3⟩ := buildResnet_net B
  have hd := direct_resnet B
  rw [h1] at hd
  obtain ⟨e', h1', hT⟩ := resnet_trained hB hK he
  obtain rfl : e' = e := (Prod.mk.inj (h1'.symm.trans h1)).2
  exact ⟨e', h1, fun lr gamma => net_tests h2 h3 resnet_checked resnet_savable hd hB hK (by decide +kernel) (by norm_num) (by norm_num) (hT lr gamma)⟩

/-! ### A classifier, trained, saved and tested

`Saves` asks for floats with the values the tensors have after the training. The layers of the classifier have no constants, so that
training does not depend on the reading `real` of floats, and `real` can be chosen to name these values. -/

/-- Layers without constants. -/
def Plain : Op → Prop
  | .linear _ | .softmax | .relu => True
  | _ => False

variable {real' : F32 → ℝ}

theorem create_plain {op : Op} (h : Plain op) (t : InfoTensors) : Cpu.create real op t = Cpu.create real' op t := by
  cases op <;> first | rfl | exact h.elim

theorem computes_plain {t : InfoTensors} {op : Op} {k : Nat} {ishape : Fin k → Shape} {o : Shape} {P : Nat}
    {fn : (Nat → ℝ) → (Fin P → ℝ) → Args ishape → Elems o} {θ : Fin P → ℝ} {ex : Prop} (hp : Plain op)
    (h : Computes real t op ishape o P fn θ ex) : Computes real' t op ishape o P fn θ ex := by
  cases h with
  | one hn hs ho h =>
    refine .one hn hs ho ?_
    cases h with
    | relu => exact .relu ..
    | softmax => exact .softmax ‹_› _
    | linear hne hst hf hc θ hw hb => exact .linear hne hst hf hc θ hw hb
    | _ => exact hp.elim
  | add => exact hp.elim

theorem built_plain {topo : Graph → List Node} {ins outs : List Nat} {tensors : Nat → InfoTensors} {θ : L.Params} (hp : ∀ i, Plain (infoOf e i).op)
    (B : Built topo e ins outs m real tensors L θ) : Built topo e ins outs m real' tensors L θ :=
  ⟨B.reachable, B.sorts, B.ctor, B.orderly, B.sound, B.shapes, fun x hx c hc => computes_plain (hp _) (B.layers x hx c hc)⟩

theorem history_plain {ins outs : List Nat} {tensors : Nat → InfoTensors} {θ₀ θ : L.Params} {last : Option ((Nat → Env) × Vals e)} {w : World}
    (hp : ∀ i, Plain (infoOf e i).op) (h : History e ins outs m real tensors L θ₀ θ last w) :
    History e ins outs m real' tensors L θ₀ θ last w := by
  induction h with
  | compile junk w =>
    rename_i tensors L θ₀
    have : m.compile e real junk tensors w = m.compile e real' junk tensors w := by
      unfold Model.compile
      simp only [create_plain (real := real) (real' := real') (hp _)]
    rw [this]
    exact .compile junk w
  | alloc t _ ih => exact .alloc t ih
  | write h t _ hb hn ih => exact .write h t ih hb hn
  | setGrads g _ hb hl hc ih => exact .setGrads g ih hb hl hc
  | setParams θ' _ hb hc ih => exact .setParams θ' ih hb hc
  | change B _ hb hc ih => exact .change (built_plain hp B) ih hb hc
  | forward env it ot v _ ha hpk hv hc ih => exact .forward env it ot v ih ha hpk hv hc
  | backward env' it ot gt gout _ ha ih => exact .backward env' it ot gt gout ih ha

open TrainP (classE classE_eq classTensors)

theorem class_plain (i : Nat) : Plain (infoOf classE i).op := by
  rw [classE_eq]
  match i with
  | 0 | 1 => trivial
  | i + 2 => trivial

theorem class_state : (built classE [0] [2]).1.state = [("linear0.weight", .param 0 "weight"), ("linear0.bias", .param 0 "bias")] := by
  decide +kernel

theorem linear_tensors {t : InfoTensors} {op : Op} {k : Nat} {ishape : Fin k → Shape} {o : Shape} {P : Nat}
    {fn : (Nat → ℝ) → (Fin P → ℝ) → Args ishape → Elems o} {θ : Fin P → ℝ} {ex : Prop} (h : Computes real t op ishape o P fn θ ex)
    (hop : op = .linear 2) (hi : ∀ j, ishape j = [2, 3]) :
    ∃ (wv bv : List ℝ) (tw tb : Bool), wv.length = 6 ∧ bv.length = 2 ∧ HasParam t "weight" [2, 3] wv tw ∧ HasParam t "bias" [2] bv tb := by
  cases h with
  | one hn hs ho h =>
    rw [hi] at hs
    cases h with
    | linear hne hst hf hc θ hw hb =>
      rename_i B n u rest tw tb
      obtain ⟨-, rfl⟩ := List.cons.inj hs
      obtain rfl : u = 2 := by injection hop; omega
      have h3 : count [3] = 3 := by decide
      obtain rfl : n = 3 := by omega
      exact ⟨_, _, _, _, by rw [MatL.rowMajor_length], by simp, hw, hb⟩
    | _ => cases hop
  | add => cases hop

/-- The tensors of the classifier after training: 6 and 2 numbers. -/
theorem class_tensors {topo : Graph → List Node} {w : World} {b : Backend} {f : List ℝ → List ℝ} {L : Layers classE} {θ : L.Params}
    (h : PredictsAt topo classE 0 2 (built classE [0] [2]).1 real θ 2 w f) (hb : w.backend = some b) :
    ∃ wv bv : List ℝ, wv.length = 6 ∧ bv.length = 2 ∧ tensorIn classE (built classE [0] [2]).1 w (.param 0 "weight") = some ⟨[2, 3], wv⟩ ∧
      tensorIn classE (built classE [0] [2]).1 w (.param 0 "bias") = some ⟨[2], bv⟩ := by
  obtain ⟨tensors', L', θ', B', hist, -, h3, -⟩ := h
  have hd : dataOf (built classE [0] [2]).1 = [0, 1, 2] := by decide +kernel
  have hc : classE.callOf 1 = some 0 := by decide +kernel
  have h1 : (1 : Nat) ∈ dataOf (built classE [0] [2]).1 := by rw [hd]; decide
  have hso : sortedOps (built classE [0] [2]).1.sorted = [0, 1] := by decide +kernel
  have hci : classE.callInfo 0 = 0 := by decide +kernel
  have hop : (infoOf classE (classE.callInfo 0)).op = .linear 2 := by rw [classE_eq]; rfl
  obtain ⟨wv, bv, tw, tb, l1, l2, ⟨gw, p1, -⟩, gb, p2, -⟩ := linear_tensors (B'.layers 1 h1 0 hc) hop (by rw [classE_eq]; decide)
  obtain ⟨hlen, hf⟩ := layer_facts B' hist (b := { b with layers := b.layers.map (Cpu.train false) }) (by unfold trained; rw [hb]; rfl)
  obtain ⟨l', hl', -, -, hn⟩ := hf 1 h1 0 hc
  simp only [layerAt, hc, Option.bind_some, hso, List.idxOf_cons_self, List.getElem?_map, Option.map_eq_some_iff] at hl'
  obtain ⟨l, hl, rfl⟩ := hl'
  have hs := (h3 1 h1 0 hc).2 b l hb (by simp only [layerAt, hc, Option.bind_some, hso, List.idxOf_cons_self]; exact hl)
  have hn := hn true
  rw [hop] at hn
  have hk : ∀ g, tensorIn.look classE (built classE [0] [2]).1 w 0 g = g (tensorsOf false l) := fun g => by
    unfold tensorIn.look
    rw [hb, hso]
    have : List.findIdx (fun c => classE.callInfo c == 0) [0, 1] = 0 := by rw [List.findIdx_cons]; simp [hci]
    simp only [Option.bind_some, this, hl]
  refine ⟨wv, bv, l1, l2, ?_, ?_⟩ <;> simp only [tensorIn, hk] <;> cases l <;> simp [paramNames, Cpu.train, tensorsOf] at hn ⊢ <;>
    obtain ⟨s1, s2⟩ := hs <;> simp [p1, p2] at s1 s2 <;> first | exact s1.1.symm | exact s1.1 | exact ⟨_, rfl, s2.1.symm⟩

/-- Bytes that name the weights 0 to 5 and the biases 6 and 7. -/
def nameBytes : StateRef → List Byte
  | .param 0 "weight" => [0, 1, 2, 3, 4, 5].flatMap intBytes
  | .param 0 "bias" => [6, 7].flatMap intBytes
  | r => List.replicate (4 * (tensorShape (built classE [0] [2]).2 r).prod.toNat) 0

def nameState : Dict := stateDict (built classE [0] [2]).2 (built classE [0] [2]).1 nameBytes

theorem name_restorable : Restorable 1000 (creationOrder classE) classE [0] [2] (built classE [0] [2]).1 (built classE [0] [2]).2 nameState {}
    (creationOrder (rebuiltE classE [0] [2])) newState :=
  { class_restorable with
    state := ⟨nameBytes, fun r => by
      unfold nameBytes
      split
      · decide +kernel
      · decide +kernel
      · simp, .refl _⟩
    dict := by decide +kernel }

theorem name_saves {wv bv : List ℝ} (h1 : wv.length = 6) (h2 : bv.length = 2) {w : World}
    (h3 : tensorIn classE (built classE [0] [2]).1 w (.param 0 "weight") = some ⟨[2, 3], wv⟩)
    (h4 : tensorIn classE (built classE [0] [2]).1 w (.param 0 "bias") = some ⟨[2], bv⟩) :
    Saves (fun b => (wv ++ bv).getD b.toNat 0) classE (built classE [0] [2]).1 w nameState := by
  have e1 : nameState.lookup "linear0.weight" = some ⟨[2, 3], [0, 1, 2, 3, 4, 5].flatMap intBytes⟩ := by decide +kernel
  have e2 : nameState.lookup "linear0.bias" = some ⟨[2], [6, 7].flatMap intBytes⟩ := by decide +kernel
  have f1 : floats 6 ([0, 1, 2, 3, 4, 5].flatMap intBytes) = [0, 1, 2, 3, 4, 5] := by decide +kernel
  have f2 : floats 2 ([6, 7].flatMap intBytes) = [6, 7] := by decide +kernel
  have l1 : ([0, 1, 2, 3, 4, 5].flatMap intBytes).length / 4 = 6 := by decide +kernel
  have l2 : ([6, 7].flatMap intBytes).length / 4 = 2 := by decide +kernel
  match wv, h1 with
  | [a0, a1, a2, a3, a4, a5], _ =>
  match bv, h2 with
  | [b0, b1], _ =>
  intro k r hk
  rw [class_state] at hk
  simp only [List.mem_cons, Prod.mk.injEq, List.not_mem_nil, or_false] at hk
  rcases hk with ⟨rfl, rfl⟩ | ⟨rfl, rfl⟩
  · refine ⟨_, e1, h3.trans ?_⟩
    simp only [numbers, l1, f1]
    rfl
  · refine ⟨_, e2, h4.trans ?_⟩
    simp only [numbers, l2, f2]
    rfl

/-- The classifier, trained with momentum for any number of epochs on any set of samples of two classes, with any shuffling, saved and
tested. -/
example (train val : Dataset ℝ) (ht : train.shapeX = [3] ∧ train.shapeY = [1] ∧ 2 ≤ train.size ∧ train.size ≤ 60000)
    (hv : val.shapeX = [3] ∧ val.shapeY = [1] ∧ 2 ≤ val.size ∧ val.size ≤ 60000) (hlab : ∀ k, train.y k 0 = 0 ∨ train.y k 0 = 1)
    (rands : Nat → Nat → List Int) (hr : ∀ i k, (rands i k).length = 2 ∧ ∀ v ∈ rands i k, 0 ≤ v ∧ v < train.size)
    (epochNo : Nat) (h0 : 0 < epochNo) (lr gamma : ℝ) :
    ∃ (real : F32 → ℝ) (L : Layers classE) (θ₀ : L.Params) (w w' : World) (b : Backend) (x p y g : Nat) (env : Nat → Nat → Nat → Env)
      (aux' : Momentum) (results : List (ℝ × ℝ)) (loss acc : ℝ),
    Built (creationOrder classE) classE [0] [2] (built classE [0] [2]).1 real (fun _ => classTensors) L θ₀ ∧
    History classE [0] [2] (built classE [0] [2]).1 real (fun _ => classTensors) L θ₀ θ₀ none w ∧
    EpochArgs classE (built classE [0] [2]).1 0 2 2 w b x p y g ∧
    epochs classE (built classE [0] [2]).1
      ⟨momentumStep, ⟨train, 2, true⟩, ⟨val, 2, false⟩, x, p, y, g, fun _ => 0, rands, fun _ _ => [], env, env, env⟩ 60000 epochNo
      ⟨w, Momentum.create ((objects true b.layers).map Prod.snd) (paramMap classE (built classE [0] [2]).1 true b.layers) lr gamma, 0, 0⟩ =
      (.ok (some results), ⟨w', aux', 0, 0⟩) ∧ results.getLast? = some (loss, acc) ∧
    Saves real classE (built classE [0] [2]).1 w' nameState ∧
    TestPrints 1000 (creationOrder (rebuiltE classE [0] [2])) newState {} (save (built classE [0] [2]).1.cfg nameState []).2 real
      ⟨val, 2, false⟩ 60000 acc := by
  obtain ⟨m, L, θ₀, hd, B, ho, hs, hall⟩ := TrainP.class_ready
  obtain ⟨e', hc⟩ := B.ctor
  rw [class_ctor] at hc
  obtain rfl := Out.ok.inj (Prod.mk.inj hc).1
  obtain ⟨pick, hpick⟩ := Props.MaxPoolP.exists_pick
  let env : Nat → Nat → Nat → Env := fun _ _ _ => ⟨fun _ => 0, fun _ => 0, pick⟩
  obtain ⟨w, b, x, p, y, g, hist, ha⟩ := epoch_session B 2
  let S : Setup Momentum :=
    ⟨momentumStep, ⟨train, 2, true⟩, ⟨val, 2, false⟩, x, p, y, g, fun _ => 0, rands, fun _ _ => [], env, env, env⟩
  have hx : ∀ x ∈ dataOf (built classE [0] [2]).1, (classE.callOf x).isSome → L.exact x := fun x hx hc => by
    obtain ⟨v, ⟨hv, -⟩, -⟩ := values_exist B (env 0 0) θ₀ fun _ _ => 0
    exact (hall (env 0 0) θ₀ v (fun _ => 0) hv).1 x (mem_net.2 ⟨hx, hc⟩)
  have hin : phShape classE 0 = [2, 3] := by rw [classE_eq]; rfl
  have fit : LoadersFit classE 0 2 2 2 S := ⟨by norm_num, by norm_num, hs, by norm_num, rfl, rfl, by rw [hin]; simp [S, ht.1],
    by rw [hin]; simp [S, hv.1], ht.2.1, hv.2.1, by have := ht.2.2.2; simp only [S]; omega, by have := hv.2.2.2; simp only [S]; omega,
    ht.2.2.1, hv.2.2.1, rfl⟩
  have pos : Possible 2 S := ⟨fun _ => hr, fun _ _ _ => hpick, fun _ _ _ => hpick⟩
  have hf1 : batches S.train < 60000 := by show train.size / 2 < 60000; have := ht.2.2.2; omega
  have hf2 : batches S.val < 60000 := by show val.size / 2 < 60000; have := hv.2.2.2; omega
  have run : ∀ real, Built (creationOrder classE) classE [0] [2] (built classE [0] [2]).1 real (fun _ => classTensors) L θ₀ →
      History classE [0] [2] (built classE [0] [2]).1 real (fun _ => classTensors) L θ₀ θ₀ none w → _ := fun real B' hist' =>
    momentum_descends lr gamma (creationOrder classE) classE (built classE [0] [2]).1 real (fun _ => classTensors) L θ₀ 0 2 2 2 θ₀ S rfl B'
      (fun x hx c hc name p hp => by
        simp only [classTensors, List.lookup_cons, List.lookup_nil] at hp
        split at hp
        · cases hp; rfl
        · split at hp
          · cases hp; rfl
          · cases hp) ho
      (fun x _ c _ q hq => by have := class_plain (classE.callInfo c); rw [hq] at this; exact this.elim)
      (fun x _ c _ => by
        have := class_plain (classE.callInfo c)
        revert this
        cases (infoOf classE (classE.callInfo c)).op <;> intro h <;> first | trivial | exact h.elim)
      fit pos hx (fun k _ _ => by
        rcases hlab k with h | h
        · exact ⟨0, by simpa [S] using h⟩
        · exact ⟨1, by simpa [S] using h⟩)
      (fun env θ v hv i j => (hall env θ v (fun _ => j) hv).2.2 i) epochNo 60000 hf1 hf2 none w b hist' ha
  obtain ⟨Θ, v, Lb, gr, -, f, w', b', aux', h1, -, h3, -, -, -, h2, -⟩ := run _ B hist
  obtain ⟨i, rfl⟩ : ∃ i, epochNo = i + 1 := ⟨epochNo - 1, by omega⟩
  obtain ⟨wv, bv, l1, l2, t1, t2⟩ := class_tensors (h2 i rfl) h3.backend
  have B' := built_plain (real' := fun b => (wv ++ bv).getD b.toNat 0) class_plain B
  have hist' := history_plain (real' := fun b => (wv ++ bv).getD b.toNat 0) class_plain hist
  obtain ⟨Θ', v', Lb', gr', -, hrep⟩ := run _ B' hist'
  obtain ⟨results, w₂, aux₂, loss, acc, r1, -, r2, r3⟩ := trained_saved_tested fit h0 hrep hf2
  obtain rfl : w₂ = w' := by
    have := congrArg (fun s => s.2.world) (r1.symm.trans h1)
    exact this
  have hsv := name_saves l1 l2 t1 t2
  exact ⟨_, L, θ₀, w, w₂, b, x, p, y, g, env, aux₂, results, loss, acc, B', hist', ha, r1, r2, hsv, r3 name_restorable hsv⟩

end

end DW.Props.EndToEndP
