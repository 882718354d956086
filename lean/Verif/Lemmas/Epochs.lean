import Mathlib.Algebra.BigOperators.Intervals
import Verif.Model.Epochs
import Verif.Lemmas.Again
import Verif.Props.Train
import Verif.Props.Validation
/-! # The steps of the main loop of the samples -/

set_option autoImplicit false

namespace DW.EpochL

open DW DW.Spec DW.DL DW.DLL DW.ValL DW.HistL DW.NetL DW.BackendL DW.GraphL DW.BatchL DW.TrainL DW.AgainL DW.Optim DW.OptL
  DW.Props.BackendP DW.Props.ValidationP DW.Props.LoopP DW.Props.TrainP DW.Props.LossP DW.MatL DW.Props.ContractP

noncomputable section

variable {topo : Graph → List Node} {e : Expr} {ins outs : List Nat} {m : Model} {real : F32 → ℝ} {tensors : Nat → InfoTensors}
  {L : Layers e} {θ₀ : L.Params}

/-! ### Switching the mode -/

/-- `train(true)`, after whatever was done with the model in another mode, brings back the network of the training. -/
theorem train_again (B : Built topo e ins outs m real tensors L θ₀)
    (htr : ∀ x ∈ dataOf m, ∀ c, e.callOf x = some c → Trainable (tensors (e.callInfo c))) {tensors₁ : Nat → InfoTensors} {L₁ : Layers e}
    {θ₁ θ₂ : L₁.Params} (B₁ : Built topo e ins outs m real tensors₁ L₁ θ₁) {last : Option ((Nat → Env) × Vals e)} {w : World}
    (h : History e ins outs m real tensors₁ L₁ θ₁ θ₂ last w)
    (hg : ∀ x ∈ dataOf m, ∀ c, e.callOf x = some c → GoodVar real (tensors₁ (e.callInfo c)) (infoOf e (e.callInfo c)).op)
    (hd : ∀ x ∈ dataOf m, ∀ c, e.callOf x = some c → DropOk real (infoOf e (e.callInfo c)).op (phShape e x))
    {θ : L.Params} (hθ : ∀ x, List.ofFn (θ₂ x) = List.ofFn (θ x)) :
    ∃ tensors' : Nat → InfoTensors, Built topo e ins outs m real tensors' L θ ∧
      History e ins outs m real tensors' L θ θ none (trained true w) ∧
      (∀ x ∈ dataOf m, ∀ c, e.callOf x = some c → Trainable (tensors' (e.callInfo c))) ∧
      ∀ x ∈ dataOf m, ∀ c, e.callOf x = some c → GoodVar real (tensors' (e.callInfo c)) (infoOf e (e.callInfo c)).op := by
  obtain ⟨t', h1, h2⟩ := train_gives B₁ h hg hd true
  refine ⟨t', ⟨B.reachable, B.sorts, B.ctor, B.orderly, B.sound, B.shapes, fun x hx c hc => ?_⟩, h1 L θ,
    fun x hx c hc => (h2 x hx c hc).2.2.1, fun x hx c hc => (h2 x hx c hc).2.2.2⟩
  obtain ⟨⟨f', ex', hcomp⟩, -, hm, -⟩ := h2 x hx c hc
  obtain ⟨hP, hf, hex⟩ := unique hcomp (B.layers x hx c hc) hm (htr x hx c hc)
  exact computes_cast hcomp hP hf hex (hθ x)

/-- The running statistics a layer object shows are those it was given, if they are still the same. -/
theorem same_stats {t t' : InfoTensors} {op : Op} {n : Nat} {ishape : Fin n → Shape} {o : Shape} {P : Nat}
    {f : (Nat → ℝ) → (Fin P → ℝ) → Args ishape → Elems o} {θ : Fin P → ℝ} {ex : Prop} (h : Computes real t op ishape o P f θ ex)
    {l : Cpu} (hsane : ∀ s ∈ (List.ofFn ishape).head?, Sane real s o op l) {mode : Bool} (hsh : l.Shows mode t')
    (hb : l.buffers = (l.give t).buffers) : op.IsNorm → SameStats t t' := by
  intro hop k mu var mu' var' hm hv hm' hv'
  have key : ∀ st : BnSt, t'.buffers.lookup "running_mean" = some st.runMean → t'.buffers.lookup "running_var" = some st.runVar →
      (∃ g, t.params.lookup "gamma" = some g) → (∃ b, t.params.lookup "beta" = some b) →
      st.runMean.vals ++ st.runVar.vals = (Cpu.give.bn t st).runMean.vals ++ (Cpu.give.bn t st).runVar.vals → mu = mu' ∧ var = var' := by
    intro st h1 h2 ⟨g, hg⟩ ⟨b, hb⟩ h3
    unfold Spec.HasBuffer at hm hv hm' hv'
    have e1 := Option.some.inj (h1.symm.trans hm')
    have e2 := Option.some.inj (h2.symm.trans hv')
    simp only [Cpu.give.bn, hg, hb, hm, hv, e1, e2] at h3
    obtain ⟨a1, a2⟩ := List.append_inj h3 (by simp)
    exact ⟨(List.ofFn_injective a1).symm, (List.ofFn_injective a2).symm⟩
  cases h with
  | @one _ _ _ s _ _ _ f _ _ hn hs ho h =>
    have hs1 := hsane s (by subst hn; simp [List.ofFn_succ, ← hs])
    cases h <;> try exact hop.elim
    all_goals
      rename_i hg hbe _ _
      obtain ⟨g, hg, -⟩ := hg
      obtain ⟨b, hbe, -⟩ := hbe
      obtain ⟨st, rfl, -⟩ := hs1
      exact key st hsh.2.2.1 hsh.2.2.2 ⟨_, hg⟩ ⟨_, hbe⟩ hb
  | add => exact hop.elim

/-- `train(false)` once more, after evaluations: the layers compute what they computed. -/
theorem eval_again (B : Built topo e ins outs m real tensors L θ₀)
    (hfr : ∀ x ∈ dataOf m, ∀ c, e.callOf x = some c → Frozen (tensors (e.callInfo c))) {last : Option ((Nat → Env) × Vals e)} {w : World}
    {θ : L.Params} (h : History e ins outs m real tensors L θ₀ θ last w)
    (hg : ∀ x ∈ dataOf m, ∀ c, e.callOf x = some c → GoodVar real (tensors (e.callInfo c)) (infoOf e (e.callInfo c)).op)
    (hd : ∀ x ∈ dataOf m, ∀ c, e.callOf x = some c → DropOk real (infoOf e (e.callInfo c)).op (phShape e x)) :
    ∃ (tensors' : Nat → InfoTensors) (ex' : Nat → Prop), Built topo e ins outs m real tensors' ⟨L.params, L.fn, ex'⟩ θ ∧
      History e ins outs m real tensors' ⟨L.params, L.fn, ex'⟩ θ θ none (trained false w) ∧
      ∀ x ∈ dataOf m, ∀ c, e.callOf x = some c → Frozen (tensors' (e.callInfo c)) ∧
        ∀ b l, w.backend = some b → layerAt e m b x = some l → l.Shows false (tensors' (e.callInfo c)) := by
  obtain ⟨t', h1, h2⟩ := train_gives B h hg hd false
  have hcomp : ∀ x, ∃ ex', x ∈ dataOf m → ∀ c, e.callOf x = some c → Computes real (t' (e.callInfo c)) (infoOf e (e.callInfo c)).op
      (fun j : Fin (e.argsOf x).length => phShape e (e.argsOf x)[j]) (phShape e x) (L.params x) (L.fn x) (θ x) ex' := fun x => by
    by_cases hx : x ∈ dataOf m
    · cases hc : e.callOf x with
      | none => exact ⟨True, fun _ c hc => by cases hc⟩
      | some c =>
        obtain ⟨⟨f', ex', h'⟩, hsh, hm, -⟩ := h2 x hx c hc
        refine ⟨ex', fun _ c' hc' => ?_⟩
        obtain rfl := Option.some.inj hc'
        obtain ⟨R, K, hk, hs⟩ := kit_exists B
        obtain ⟨b, hC, hl, -⟩ := live B hk hs h
        obtain ⟨l, e1, e2⟩ := hl x hx (by simp [hc])
        obtain ⟨l', e1', e3⟩ := eval_buffers B hfr h hC.backend x hx c hc
        obtain rfl := Option.some.inj (e1.symm.trans e1')
        have hst := same_stats (B.layers x hx c hc) ((hs.layer x hx c hc).sane _ l e2) (hsh b l hC.backend e1) e3
        obtain ⟨-, hf⟩ := unique_frozen (B.layers x hx c hc) h' (hfr x hx c hc) hm hst
        obtain rfl := eq_of_heq hf
        exact h'
    · exact ⟨True, fun h => absurd h hx⟩
  choose ex' hcomp using hcomp
  exact ⟨t', ex', ⟨B.reachable, B.sorts, B.ctor, B.orderly, B.sound, B.shapes, hcomp⟩, h1 _ _, fun x hx c hc =>
    ⟨(h2 x hx c hc).2.2.1, (h2 x hx c hc).2.1⟩⟩

/-- The same layer functions make the same predictions. -/
theorem predicts_fn {xi yo N : Nat} {tensors' : Nat → InfoTensors} {ex' : Nat → Prop} (B : Built topo e [xi] [yo] m real tensors L θ₀)
    (B' : Built topo e [xi] [yo] m real tensors' ⟨L.params, L.fn, ex'⟩ θ₀)
    {f : List ℝ → List ℝ} (hf : Predicts e xi yo m real tensors L θ₀ θ₀ N f) :
    Predicts e xi yo m real tensors' ⟨L.params, L.fn, ex'⟩ θ₀ θ₀ N f := by
  intro last w₃ u₃ b₃ env h₃ p₃ t t' H A P F S S' i hi
  obtain ⟨v, hv, hcv⟩ := values_of_inputs B' A env θ₀
  obtain ⟨w, b, it, ot, hw, ha, hc⟩ := Props.BatchP.fwd_session B v
  obtain ⟨h, rfl⟩ := List.length_eq_one_iff.1 ha.givenIns.length
  obtain ⟨p, rfl⟩ := List.length_eq_one_iff.1 ha.givenOuts.length
  obtain ⟨u, b', r1, -, -, r2, -⟩ := forward_evaluates_partial B hw ha P hv hc
  obtain ⟨u', b₃', r3, -, -, r4, -⟩ := forward_evaluates_partial B' H A P hv hcv
  rw [F] at r3
  obtain rfl : u₃ = u' := (Prod.mk.inj r3).2
  have hin : w.store[h]? = some t := (hc 0 xi h rfl rfl).trans ((hcv 0 xi h₃ rfl rfl).symm.trans S)
  have hout : u.store[p]? = some t' := (r2 0 yo p rfl rfl).trans ((r4 0 yo p₃ rfl rfl).symm.trans S')
  exact hf none w u b env h p t t' hw ha P r1 hin hout i hi

variable {σ A C E : Type}

theorem sizes_train (mode : Bool) (l : Cpu) : (l.train mode).sizes = l.sizes := by cases l <;> rfl

/-- The optimizer does not notice. -/
theorem optState_trained {ru : Rule σ A C E} {b : Backend} {aux : σ} {S : Nat → List E} (hs : OptState ru e m b aux S) (mode : Bool) :
    OptState ru e m { b with layers := b.layers.map (Cpu.train mode) } aux S := by
  intro x hx c l' hc hl'
  cases hl : layerAt e m b x with
  | none =>
    unfold layerAt at hl hl'
    rw [hc] at hl hl'
    simp only [Option.bind_some, List.getElem?_map] at hl hl'
    rw [hl] at hl'
    cases hl'
  | some l =>
    have := (trained_changes (e := e) (m := m) (b := b) mode).layer x hx l hl
    obtain rfl := Option.some.inj (hl'.symm.trans this)
    have := hs x hx c l hc hl
    rw [sizes_train, fullState_sizes (sizes_train mode l)]
    exact this

/-! ### The tensors -/

/-- The tensors the program works on: `x` and `y` for the batches of `N` samples, `p` for the predictions and `g` for their gradient. -/
structure EpochArgs (e : Expr) (m : Model) (xi yo N : Nat) (w : World) (b : Backend) (x p y g : Nat) : Prop where
  backend : w.backend = some b
  acceptsX : AcceptsBuf w x (phShape e xi)
  acceptsY : AcceptsBuf w y [(N : Int), 1]
  preds : Given e m w b [yo] [p]
  grad : Given e m w b [yo] [g]
  outsideX : x ∉ privates m b
  outsideY : y ∉ privates m b
  nodup : [x, p, y, g].Nodup

/-- The samples `idxs` have the inputs `inp` and the labels `Lb`. -/
structure Feeds (ld : Loader ℝ) {xi N n : Nat} (idxs : List Int) (inp : Elems (phShape e xi)) (Lb : Fin N → Fin n) : Prop where
  length : idxs.length = N
  inputs : List.ofFn inp = idxs.flatMap fun i => (List.range ld.dataset.shapeX.prod.toNat).map (ld.dataset.x i)
  labels : ∀ i : Fin N, ∃ k, idxs[i.val]? = some k ∧ ld.dataset.y k 0 = (Lb i).val

section

variable {xi yo N n : Nat} {θ : L.Params} {last : Option ((Nat → Env) × Vals e)} {w : World} {b : Backend} {x p y g : Nat}

theorem EpochArgs.parts (ha : EpochArgs e m xi yo N w b x p y g) : x ≠ p ∧ x ≠ y ∧ x ≠ g ∧ p ≠ y ∧ p ≠ g ∧ y ≠ g := by
  have := ha.nodup
  simp only [List.nodup_cons, List.mem_cons, List.not_mem_nil, or_false, not_or] at this
  obtain ⟨⟨h1, h2, h3⟩, ⟨h4, h5⟩, h6, -⟩ := this
  exact ⟨h1, h2, h3, h4, h5, h6⟩

/-- The mode does not matter for the tensors. -/
theorem EpochArgs.trained (ha : EpochArgs e m xi yo N w b x p y g) (mode : Bool) :
    EpochArgs e m xi yo N (trained mode w) { b with layers := b.layers.map (Cpu.train mode) } x p y g ∧
      SameOwner m b { b with layers := b.layers.map (Cpu.train mode) } ∧ (Spec.trained mode w).store = w.store := by
  have hp := changed_privates (trained_changes (e := e) (m := m) (b := b) mode)
  refine ⟨⟨by unfold Spec.trained; rw [ha.backend]; rfl, ha.acceptsX, ha.acceptsY, ⟨rfl, ha.preds.room, ?_⟩, ⟨rfl, ha.grad.room, ?_⟩, ?_, ?_,
    ha.nodup⟩, hp, rfl⟩
  · rw [hp]; exact ha.preds.outside
  · rw [hp]; exact ha.grad.outside
  · rw [hp]; exact ha.outsideX
  · rw [hp]; exact ha.outsideY

theorem given_of {w' : World} {a : Nat} (hg : Given e m w b [yo] [a]) (h : w'.store[a]? = w.store[a]?) : Given e m w' b [yo] [a] := by
  refine ⟨rfl, fun i z k hz hk => ?_, hg.outside⟩
  obtain rfl := getD_single hz
  obtain rfl := getD_single hk
  unfold Room
  rw [h]
  exact hg.room 0 _ _ rfl rfl

/-- The next batch is in the tensors. -/
theorem placed (h : History e [xi] [yo] m real tensors L θ₀ θ last w) (ha : EpochArgs e m xi yo N w b x p y g) {ld : Loader ℝ}
    (hN : ld.batch = N) (hx : phShape e xi = (N : Int) :: ld.dataset.shapeX) (hy : ld.dataset.shapeY = [1]) {idxs : List Int} {v : Vals e}
    {Lb : Fin N → Fin n} (hf : Feeds ld idxs (v xi) Lb) :
    History e [xi] [yo] m real tensors L θ₀ θ last (putBatch ld idxs x y w) ∧
      BatchArgs e m [xi] yo (putBatch ld idxs x y w) b [x] p y g Lb ∧ Carry e (putBatch ld idxs x y w) [xi] [x] v ∧
      Untouched m b w (putBatch ld idxs x y w) [x, y] := by
  obtain ⟨hxp, hxy, hxg, hpy, hpg, hyg⟩ := ha.parts
  have hlx := let ⟨b, hb, _⟩ := ha.acceptsX; (List.getElem?_eq_some_iff.1 hb).1
  have hly := let ⟨b, hb, _⟩ := ha.acceptsY; (List.getElem?_eq_some_iff.1 hb).1
  have sx : (putBatch ld idxs x y w).store[x]? = some ⟨phShape e xi, List.ofFn (v xi)⟩ := by
    unfold putBatch
    rw [List.getElem?_set_ne hxy.symm, List.getElem?_set_self hlx, hf.inputs, hx, ← hN]
    rfl
  have hlab : batchBuf ld.batch ld.dataset.shapeY ld.dataset.y idxs = labelTensor Lb := by
    unfold batchBuf labelTensor
    rw [hy, hN]
    congr 1
    simp only [List.prod_cons, List.prod_nil, mul_one, Int.toNat_one, List.range_one, List.map_cons, List.map_nil]
    rw [← List.map_eq_flatMap]
    refine List.ext_getElem (by simp [hf.length]) fun i h1 h2 => ?_
    obtain ⟨k, hk, hkl⟩ := hf.labels ⟨i, by simpa using h2⟩
    obtain ⟨hk1, hk2⟩ := List.getElem?_eq_some_iff.1 hk
    simp only [List.getElem_map, List.getElem_ofFn]
    rw [← hkl, ← hk2]
  have sy : (putBatch ld idxs x y w).store[y]? = some (labelTensor Lb) := by
    unfold putBatch
    rw [List.getElem?_set_self (by simpa using hly), hlab]
  have so : ∀ a, a ≠ x → a ≠ y → (putBatch ld idxs x y w).store[a]? = w.store[a]? := fun a h1 h2 => by
    unfold putBatch
    rw [List.getElem?_set_ne (Ne.symm h2), List.getElem?_set_ne (Ne.symm h1)]
  refine ⟨.write y _ (.write x _ h ha.backend ha.outsideX) ha.backend ha.outsideY, ⟨⟨ha.backend, ⟨rfl, fun i z k hz hk => ?_, fun k hk => ?_⟩,
    given_of ha.preds (so p hxp.symm hpy), by simp, fun k h1 h2 => ?_⟩, sy, ha.outsideY, given_of ha.grad (so g hxg.symm hyg.symm),
    by simpa using hxg.symm, hpg.symm, hpy.symm, hyg⟩, fun i z k hz hk => ?_, fun a h1 h2 => ?_⟩
  · obtain rfl := getD_single hz
    obtain rfl := getD_single hk
    exact ⟨_, sx, by simp⟩
  · rw [List.mem_singleton.1 hk]
    exact ha.outsideX
  · exact hxp ((List.mem_singleton.1 h2).symm.trans (List.mem_singleton.1 h1))
  · obtain rfl := getD_single hz
    obtain rfl := getD_single hk
    exact sx
  · simp only [List.mem_cons, List.not_mem_nil, or_false, not_or] at h2
    exact so a h2.1 h2.2

/-- The tensors of an iteration are tensors for the next. -/
theorem EpochArgs.of_batch {w' : World} {b' : Backend} (ha : EpochArgs e m xi yo N w b x p y g) {Lb : Fin N → Fin n}
    (h : BatchArgs e m [xi] yo w' b' [x] p y g Lb) : EpochArgs e m xi yo N w' b' x p y g := by
  obtain ⟨_, hr, -⟩ := h.fwd.givenIns.room 0 _ _ rfl rfl
  exact ⟨h.fwd.backend, ⟨_, hr, .inr rfl⟩, ⟨_, h.labels, .inr rfl⟩, h.fwd.givenOuts, h.grad, h.fwd.givenIns.outside x (by simp),
    h.labelsOutside, ha.nodup⟩

theorem EpochArgs.val (ha : EpochArgs e m xi yo N w b x p y g) {ld : Loader ℝ} (hN : ld.batch = N)
    (hx : phShape e xi = (N : Int) :: ld.dataset.shapeX) (hy : ld.dataset.shapeY = [1]) : ValArgs e m yo ld w b x p y := by
  obtain ⟨hxp, hxy, hxg, hpy, hpg, hyg⟩ := ha.parts
  exact ⟨ha.backend, by rw [hN, ← hx]; exact ha.acceptsX, by rw [hN, hy]; exact ha.acceptsY, ha.preds, ha.outsideX, ha.outsideY, hxy,
    hxp.symm, hpy⟩

theorem EpochArgs.of_val {w' : World} {b' : Backend} (ha : EpochArgs e m xi yo N w b x p y g) {ld : Loader ℝ} (hN : ld.batch = N)
    (hx : phShape e xi = (N : Int) :: ld.dataset.shapeX) (hy : ld.dataset.shapeY = [1]) (h : ValArgs e m yo ld w' b' x p y)
    (ho : SameOwner m b b') (hu : Untouched m b w w' [x, p, y]) : EpochArgs e m xi yo N w' b' x p y g := by
  obtain ⟨hxp, hxy, hxg, hpy, hpg, hyg⟩ := ha.parts
  have hg := given_of ha.grad (hu g (ha.grad.outside g (by simp)) (by simp [hxg.symm, hpg.symm, hyg.symm]))
  exact ⟨h.backend, by rw [hx, ← hN]; exact h.acceptsX, by rw [← hN, ← hy]; exact h.acceptsY, h.preds,
    ⟨rfl, hg.room, by rw [ho]; exact hg.outside⟩, h.outsideX, h.outsideY, ha.nodup⟩

end

end

end DW.EpochL
