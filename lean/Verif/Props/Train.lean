import Verif.Model.Training
import Verif.Props.Derivative
import Verif.Props.Complete
import Verif.Props.BackendRefute
/-!
# Switching between training and evaluation (C77)
-/

set_option autoImplicit false

namespace DW.Props.BackendP

open DW DW.Spec DW.HistL DW.BackendL DW.NetL DW.GraphL DW.Props.ContractP

noncomputable section

theorem shows_tensorsOf (mode : Bool) (l : Cpu) : l.Shows mode (tensorsOf mode l) := by
  cases l with
  | linear st => exact ⟨rfl, rfl⟩
  | convolution st => exact ⟨rfl, rfl⟩
  | batchNorm1D st => exact ⟨rfl, rfl, rfl, rfl⟩
  | batchNorm2D st => exact ⟨rfl, rfl, rfl, rfl⟩
  | dropout st => exact ⟨_, rfl, by simp⟩
  | _ => trivial

theorem lookup_mem {α : Type} {k : String} {v : α} : ∀ {l : List (String × α)}, l.lookup k = some v → (k, v) ∈ l
  | [], h => by simp at h
  | (k', v') :: l, h => by
    rw [List.lookup_cons] at h
    by_cases hk : k = k'
    · subst hk
      simp only [beq_self_eq_true] at h
      rw [Option.some.inj h]
      exact List.mem_cons_self
    · rw [show (k == k') = false by simpa using hk] at h
      exact List.mem_cons_of_mem _ (lookup_mem h)

theorem tensorsOf_mode (mode : Bool) (l : Cpu) {name : String} {p : Parameter} (h : (tensorsOf mode l).params.lookup name = some p) :
    p.trainable = mode := by
  have h := lookup_mem h
  cases l <;> simp [tensorsOf] at h
  case dropout => rw [h.2]
  all_goals rcases h with ⟨-, rfl⟩ | ⟨-, rfl⟩ <;> rfl

/-- Setting the tensors to what they are, with another mode, is `train`. -/
theorem give_shows {mode : Bool} {t : InfoTensors} {l : Cpu} (h : l.Shows mode t) : l.give t = l.train mode := by
  cases l with
  | linear st => obtain ⟨h1, h2⟩ := h; simp [Cpu.give, Cpu.train, h1, h2]
  | convolution st => obtain ⟨h1, h2⟩ := h; simp [Cpu.give, Cpu.train, h1, h2]
  | batchNorm1D st => obtain ⟨h1, h2, h3, h4⟩ := h; simp [Cpu.give, Cpu.give.bn, Cpu.train, h1, h2, h3, h4]
  | batchNorm2D st => obtain ⟨h1, h2, h3, h4⟩ := h; simp [Cpu.give, Cpu.give.bn, Cpu.train, h1, h2, h3, h4]
  | dropout st => obtain ⟨g, h1, h2⟩ := h; simp [Cpu.give, Cpu.train, h1]
  | _ => rfl

theorem trained_changes {e : Expr} {m : Model} {b : Backend} (mode : Bool) :
    ChangedLayers e m b { b with layers := b.layers.map (Cpu.train mode) } fun _ l => l.train mode := by
  refine ⟨rfl, rfl, by simp, fun x hx l hl => ?_⟩
  unfold layerAt at hl ⊢
  cases hc : e.callOf x with
  | none => rw [hc] at hl; cases hl
  | some c =>
    rw [hc] at hl
    simp only [Option.bind_some] at hl ⊢
    rw [List.getElem?_map, hl]
    rfl

variable {topo : Graph → List Node} {e : Expr} {ins outs : List Nat} {m : Model} {real : F32 → ℝ} {tensors : Nat → InfoTensors}
  {L : Layers e} {θ₀ : L.Params}

/-- The layers of a model are different layer objects. -/
theorem infos_distinct (B : Built topo e ins outs m real tensors L θ₀) : ∀ x ∈ dataOf m, ∀ x' ∈ dataOf m, ∀ c c',
    e.callOf x = some c → e.callOf x' = some c' → e.callInfo c = e.callInfo c' → x = x' := by
  have P := plan B
  obtain ⟨e', h⟩ := B.ctor
  obtain ⟨g, -, -, -, he, hn, -⟩ := ctor_maps B.reachable h
  intro x hx x' hx' c c' hc hc' hi
  have h1 := (P.make x hx c hc).1
  have h2 := (P.make x' hx' c' hc').1
  have hname : opName e' c = opName e' c' := by
    have hci : ∀ c, e'.callInfo c = e.callInfo c := fun c => by rw [he]; exact callInfo_nameOps e _ c
    unfold opName
    rw [hci, hci, hi]
  have : c = c' := List.inj_on_of_nodup_map hn h1 h2 hname
  subst this
  exact P.inj x x' c hc hc'

/-- The running variances are never negative, if they were not at the start. -/
theorem variances_nonneg (B : Built topo e ins outs m real tensors L θ₀) {θ : L.Params} {last : Option ((Nat → Env) × Vals e)}
    {w : World} (h : History e ins outs m real tensors L θ₀ θ last w)
    (hg : ∀ x ∈ dataOf m, ∀ c, e.callOf x = some c → GoodVar real (tensors (e.callInfo c)) (infoOf e (e.callInfo c)).op)
    {b : Backend} (hb : w.backend = some b) : ∀ x ∈ dataOf m, ∀ l, layerAt e m b x = some l → l.VarOk := by
  obtain ⟨R, K, hk, hs⟩ := kit_exists B
  obtain ⟨b', hC, h1, -⟩ := live B hk hs h
  obtain rfl : b' = b := Option.some.inj (hC.backend.symm.trans hb)
  intro x hx l hl
  cases hc : e.callOf x with
  | none => unfold layerAt at hl; rw [hc] at hl; cases hl
  | some c =>
    obtain ⟨l', e1, e2⟩ := h1 x hx (by simp [hc])
    obtain rfl := Option.some.inj (hl.symm.trans e1)
    exact (hs.layer x hx c hc).nonneg (hg x hx c hc) _ l e2

/-- `train(mode)` is a change of the tensors of the layers, to ones with which they can work in that mode. -/
theorem train_gives (B : Built topo e ins outs m real tensors L θ₀) {θ : L.Params} {last : Option ((Nat → Env) × Vals e)}
    {w : World} (h : History e ins outs m real tensors L θ₀ θ last w)
    (hg : ∀ x ∈ dataOf m, ∀ c, e.callOf x = some c → GoodVar real (tensors (e.callInfo c)) (infoOf e (e.callInfo c)).op)
    (hd : ∀ x ∈ dataOf m, ∀ c, e.callOf x = some c → DropOk real (infoOf e (e.callInfo c)).op (phShape e x)) (mode : Bool) :
    ∃ tensors' : Nat → InfoTensors,
      (∀ (L' : Layers e) (θ' : L'.Params), History e ins outs m real tensors' L' θ' θ' none (trained mode w)) ∧
      ∀ x ∈ dataOf m, ∀ c, e.callOf x = some c → (∃ f' exact', Computes real (tensors' (e.callInfo c)) (infoOf e (e.callInfo c)).op
          (fun j : Fin (e.argsOf x).length => phShape e (e.argsOf x)[j]) (phShape e x) (L.params x) f' (θ x) exact') ∧
        (∀ b l, w.backend = some b → layerAt e m b x = some l → l.Shows mode (tensors' (e.callInfo c))) ∧
        (∀ name p, (tensors' (e.callInfo c)).params.lookup name = some p → p.trainable = mode) ∧
        GoodVar real (tensors' (e.callInfo c)) (infoOf e (e.callInfo c)).op := by
  classical
  have hvar := fun b hb => variances_nonneg B h hg (b := b) hb
  obtain ⟨R, K, hk, hs⟩ := kit_exists B
  obtain ⟨b, hC, h1, -⟩ := live B hk hs h
  have hvar := hvar b hC.backend
  let tensors' : Nat → InfoTensors := fun i =>
    if h : ∃ x ∈ dataOf m, ∃ c, e.callOf x = some c ∧ e.callInfo c = i then
      tensorsOf mode ((layerAt e m b h.choose).getD .relu) else ⟨[], []⟩
  have ht : ∀ x ∈ dataOf m, ∀ c, e.callOf x = some c → ∀ l, layerAt e m b x = some l →
      tensors' (e.callInfo c) = tensorsOf mode l := fun x hx c hc l hl => by
    have hex : ∃ x' ∈ dataOf m, ∃ c', e.callOf x' = some c' ∧ e.callInfo c' = e.callInfo c := ⟨x, hx, c, hc, rfl⟩
    have hch := hex.choose_spec
    obtain ⟨c', hc', hi⟩ := hch.2
    have : hex.choose = x := infos_distinct B _ hch.1 x hx c' c hc' hc hi
    show dite _ _ _ = _
    rw [dif_pos hex, this, hl]
    rfl
  refine ⟨tensors', ?_, ?_⟩
  · intro L' θ'
    have hw : trained mode w = { w with backend := some { b with layers := b.layers.map (Cpu.train mode) } } := by
      unfold trained
      rw [hC.backend]
      rfl
    rw [hw]
    refine .change B h hC.backend ?_
    have hch := trained_changes (e := e) (m := m) (b := b) mode
    refine ⟨hch.mem, hch.grad, hch.length, fun x hx l hl => ?_⟩
    rw [hch.layer x hx l hl]
    cases hc : e.callOf x with
    | none => unfold layerAt at hl; rw [hc] at hl; cases hl
    | some c =>
      unfold giveAt
      simp only [hc]
      rw [ht x hx c hc l hl, give_shows (shows_tensorsOf mode l)]
  · intro x hx c hc
    obtain ⟨l, e1, e2⟩ := h1 x hx (by simp [hc])
    have htl := ht x hx c hc l e1
    refine ⟨hs.retensor x hx c hc _ l e2 (hvar x hx l e1) (hd x hx c hc) mode (tensors' (e.callInfo c))
      (by rw [htl]; exact shows_tensorsOf mode l), fun b₁ l₁ hb₁ hl₁ => ?_, fun name p hp => ?_, ?_⟩
    · obtain rfl := Option.some.inj (hC.backend.symm.trans hb₁)
      obtain rfl := Option.some.inj (e1.symm.trans hl₁)
      rw [htl]
      exact shows_tensorsOf mode l
    · rw [htl] at hp
      exact tensorsOf_mode mode l hp
    · rw [htl]
      have hv := hvar x hx l e1
      have hgx := hg x hx c hc
      have hsane := (hs.layer x hx c hc).sane _ l e2
      revert hgx
      cases hop : (infoOf e (e.callInfo c)).op <;> intro hgx <;> try trivial
      all_goals
        refine ⟨hgx.1, hgx.2.1, fun bf hbf => ?_⟩
        have hbf := lookup_mem hbf
        cases l <;> simp [tensorsOf] at hbf
        all_goals
          obtain rfl := hbf
          exact hv

/-- **C77, switching.** After any history, `train(mode)` leads to a state in which the layers work in that mode, with the
parameters and the running statistics they have. All theorems about histories then hold for the functions of that mode. -/
theorem train_switches (B : Built topo e ins outs m real tensors L θ₀) {θ : L.Params} {last : Option ((Nat → Env) × Vals e)}
    {w : World} (h : History e ins outs m real tensors L θ₀ θ last w)
    (hg : ∀ x ∈ dataOf m, ∀ c, e.callOf x = some c → GoodVar real (tensors (e.callInfo c)) (infoOf e (e.callInfo c)).op)
    (hd : ∀ x ∈ dataOf m, ∀ c, e.callOf x = some c → DropOk real (infoOf e (e.callInfo c)).op (phShape e x)) (mode : Bool) :
    ∃ (tensors' : Nat → InfoTensors) (L' : Layers e) (θ' : L'.Params),
      Built topo e ins outs m real tensors' L' θ' ∧ History e ins outs m real tensors' L' θ' θ' none (trained mode w) ∧
      (∀ x, List.ofFn (θ' x) = List.ofFn (θ x)) ∧
      ∀ x ∈ dataOf m, ∀ c, e.callOf x = some c → (∀ b l, w.backend = some b → layerAt e m b x = some l →
          l.Shows mode (tensors' (e.callInfo c))) ∧
        (∀ name p, (tensors' (e.callInfo c)).params.lookup name = some p → p.trainable = mode) ∧
        GoodVar real (tensors' (e.callInfo c)) (infoOf e (e.callInfo c)).op := by
  obtain ⟨tensors', h1, h2⟩ := train_gives B h hg hd mode
  have hcomp : ∀ x, ∃ f' exact', x ∈ dataOf m → ∀ c, e.callOf x = some c →
      Computes real (tensors' (e.callInfo c)) (infoOf e (e.callInfo c)).op
        (fun j : Fin (e.argsOf x).length => phShape e (e.argsOf x)[j]) (phShape e x) (L.params x) f' (θ x) exact' := fun x => by
    by_cases hx : x ∈ dataOf m
    · cases hc : e.callOf x with
      | none => exact ⟨L.fn x, True, fun _ c hc => by cases hc⟩
      | some c =>
        obtain ⟨f', ex', h'⟩ := (h2 x hx c hc).1
        refine ⟨f', ex', fun _ c' hc' => ?_⟩
        obtain rfl := Option.some.inj hc'
        exact h'
    · exact ⟨L.fn x, True, fun h => absurd h hx⟩
  choose f' ex' hcomp using hcomp
  exact ⟨tensors', ⟨L.params, f', ex'⟩, θ, ⟨B.reachable, B.sorts, B.ctor, B.orderly, B.sound, B.shapes, hcomp⟩, h1 _ _, fun _ => rfl,
    fun x hx c hc => (h2 x hx c hc).2⟩

theorem computes_frozen {t : InfoTensors} {op : Op} {n : Nat} {ishape : Fin n → Shape} {o : Shape} {P : Nat}
    {fn : (Nat → ℝ) → (Fin P → ℝ) → Args ishape → Elems o} {θ : Fin P → ℝ} {ex : Prop} (h : Computes real t op ishape o P fn θ ex)
    (hf : Frozen t) (r r' : Nat → ℝ) : fn r = fn r' := by
  cases h with
  | one hn hs ho h =>
    cases h
    case dropout p hp sm m hm =>
      obtain ⟨g, hm, -⟩ := hm
      exact absurd (hf _ _ hm) (by simp)
    all_goals rfl
  | add hn h₀ h₁ => rfl

/-- **C77, evaluation.** If no parameter is trainable, the outputs of `forward` depend on the parameters and the inputs only:
not on random numbers, the history, the tensors used, or their previous contents. -/
theorem eval_repeatable (B : Built topo e ins outs m real tensors L θ₀)
    (hf : ∀ x ∈ dataOf m, ∀ c, e.callOf x = some c → Frozen (tensors (e.callInfo c))) {θ : L.Params}
    {last₁ last₂ : Option ((Nat → Env) × Vals e)} {w₁ w₂ : World} (h₁ : History e ins outs m real tensors L θ₀ θ last₁ w₁)
    (h₂ : History e ins outs m real tensors L θ₀ θ last₂ w₂) {b₁ b₂ : Backend} {env₁ env₂ : Nat → Env} {it₁ it₂ ot₁ ot₂ : List Nat}
    (ha₁ : FwdArgs e m ins outs w₁ b₁ it₁ ot₁) (ha₂ : FwdArgs e m ins outs w₂ b₂ it₂ ot₂)
    (hp₁ : ∀ c, IsPick (env₁ c).pick) (hp₂ : ∀ c, IsPick (env₂ c).pick)
    (hi : ∀ i k₁ k₂ : Nat, it₁[i]? = some k₁ → it₂[i]? = some k₂ → w₁.store[k₁]? = w₂.store[k₂]?) :
    ∃ w₁' w₂', m.forward env₁ it₁ ot₁ w₁ = (.ok (), w₁') ∧ m.forward env₂ it₂ ot₂ w₂ = (.ok (), w₂') ∧
      ∀ i k₁ k₂ : Nat, ot₁[i]? = some k₁ → ot₂[i]? = some k₂ → w₁'.store[k₁]? = w₂'.store[k₂]? :=
  forward_same B h₁ h₂ ha₁ ha₂ hp₁ hp₂ (fun x hx hc => by
    obtain ⟨c, hc⟩ := Option.isSome_iff_exists.1 hc
    exact computes_frozen (B.layers x hx c hc) (hf x hx c hc) _ _) hi

/-- **C77, evaluation.** If no parameter is trainable, the running statistics stay what they were. -/
theorem eval_buffers (B : Built topo e ins outs m real tensors L θ₀)
    (hf : ∀ x ∈ dataOf m, ∀ c, e.callOf x = some c → Frozen (tensors (e.callInfo c))) {θ : L.Params}
    {last : Option ((Nat → Env) × Vals e)} {w : World} (h : History e ins outs m real tensors L θ₀ θ last w) {b : Backend}
    (hb : w.backend = some b) : ∀ x ∈ dataOf m, ∀ c, e.callOf x = some c → ∃ l, layerAt e m b x = some l ∧
      l.buffers = (l.give (tensors (e.callInfo c))).buffers := by
  obtain ⟨R, K, hk, hs⟩ := kit_exists B
  obtain ⟨b', hC, h1, -⟩ := live B hk hs h
  obtain rfl : b' = b := Option.some.inj (hC.backend.symm.trans hb)
  intro x hx c hc
  obtain ⟨l, e1, e2⟩ := h1 x hx (by simp [hc])
  have H := hs.layer x hx c hc
  exact ⟨l, e1, H.still (hf x hx c hc) _ _ _ _ e2 (H.give l (H.sane _ l e2))⟩

/-- The residual block with `BatchNorm2D`, after `forward` with batch statistics: `train(false)`, and then any `forward` is
repeatable and leaves the running statistics. -/
example : ∃ (m : Model) (tensors tensors' : Nat → InfoTensors) (L L' : Layers residE) (θ₀ : L.Params) (θ' : L'.Params)
    (last : (Nat → Env) × Vals residE) (w : World), History residE [0] [3] m (fun _ => 1) tensors L θ₀ θ₀ (some last) w ∧
      Built (creationOrder residE) residE [0] [3] m (fun _ => 1) tensors' L' θ' ∧
      History residE [0] [3] m (fun _ => 1) tensors' L' θ' θ' none (trained false w) ∧
      ∀ x ∈ dataOf m, ∀ c, residE.callOf x = some c → Frozen (tensors' (residE.callInfo c)) := by
  obtain ⟨m, L, θ₀, B, hd, hs⟩ := resid_built
  obtain ⟨pick, hpick⟩ := Props.MaxPoolP.exists_pick
  obtain ⟨v, w, b, it, ot, gt, hv, -, hist, ha⟩ := session B (fun _ => ⟨fun _ => 0, fun _ => 0, pick⟩) (fun _ => hpick)
    (fun _ _ => 1) (fun _ _ => 1)
  obtain ⟨t', L', θ', h1, h2, h3, h4⟩ := train_switches B hist (fun x hx c hc => by
      have : dataOf m = [0, 1, 2, 3] := hd
      rw [this] at hx
      simp only [List.mem_cons, List.not_mem_nil, or_false] at hx
      rw [residE_eq] at hc ⊢
      rcases hx with rfl | rfl | rfl | rfl <;> first | (obtain rfl := Option.some.inj hc) | exact absurd hc (by simp [Expr.callOf])
      · exact trivial
      · refine ⟨zero_le_one, le_rfl, fun b hb => ?_⟩
        obtain rfl : (⟨[1], [1]⟩ : Buf) = b := by simpa [bnTensors, List.lookup] using hb
        simp
      · exact trivial) (fun x hx c hc p hp => by
      have : dataOf m = [0, 1, 2, 3] := hd
      rw [this] at hx
      simp only [List.mem_cons, List.not_mem_nil, or_false] at hx
      rw [residE_eq] at hc hp
      rcases hx with rfl | rfl | rfl | rfl <;> first | (obtain rfl := Option.some.inj hc) | exact absurd hc (by simp [Expr.callOf])
      all_goals exact absurd hp (by simp [infoOf, Expr.callInfo])) false
  exact ⟨m, _, t', L, L', θ₀, θ', _, w, hist, h1, h2, fun x hx c hc => (h4 x hx c hc).2.1⟩

end

end DW.Props.BackendP
