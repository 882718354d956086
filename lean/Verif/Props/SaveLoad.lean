import Verif.Lemmas.SaveLoad
import Verif.Lemmas.Own
import Verif.Props.Serialization
/-!
# Saving and loading a model (C56)

The loading process may be another one: its expression objects `e₂`, its topological sort `topo₂` and the order of its hash
maps (`fresh`) are arbitrary.
-/

set_option autoImplicit false

namespace DW.Props.SaveLoadP

open DW DW.Spec DW.GraphL DW.RenameL DW.RebuildL DW.Props.GraphP DW.Props.SerP

/-- Loading the file written by `save(m)` in a process with objects `e₂` gives the same model with the same state. -/
def RoundTrips (lim : Nat) (e : Expr) (m : Model) (d : Dict) (e₂ : Expr) (topo₂ : Graph → List Node) (fresh : Expr → Model → Dict) : Prop :=
  ∃ m' d' e₃ φ, load lim topo₂ fresh (e₂, ⟨(save m.cfg d []).2, false⟩) = (.ok (m', d'), (e₃, ⟨[], false⟩)) ∧
    SameModel e m e₃ m' φ ∧ ∀ k, d'.lookup k = d.lookup k

/-- The full claim of C56. -/
def ModelRoundTrip : Prop :=
  ∀ (lim : Nat) (e e' : Expr) (topo : Graph → List Node) (ins outs : List Nat) (m : Model) (d : Dict) (e₂ : Expr)
    (topo₂ : Graph → List Node) (fresh : Expr → Model → Dict), lim < 2 ^ 63 →
    Reachable e → SortsCorrectly topo e ins outs → modelCtor topo ins outs e = (.ok m, e') →
    IsStateOf e' m d → OkCfg lim m.cfg → OkDict lim d → Reachable e₂ → SortsRebuilt topo₂ m.cfg e₂ →
    (∀ e m, IsStateOf e m (fresh e m)) → RoundTrips lim e' m d e₂ topo₂ fresh

/-! ### Layers -/

variable {E e₃ : Expr} {m m' : Model} {φ ψ : Nat → Nat}

theorem mkLayer_rename {g : Graph} {c : Nat} (hψ : ∀ d ∈ g.opNodes, ψ d = ψ c → d = c) (h1 : ∀ l ∈ g.inLinks, l.2.1 ∈ g.opNodes)
    (h2 : ∀ l ∈ g.outLinks, l.1 ∈ g.opNodes) : mkLayer e₃ (g.rename φ ψ) (ψ c) =
      ⟨e₃.callInfo (ψ c), (mkLayer E g c).inputs.map φ, (mkLayer E g c).outputs.map φ⟩ := by
  have q1 : (g.rename φ ψ).inLinks.filter (fun l => l.2.1 == ψ c) =
      (g.inLinks.filter fun l => l.2.1 == c).map fun l => (φ l.1, ψ l.2.1, l.2.2) := by
    simp only [Graph.rename, List.filter_map]
    congr 1
    apply List.filter_congr
    intro l hl
    show (ψ l.2.1 == ψ c) = (l.2.1 == c)
    rw [Bool.eq_iff_iff, beq_iff_eq, beq_iff_eq]
    exact ⟨hψ _ (h1 l hl), fun h => by rw [h]⟩
  have q2 : (g.rename φ ψ).outLinks.filter (fun l => l.1 == ψ c) =
      (g.outLinks.filter fun l => l.1 == c).map fun l => (ψ l.1, φ l.2) := by
    simp only [Graph.rename, List.filter_map]
    congr 1
    apply List.filter_congr
    intro l hl
    show (ψ l.1 == ψ c) = (l.1 == c)
    rw [Bool.eq_iff_iff, beq_iff_eq, beq_iff_eq]
    exact ⟨hψ _ (h2 l hl), fun h => by rw [h]⟩
  unfold mkLayer
  rw [q1, q2]
  simp only [List.map_map]
  rfl

/-! ### State -/

theorem lookup_perm {β : Type} {l l' : List (String × β)} (hp : l.Perm l') (hn : (l.map Prod.fst).Nodup) (k : String) :
    l.lookup k = l'.lookup k := by
  have hn' : (l'.map Prod.fst).Nodup := (hp.map Prod.fst).nodup_iff.1 hn
  by_cases hk : k ∈ l.map Prod.fst
  · obtain ⟨p, hpm, rfl⟩ := List.mem_map.1 hk
    rw [lookup_of_mem hn (v := p.2) hpm, lookup_of_mem hn' (v := p.2) (hp.mem_iff.1 hpm)]
  · rw [lookup_none_of_not_mem hk, lookup_none_of_not_mem fun h => hk ((hp.map Prod.fst).mem_iff.2 h)]

theorem lookup_map_snd {α β : Type} (f : α → β) (k : String) : ∀ l : List (String × α),
    (l.map fun p => (p.1, f p.2)).lookup k = (l.lookup k).map f
  | [] => rfl
  | p :: l => by
    rw [List.map_cons, List.lookup_cons, List.lookup_cons]
    cases k == p.1 with
    | true => rfl
    | false => exact lookup_map_snd f k l

/-- Names and shapes of the tensors of a layer. -/
def tensors (inf : InfoImpl) : List (String × Shape) := inf.params.map (fun p => (p.1, p.2.shape)) ++ inf.buffers

theorem stateEntries_shapes {e : Expr} {c : Nat} (hg : GoodInfo (infoOf e (e.callInfo c))) :
    (stateEntries e c).map (fun s => (s.1, tensorShape e s.2)) =
      (tensors (infoOf e (e.callInfo c))).map fun t => (key (infoOf e (e.callInfo c)).name t.1, t.2) := by
  have hnd := List.nodup_append.1 hg.nodup
  unfold stateEntries tensors
  rw [List.map_append, List.map_append, List.map_map, List.map_map, List.map_map]
  congr 1
  · apply List.map_congr_left
    intro p hp
    have := lookup_of_mem (k := p.1) (v := p.2) hnd.1 hp
    simp only [Function.comp, tensorShape, this, opName_eq]
    rfl
  · apply List.map_congr_left
    intro p hp
    have := lookup_of_mem (k := p.1) (v := p.2) hnd.2.1 hp
    simp only [Function.comp, tensorShape, this, opName_eq]
    rfl

theorem stateDict_layout {e : Expr} {bytes : StateRef → List Byte} (hb : ∀ r, (bytes r).length = 4 * (tensorShape e r).prod.toNat) :
    (stateDict e m bytes).map (fun en => (en.1, (en.2.shape, en.2.bytes.length))) =
      (m.state.map fun s => (s.1, tensorShape e s.2)).map fun t => (t.1, (t.2, 4 * t.2.prod.toNat)) := by
  unfold stateDict
  rw [List.map_map, List.map_map]
  apply List.map_congr_left
  intro s _
  simp [hb]

/-! ### The round trip -/

theorem out_lt {e e' : Expr} {topo : Graph → List Node} {ins outs : List Nat} (hr : Reachable e)
    (h : modelCtor topo ins outs e = (.ok m, e')) : ∀ x ∈ outs, x < e.phs.length := by
  obtain ⟨g, hg, -⟩ := ctor_maps hr h
  obtain ⟨-, -, -, -, -, -, -, -, hall⟩ := build_ok hg
  have wf := reachable_wf hr
  intro x hx
  obtain ⟨c, ⟨y, hy, -⟩, hc | hc⟩ := (takesPart_of_ok wf hg x).1 (hall x (List.mem_append_right _ hx))
  · exact callOf_lt hc
  · exact Nat.lt_trans (wf.arg_lt y c hy x hc) (callOf_lt hy)

/-- What `load` of the file written by `save` gives, with the numbers of the placeholders and layer applications of the loaded
model. -/
theorem load_rebuilt {lim : Nat} {e e' : Expr} {topo : Graph → List Node} {ins outs : List Nat} {d : Dict} {e₂ : Expr}
    {topo₂ : Graph → List Node} {fresh : Expr → Model → Dict} (hl : lim < 2 ^ 63)
    (hr : Reachable e) (ht : SortsCorrectly topo e ins outs) (h : modelCtor topo ins outs e = (.ok m, e'))
    (hd : IsStateOf e' m d) (hc : OkCfg lim m.cfg) (hok : OkDict lim d)
    (hr₂ : Reachable e₂) (ht₂ : SortsRebuilt topo₂ m.cfg e₂) (hf : ∀ e m, IsStateOf e m (fresh e m))
    (hsrc : ∀ x, TakesPart e outs x → (e.callOf x = none ↔ x ∈ ins)) (hdisj : ∀ x ∈ ins, x ∉ outs)
    (hii : (ins.map (dataId m.sorted)).Pairwise (· < ·)) (hoo : (outs.map (dataId m.sorted)).Pairwise (· < ·))
    (hown : OwnTensors e' outs) :
    ∃ m' d' e₃ φ ψ, load lim topo₂ fresh (e₂, ⟨(save m.cfg d []).2, false⟩) = (.ok (m', d'), (e₃, ⟨[], false⟩)) ∧
      SameModel e' m e₃ m' φ ∧ (∀ k, d'.lookup k = d.lookup k) ∧ Rebuilt e' m e₃ m' φ ψ := by
  have hr' : Reachable e' := by
    have := Reachable.model topo ins outs hr
    rwa [h] at this
  have ho := out_lt hr h
  obtain ⟨m', e₃, φ, ψ, hb, R⟩ := rebuild hr ht h ho hsrc hdisj hii hoo hr₂ ht₂
  obtain ⟨g, hg, hmg, hs, he, hn, hlay, -, -, hst, hcfg⟩ := ctor_maps hr h
  have htopo := ht g hg
  rw [← hs] at htopo
  have hg' : buildGraph e' ins outs = .ok g := by rw [he]; exact build_nameOps (reachable_wf hr) hg ho
  obtain ⟨topo₃, -, hct⟩ := R.ctor
  obtain ⟨g₃, hg₃, hmg₃, hs₃, -, -, hlay₃, -, -, hst₃, -⟩ := ctor_maps R.reach hct
  subst hmg
  obtain ⟨-, -, -, -, -, -, hgi, hgo, -⟩ := build_ok hg
  have hneed : ∀ c, c ∈ sortedOps m.sorted ↔ NeededCall e' outs c := fun c => by
    rw [mem_sortedOps, htopo.op, mem_opNodes hg']
  have hψ : ∀ c ∈ m.graph.opNodes, ∀ d ∈ m.graph.opNodes, ψ d = ψ c → d = c := by
    intro c hc d hd hcd
    obtain ⟨x, hx, hxn⟩ := (mem_opNodes hg' c).1 hc
    obtain ⟨y, hy, hyn⟩ := (mem_opNodes hg' d).1 hd
    exact R.iso.inj_call (reachable_wf R.reach) ((mem_dataNodes hg' y).2 ⟨hyn, .inl (by rw [hy]; rfl)⟩)
      ((mem_dataNodes hg' x).2 ⟨hxn, .inl (by rw [hx]; rfl)⟩) hy hx hcd
  have hinl : ∀ l ∈ m.graph.inLinks, l.2.1 ∈ m.graph.opNodes := fun l hl =>
    (mem_opNodes hg' _).2 ((mem_inLinks hg' l.1 l.2.1 l.2.2).1 hl).1
  have houtl : ∀ l ∈ m.graph.outLinks, l.1 ∈ m.graph.opNodes := fun l hl =>
    (mem_opNodes hg' _).2 ⟨l.2, (mem_outLinks hg' l.1 l.2).1 hl⟩
  have hsame : SameModel e' m e₃ m' φ := by
    refine ⟨fun x hx y hy => R.iso.inj x y hx hy, R.shape, by rw [R.graph]; rfl, by rw [R.graph]; rfl, ?_⟩
    rw [hlay₃, hlay, List.map_map, List.map_map]
    refine (R.ops.map _).trans ?_
    rw [List.map_map]
    apply List.Perm.of_eq
    apply List.map_congr_left
    intro c hc
    obtain ⟨ps, bs, -, hi⟩ := R.info c hc
    have hco := (htopo.op c).1 (mem_sortedOps.1 hc)
    rw [← hmg₃, R.graph]
    simp only [Function.comp]
    rw [mkLayer_rename (E := e') (hψ c hco) hinl houtl]
    simp only [viewLayer, hi, LayerView.rename]
    rfl
  have hlayout : ((m'.state.map fun s => (s.1, tensorShape e₃ s.2))).Perm (m.state.map fun s => (s.1, tensorShape e' s.2)) := by
    rw [hst₃, hst, List.map_flatMap, List.map_flatMap]
    refine (R.ops.flatMap_right _).trans ?_
    rw [List.flatMap_map]
    apply List.Perm.of_eq
    rw [List.flatMap_def, List.flatMap_def]
    congr 1
    apply List.map_congr_left
    intro c hc
    rw [stateEntries_shapes (goodInfo_of_named (reachable_named R.reach)), stateEntries_shapes (goodInfo_of_named (reachable_named hr'))]
    obtain ⟨ps, bs, h1, hi⟩ := R.info c hc
    obtain ⟨h2, h3⟩ := hown c ((hneed c).1 hc) ps bs h1
    rw [hi]
    unfold tensors freshInfo
    rw [h2, h3, List.map_map]
    simp [Function.comp_def]
  obtain ⟨b, hbl, hperm⟩ := hd
  obtain ⟨b₃, hbl₃, hperm₃⟩ := hf e₃ m'
  have hkeys₃ : ((fresh e₃ m').map Prod.fst).Nodup := by
    refine (hperm₃.map Prod.fst).nodup_iff.2 ?_
    have := (keys_distinct R.reach hct).2
    unfold stateDict
    rw [List.map_map]
    exact this
  have hsl : SameLayout d (fresh e₃ m') := by
    intro k
    rw [← lookup_map_snd, ← lookup_map_snd]
    apply lookup_perm
    · refine (hperm.map _).trans (List.Perm.trans ?_ (hperm₃.map _).symm)
      rw [stateDict_layout hbl, stateDict_layout hbl₃]
      exact (hlayout.map _).symm
    · rw [List.map_map]
      exact hok.nodup
  obtain ⟨d', s, l1, l2, l3⟩ := config_then_state hl hc hok hkeys₃ hsl
  refine ⟨m', d', e₃, φ, ψ, ?_, hsame, l3, R⟩
  have hsave : (save m.cfg d []).2 = (saveState d (saveCfg m.cfg []).2).2 := by
    unfold save
    rw [M.bind_ok (save_cfg_format (fun o ho a ha => ((hc.op o ho).attr a ha).2) []), save_cfg_format (fun o ho a ha => ((hc.op o ho).attr a ha).2)]
  unfold load
  simp only [hsave, l1, hb, l2]

/-- **C56 (proved part).** Every model whose inputs are exactly the source placeholders of its network, whose inputs and outputs
were listed in the order of their ids, and whose layers have the tensors their applications ask for, is restored: `load` of the
file written by `save` succeeds and consumes the whole file; the loaded model has the same layers with the same names, types,
attributes and wiring, the same inputs and outputs in the same order, and every tensor of its state has the saved contents.
Missing: other models, for which the code does not restore the model (`model_round_trip_refuted`, `unlisted_source_fails`,
`stale_tensors_fail`). -/
theorem model_round_trip_partial {lim : Nat} {e e' : Expr} {topo : Graph → List Node} {ins outs : List Nat} {d : Dict} {e₂ : Expr}
    {topo₂ : Graph → List Node} {fresh : Expr → Model → Dict} (hl : lim < 2 ^ 63)
    (hr : Reachable e) (ht : SortsCorrectly topo e ins outs) (h : modelCtor topo ins outs e = (.ok m, e'))
    (hd : IsStateOf e' m d) (hc : OkCfg lim m.cfg) (hok : OkDict lim d)
    (hr₂ : Reachable e₂) (ht₂ : SortsRebuilt topo₂ m.cfg e₂) (hf : ∀ e m, IsStateOf e m (fresh e m))
    (hsrc : ∀ x, TakesPart e outs x → (e.callOf x = none ↔ x ∈ ins)) (hdisj : ∀ x ∈ ins, x ∉ outs)
    (hii : (ins.map (dataId m.sorted)).Pairwise (· < ·)) (hoo : (outs.map (dataId m.sorted)).Pairwise (· < ·))
    (hown : OwnTensors e' outs) : RoundTrips lim e' m d e₂ topo₂ fresh := by
  obtain ⟨m', d', e₃, φ, ψ, h1, h2, h3, -⟩ := load_rebuilt hl hr ht h hd hc hok hr₂ ht₂ hf hsrc hdisj hii hoo hown
  exact ⟨m', d', e₃, φ, h1, h2, h3⟩


/-- Layers applied where they are created, as in `Linear(10)(x)`, always have the tensors their applications ask for. -/
theorem own_tensors_of_direct {e : Expr} (h : Direct e) (outs : List Nat) : OwnTensors e outs := direct_own h outs

/-! ### Concrete models -/

instance (s : String) : Decidable (IsStr s) := by unfold IsStr; infer_instance
instance (v : Int) : Decidable (IsInt v) := by unfold IsInt; infer_instance
instance (lim : Nat) (s : String) : Decidable (OkStr lim s) := by unfold OkStr; infer_instance
instance (lim : Nat) (l : List Int) : Decidable (OkInts lim l) := by unfold OkInts; infer_instance
instance (a : AttrVal) : Decidable (OkAttr a) := by cases a <;> unfold OkAttr <;> infer_instance

theorem okDict_iff (lim : Nat) (d : Dict) : OkDict lim d ↔ (d.map Prod.fst).Nodup ∧ (∀ en ∈ d, OkStr lim en.1) ∧
    (∀ en ∈ d, OkInts lim en.2.shape) ∧ (∀ en ∈ d, en.2.bytes.length < 2 ^ 63) ∧ d.length < 2 ^ 31 :=
  ⟨fun h => ⟨h.1, h.2, h.3, h.4, h.5⟩, fun h => ⟨h.1, h.2.1, h.2.2.1, h.2.2.2.1, h.2.2.2.2⟩⟩

theorem okOp_iff (lim : Nat) (o : OpInfo) : OkOp lim o ↔ OkStr lim o.name ∧ OkStr lim o.type ∧ OkInts lim o.inIds ∧ OkInts lim o.outIds ∧
    (o.attrs.map Prod.fst).Nodup ∧ (∀ a ∈ o.attrs, OkStr lim a.1 ∧ OkAttr a.2) ∧ o.attrs.length < 2 ^ 31 :=
  ⟨fun h => ⟨h.1, h.2, h.3, h.4, h.5, h.6, h.7⟩, fun h => ⟨h.1, h.2.1, h.2.2.1, h.2.2.2.1, h.2.2.2.2.1, h.2.2.2.2.2.1, h.2.2.2.2.2.2⟩⟩

instance (lim : Nat) (d : Dict) : Decidable (OkDict lim d) := decidable_of_iff _ (okDict_iff lim d).symm
instance (lim : Nat) (o : OpInfo) : Decidable (OkOp lim o) := decidable_of_iff _ (okOp_iff lim o).symm

theorem okCfg_iff (lim : Nat) (c : Config) : OkCfg lim c ↔ OkInts lim c.inputIds ∧ OkInts lim c.outputIds ∧ (c.phMap.map Prod.fst).Nodup ∧
    (∀ p ∈ c.phMap, IsInt p.1 ∧ OkInts lim p.2.1 ∧ p.2.2 = p.1) ∧ c.phMap.length < 2 ^ 31 ∧ (∀ o ∈ c.sortedOps, OkOp lim o) ∧
    c.sortedOps.length < 2 ^ 31 :=
  ⟨fun h => ⟨h.1, h.2, h.3, h.4, h.5, h.6, h.7⟩, fun h => ⟨h.1, h.2.1, h.2.2.1, h.2.2.2.1, h.2.2.2.2.1, h.2.2.2.2.2.1, h.2.2.2.2.2.2⟩⟩

instance (lim : Nat) (c : Config) : Decidable (OkCfg lim c) := decidable_of_iff _ (okCfg_iff lim c).symm

/-- Tensor contents: every byte is 7. -/
def sevens (e : Expr) (r : StateRef) : List Byte := List.replicate (4 * (tensorShape e r).prod.toNat) 7
/-- Tensor contents of new tensors: every byte is 0. -/
def zeros (e : Expr) (r : StateRef) : List Byte := List.replicate (4 * (tensorShape e r).prod.toNat) 0

/-- A state dict of a new model, in reverse order. -/
def newState (e : Expr) (m : Model) : Dict := (stateDict e m (zeros e)).reverse

theorem newState_ok (e : Expr) (m : Model) : IsStateOf e m (newState e m) :=
  ⟨zeros e, fun r => by simp [zeros], List.reverse_perm _⟩

/-- The model constructed for `ins` and `outs` in state `e`, with the state after construction. -/
def built (e : Expr) (ins outs : List Nat) : Model × Expr :=
  match modelCtor (creationOrder e) ins outs e with
  | (.ok m, e') => (m, e')
  | (_, e') => (⟨⟨[], [], [], [], [], []⟩, [], [], [], [], [], ⟨[], [], [], []⟩⟩, e')

/-- The placeholders `Build` creates from the config of that model in a new process. -/
def rebuiltE (e : Expr) (ins outs : List Nat) : Expr := (buildPlaceholders (built e ins outs).1.cfg {}).2

theorem chain_direct : Direct chainE := by
  have : chainE = (Expr.makeLayer "Softmax" "" [] [2] (Expr.makeLayer "Linear" "fc" [("units", .int 3)] [1]
      (Expr.makeLayer "ReLU" "" [] [0] (Expr.placeholder [4, 2] {}).2).2).2).2 := by decide +kernel
  rw [this]
  exact .makeLayer _ _ _ _ (.makeLayer _ _ _ _ (.makeLayer _ _ _ _ (.placeholder _ .empty)))

theorem chain_built (outs : List Nat) (h : (modelCtor (creationOrder chainE) [0] outs chainE).1.isOk = true) :
    modelCtor (creationOrder chainE) [0] outs chainE = (.ok (built chainE [0] outs).1, (built chainE [0] outs).2) := by
  unfold built
  rcases hm : modelCtor (creationOrder chainE) [0] outs chainE with ⟨o, e'⟩
  rw [hm] at h
  cases o with
  | ok m => rfl
  | throw x => simp [Out.isOk] at h
  | ub x => simp [Out.isOk] at h

theorem sorts_rebuilt {cfg : Config} {e₂ : Expr} (hr : Reachable e₂) {ins outs : List Nat} {e₃ : Expr}
    (h : buildPlaceholders cfg e₂ = (.ok (ins, outs), e₃)) (ho : ∀ x ∈ outs, x < e₃.phs.length) : SortsRebuilt (creationOrder e₃) cfg e₂ := by
  intro io e' hio
  rw [h] at hio
  simp only [Prod.mk.injEq, Out.ok.injEq] at hio
  obtain ⟨rfl, rfl⟩ := hio
  have : Reachable e₃ := by
    unfold buildPlaceholders at h
    simp only [M.bind_apply, M.lift_apply] at h
    have h1 := reachable_buildInputs cfg cfg.inputIds [] e₂ hr
    rcases hb : buildInputs cfg cfg.inputIds [] e₂ with ⟨o, e4⟩
    rw [hb] at h h1
    cases o with
    | throw x => simp at h
    | ub x => simp at h
    | ok t =>
      simp only at h
      have h2 := reachable_buildOps cfg.sortedOps t e4 h1
      rcases hb : buildOps cfg.sortedOps t e4 with ⟨o, e5⟩
      rw [hb] at h h2
      cases o with
      | throw x => simp at h
      | ub x => simp at h
      | ok t =>
        simp only at h
        cases h3 : cfg.inputIds.mapM fun id => Out.at? (t.lookup id) with
        | throw x => simp [h3] at h
        | ub x => simp [h3] at h
        | ok i =>
          cases h4 : cfg.outputIds.mapM fun id => Out.at? (t.lookup id) with
          | throw x => simp [h3, h4] at h
          | ub x => simp [h3, h4] at h
          | ok i' =>
            simp only [h3, h4, M.pure_apply, Prod.mk.injEq] at h
            rw [← h.2]
            exact h2
  exact topological_order_exists this ho

/-- A chain of three layers with 7s in its tensors, saved and loaded by a new process. -/
example : RoundTrips 1000 (built chainE [0] [3]).2 (built chainE [0] [3]).1
    (stateDict (built chainE [0] [3]).2 (built chainE [0] [3]).1 (sevens (built chainE [0] [3]).2)) {}
    (creationOrder (rebuiltE chainE [0] [3])) newState := by
  refine model_round_trip_partial (by decide) chain_reachable
    (topological_order_exists chain_reachable (by decide +kernel)) (chain_built [3] (by decide +kernel))
    ⟨_, fun r => by simp [sevens], .refl _⟩ (by decide +kernel) (by decide +kernel) .empty
    (sorts_rebuilt .empty (ins := [0]) (outs := [3]) (by decide +kernel) (by decide +kernel)) newState_ok ?_ (by simp) (by decide +kernel) (by decide +kernel)
    (own_tensors_of_direct (by
      have := Direct.model (creationOrder chainE) [0] [3] chain_direct
      rwa [chain_built [3] (by decide +kernel)] at this) _)
  rintro x ⟨c, -, hx⟩
  have hlt : x < 4 := by
    rcases hx with hx | hx
    · exact callOf_lt hx
    · by_cases hc : c < 3
      · have : ∀ c < 3, ∀ a ∈ chainE.callArgs c, a < 4 := by decide +kernel
        exact this c hc x hx
      · have : chainE.calls.length = 3 := by decide +kernel
        simp [Expr.callArgs, List.getElem?_eq_none (show chainE.calls.length ≤ c by omega)] at hx
  have : ∀ x < 4, (chainE.callOf x = none ↔ x ∈ [0]) := by decide +kernel
  exact this x hlt

/-- **C56 is violated by the code**: a model with the outputs `{out, hidden}` is restored with the outputs `{hidden, out}`. -/
theorem model_round_trip_refuted : ¬ ModelRoundTrip := by
  intro hall
  have hb := chain_built [3, 1] (by decide +kernel)
  obtain ⟨m', d', e₃, φ, h1, h2, -⟩ := hall 1000 chainE _ (creationOrder chainE) [0] [3, 1] _
    (stateDict (built chainE [0] [3, 1]).2 (built chainE [0] [3, 1]).1 (sevens (built chainE [0] [3, 1]).2)) {}
    (creationOrder (rebuiltE chainE [0] [3, 1])) newState (by decide) chain_reachable
    (topological_order_exists chain_reachable (by decide +kernel)) hb
    ⟨_, fun r => by simp [sevens], .refl _⟩ (by decide +kernel) (by decide +kernel) .empty
    (sorts_rebuilt .empty (ins := [0]) (outs := [1, 3]) (by decide +kernel) (by decide +kernel)) newState_ok
  have hs := h2.shape 3 (by decide +kernel)
  have ho := h2.outs
  have hgo : (built chainE [0] [3, 1]).1.graph.outs = [3, 1] := by decide +kernel
  rw [hgo, List.map_cons] at ho
  have hsh : phShape (built chainE [0] [3, 1]).2 3 = [4, 3] := by decide +kernel
  have hload : (match load 1000 (creationOrder (rebuiltE chainE [0] [3, 1])) newState ({}, ⟨(save (built chainE [0] [3, 1]).1.cfg
      (stateDict (built chainE [0] [3, 1]).2 (built chainE [0] [3, 1]).1 (sevens (built chainE [0] [3, 1]).2)) []).2, false⟩) with
    | (.ok (m, _), (e, _)) => m.graph.outs.map (phShape e)
    | _ => []) = [[4, 2], [4, 3]] := by decide +kernel
  rw [h1] at hload
  simp only [ho, List.map_cons, List.cons.injEq] at hload
  rw [hs, hsh] at hload
  exact absurd hload.1 (by decide)

/-- What `load` makes of the saved model. -/
def reload (e : Expr) (ins outs : List Nat) : Out (Model × Dict) :=
  (load 1000 (creationOrder (rebuiltE e ins outs)) newState ({}, ⟨(save (built e ins outs).1.cfg
    (stateDict (built e ins outs).2 (built e ins outs).1 (sevens (built e ins outs).2)) []).2, false⟩)).1

/-- `y = Add(x, z)` for two placeholders `x`, `z`. -/
def twoSources : Expr := (do
  let x ← Expr.placeholder [4, 2]
  let z ← Expr.placeholder [4, 2]
  Expr.makeLayer "Add" "" [] [x, z] : M Expr Nat) {} |>.2

/-- **C56 is violated by the code**: a model that does not list all its sources as inputs can be constructed and saved, but
loading it throws `std::out_of_range`. -/
theorem unlisted_source_fails : (modelCtor (creationOrder twoSources) [0] [2] twoSources).1.isOk = true ∧
    reload twoSources [0] [2] = .throw .outOfRange := by decide +kernel

/-- `fc = Linear(3, "fc"); fc(a); y = fc(b)` with `a` of 2 and `b` of 5 features. -/
def reused : Expr := (do
  let a ← Expr.placeholder [4, 2]
  let b ← Expr.placeholder [4, 5]
  let fc ← Expr.layer (.linear 3) "fc"
  let _ ← Expr.apply fc [a]
  Expr.apply fc [b] : M Expr Nat) {} |>.2

/-- **C56 is violated by the code**: a layer object applied before with another number of features keeps its first tensors; the
model is constructed and saved, but loading it throws, because the rebuilt layer has tensors of other shapes. -/
theorem stale_tensors_fail : (modelCtor (creationOrder reused) [1] [3] reused).1.isOk = true ∧
    reload reused [1] [3] = .throw .dw := by decide +kernel

end DW.Props.SaveLoadP
