import Verif.Lemmas.GraphMore
/-!
# Properties C11–C18, C68, C70, C71: building a model

`e` is any state of expression objects reachable with the API, `topo` any topological sort. The
applications behind the layers of a model `m`, in order, are `sortedOps m.sorted`.
-/

set_option autoImplicit false

namespace DW.Props.GraphP

open DW DW.Spec DW.GraphL

variable {e e' : Expr} {topo : Graph → List Node} {ins outs : List Nat} {m : Model}

/-! ## Concrete expressions used as non-vacuity witnesses

`x → ReLU → Linear(3) → Softmax`, and a residual block. -/

/-- `in[4,2]; r = ReLU(in); l = Linear(3)(r); s = Softmax(l)`: placeholders 0,1,2,3. -/
def chain : M Expr Nat := do
  let x ← Expr.placeholder [4, 2]
  let r ← Expr.makeLayer "ReLU" "" [] [x]
  let l ← Expr.makeLayer "Linear" "fc" [("units", .int 3)] [r]
  Expr.makeLayer "Softmax" "" [] [l]

/-- `a = ReLU(x); b = Sigmoid(a); y = Add(a, b)`: a residual block, shortcut first. -/
def shortcutFirst : M Expr Nat := do
  let x ← Expr.placeholder [4, 2]
  let a ← Expr.makeLayer "ReLU" "" [] [x]
  let b ← Expr.makeLayer "Sigmoid" "" [] [a]
  Expr.makeLayer "Add" "" [] [a, b]

/-- The same with the shortcut second: `y = Add(b, a)`. -/
def shortcutLast : M Expr Nat := do
  let x ← Expr.placeholder [4, 2]
  let a ← Expr.makeLayer "ReLU" "" [] [x]
  let b ← Expr.makeLayer "Sigmoid" "" [] [a]
  Expr.makeLayer "Add" "" [] [b, a]

def chainE : Expr := (chain {}).2
def firstE : Expr := (shortcutFirst {}).2
def lastE : Expr := (shortcutLast {}).2

/-- An observation on the result of a construction, `none` if it did not succeed. -/
def observe {α : Type} (r : Out Model × Expr) (f : Model → α) : Option α :=
  match r.1 with
  | .ok m => some (f m)
  | _ => none

theorem reachable_bind {α β : Type} {x : M Expr α} {f : α → M Expr β} {s : Expr}
    (hx : Reachable (x s).2) (hf : ∀ a s', (x s) = (.ok a, s') → Reachable s' → Reachable (f a s').2) :
    Reachable ((x >>= f) s).2 := by
  rw [M.bind_apply]
  rcases h : x s with ⟨o, s'⟩
  rw [h] at hx
  cases o with
  | ok a => exact hf a s' h hx
  | throw _ => exact hx
  | ub _ => exact hx

theorem chain_reachable : Reachable chainE :=
  reachable_bind (.placeholder _ .empty) fun _ _ _ h => reachable_bind (.makeLayer _ _ _ _ h)
    fun _ _ _ h => reachable_bind (.makeLayer _ _ _ _ h) fun _ _ _ h => .makeLayer _ _ _ _ h

theorem first_reachable : Reachable firstE :=
  reachable_bind (.placeholder _ .empty) fun _ _ _ h => reachable_bind (.makeLayer _ _ _ _ h)
    fun _ _ _ h => reachable_bind (.makeLayer _ _ _ _ h) fun _ _ _ h => .makeLayer _ _ _ _ h

theorem last_reachable : Reachable lastE :=
  reachable_bind (.placeholder _ .empty) fun _ _ _ h => reachable_bind (.makeLayer _ _ _ _ h)
    fun _ _ _ h => reachable_bind (.makeLayer _ _ _ _ h) fun _ _ _ h => .makeLayer _ _ _ _ h

/-! ## C11 -/

/-- **C11.** A constructed model has exactly one layer for each application some output depends
on: `sortedOps m.sorted` lists these applications without repetition, and the k-th layer is the
layer object of the k-th application. -/
theorem model_layers_exact (hr : Reachable e) (ht : SortsCorrectly topo e ins outs)
    (h : modelCtor topo ins outs e = (.ok m, e')) :
    (sortedOps m.sorted).Nodup ∧ (∀ c, c ∈ sortedOps m.sorted ↔ NeededCall e outs c) ∧
    m.layers.map Layer.info = (sortedOps m.sorted).map e.callInfo ∧
    m.cfg.sortedOps.length = m.layers.length := by
  obtain ⟨g, hg, hmg, hs, he, hn, hl, -, -, -, hcfg⟩ := ctor_maps hr h
  have htopo := ht g hg
  rw [← hs] at htopo
  refine ⟨nodup_sortedOps htopo.nodup, fun c => ?_, ?_, ?_⟩
  · rw [mem_sortedOps, htopo.op, mem_opNodes hg]
  · rw [hl, List.map_map]
    apply List.map_congr_left
    intro c _
    show e'.callInfo c = e.callInfo c
    rw [he]; exact callInfo_nameOps e _ c
  · rw [hcfg, hl]; simp [createConfig]

/-- **C11, termination and totality.** If every listed input and output is part of the network,
construction terminates and either succeeds or throws an exception. -/
theorem model_total (hr : Reachable e) (ho : ∀ x ∈ outs, x < e.phs.length)
    (hp : ∀ x ∈ ins ++ outs, TakesPart e outs x) :
    (∃ m e', modelCtor topo ins outs e = (.ok m, e')) ∨
    (∃ e', modelCtor topo ins outs e = (.throw .dw, e')) := by
  obtain ⟨g, hg⟩ := build_ok_of (reachable_wf hr) ho hp
  rw [ctor_of_build hg]
  simp only
  split
  · exact .inl ⟨_, _, rfl⟩
  · exact .inr ⟨_, rfl⟩

/-- The traversal itself terminates for every valid list of outputs. -/
theorem unroll_terminates (hr : Reachable e) (ho : ∀ x ∈ outs, x < e.phs.length) :
    ∃ u, unroll e outs = some u := unroll_some (reachable_wf hr) ho

/-- A topological order always exists, so `SortsCorrectly` can be met for every model. -/
theorem topological_order_exists (hr : Reachable e) (ho : ∀ x ∈ outs, x < e.phs.length) :
    SortsCorrectly (creationOrder e) e ins outs :=
  fun _ hg => creationOrder_isTopo (reachable_wf hr) ho hg

/-- The three layers of `chain` in order, and a dead branch is left out. -/
example : (observe (modelCtor (creationOrder chainE) [0] [3] chainE) fun m =>
      (sortedOps m.sorted, m.layers.map Layer.info)) = some ([0, 1, 2], [0, 1, 2]) ∧
    (observe (modelCtor (creationOrder chainE) [0] [2] chainE) fun m =>
      (sortedOps m.sorted, m.layers.map Layer.info)) = some ([0, 1], [0, 1]) := by
  decide +kernel

/-! ## C12 -/

/-- **C12.** Every layer comes after the layers whose outputs it consumes, in `layers()` and in
`cfg().sorted_ops` (both follow `sortedOps m.sorted`). -/
theorem layers_in_dependency_order (hr : Reachable e) (ht : SortsCorrectly topo e ins outs)
    (h : modelCtor topo ins outs e = (.ok m, e')) {c d x : Nat}
    (hc : c ∈ sortedOps m.sorted) (hx : x ∈ e.callArgs c) (hd : e.callOf x = some d) :
    d ∈ sortedOps m.sorted ∧ (sortedOps m.sorted).idxOf d < (sortedOps m.sorted).idxOf c := by
  obtain ⟨g, hg, hmg, hs, he, hn, hl, -, -, -, hcfg⟩ := ctor_maps hr h
  have htopo := ht g hg
  rw [← hs] at htopo
  have hcn := (mem_opNodes hg c).1 ((htopo.op c).1 (mem_sortedOps.1 hc))
  obtain ⟨y, hy, hyn⟩ := hcn
  have hxy : x ∈ e.argsOf y := mem_argsOf.2 ⟨c, hy, hx⟩
  have hxn := needed_arg hyn hxy
  have hdn : .op d ∈ m.sorted := (htopo.op d).2 ((mem_opNodes hg d).2 ⟨x, hd, hxn⟩)
  refine ⟨mem_sortedOps.2 hdn, opPos_lt_of (mem_sortedOps.1 hc) ?_⟩
  obtain ⟨p, hp, hxp⟩ := List.getElem_of_mem hx
  have h1 := htopo.inOrder (x, c, p) ((mem_inLinks hg x c p).2 ⟨⟨y, hy, hyn⟩, by
    rw [← hxp]; exact List.getElem?_eq_getElem hp⟩)
  have h2 := htopo.outOrder (d, x) ((mem_outLinks hg d x).2 ⟨hd, hxn⟩)
  simp only at h1 h2
  omega

/-- **C12, data ids.** The ids of the placeholders are 0..n-1 without gaps or repeats, every
placeholder taking part has one, and the result of an application has a larger id than its
arguments. -/
theorem data_ids (hr : Reachable e) (ht : SortsCorrectly topo e ins outs)
    (h : modelCtor topo ins outs e = (.ok m, e')) :
    m.cfg.phMap.map Prod.fst = (List.range m.cfg.phMap.length).map (fun n : Nat => (n : Int)) ∧
    (∀ p ∈ m.cfg.phMap, p.2.2 = p.1) ∧
    (∀ x, TakesPart e outs x →
      m.cfg.phMap[dataId m.sorted x]? = some ((dataId m.sorted x : Int), phShape e x, (dataId m.sorted x : Int))) ∧
    (∀ x y, TakesPart e outs x → TakesPart e outs y → dataId m.sorted x = dataId m.sorted y → x = y) ∧
    (∀ x c a, NeededBy e outs x → e.callOf x = some c → a ∈ e.callArgs c →
      dataId m.sorted a < dataId m.sorted x) := by
  obtain ⟨g, hg, hmg, hs, he, hn, hl, -, -, -, hcfg⟩ := ctor_maps hr h
  have htopo := ht g hg
  rw [← hs] at htopo
  have wf := reachable_wf hr
  have hnd := nodup_sortedData htopo.nodup
  have hmem : ∀ x, TakesPart e outs x → x ∈ sortedData m.sorted := fun x hx =>
    mem_sortedData.2 ((htopo.data x).2 ((takesPart_of_ok wf hg x).2 hx))
  have hphs : ∀ x, phShape e' x = phShape e x := fun x => by
    rw [he]; simp [phShape, (nameOps_frame e (sortedOps m.sorted)).1]
  refine ⟨?_, ?_, ?_, ?_, ?_⟩
  · have h1 := map_idxOf hnd
    rw [hcfg]
    simp only [createConfig, List.map_map, List.length_map]
    rw [← h1, List.map_map]
    rfl
  · rw [hcfg]
    intro p hp
    simp only [createConfig, List.mem_map] at hp
    obtain ⟨x, -, rfl⟩ := hp
    rfl
  · intro x hx
    rw [hcfg]
    simp only [createConfig, List.getElem?_map]
    have hi : (sortedData m.sorted)[dataId m.sorted x]? = some x := by
      unfold dataId
      rw [List.getElem?_eq_getElem (List.idxOf_lt_length_iff.2 (hmem x hx)), List.getElem_idxOf]
    rw [hi]
    simp [hphs]
  · intro x y hx hy hxy
    exact dataId_inj (mem_sortedData.1 (hmem x hx)) hxy
  · intro x c a hx hc ha
    have hxm : .data x ∈ m.sorted := (htopo.data x).2 ((takesPart_of_ok wf hg x).2
      ⟨c, ⟨x, hc, hx⟩, .inl hc⟩)
    apply dataId_lt_of hxm
    obtain ⟨p, hp, hap⟩ := List.getElem_of_mem ha
    have h1 := htopo.inOrder (a, c, p) ((mem_inLinks hg a c p).2 ⟨⟨x, hc, hx⟩, by
      rw [← hap]; exact List.getElem?_eq_getElem hp⟩)
    have h2 := htopo.outOrder (c, x) ((mem_outLinks hg c x).2 ⟨hc, hx⟩)
    simp only at h1 h2
    omega

/-! ## C13 -/

/-- The wiring claimed by C13 for every layer of a constructed model. -/
def Wired (e : Expr) (m : DW.Model) : Prop :=
  ∀ k c : Nat, (sortedOps m.sorted)[k]? = some c → ∃ x, e.callOf x = some c ∧
    m.layers[k]? = some ⟨e.callInfo c, e.callArgs c, [x]⟩ ∧
    ∃ o, m.cfg.sortedOps[k]? = some o ∧
      o.inIds = (e.callArgs c).map (fun a => (dataId m.sorted a : Int)) ∧
      o.outIds = [(dataId m.sorted x : Int)]

/-- How the code wires a layer in general: the argument list is repeated once for each time the
traversal visited the application, and the surplus ids are 0. -/
theorem wiring_exact (hr : Reachable e) (ht : SortsCorrectly topo e ins outs)
    (h : modelCtor topo ins outs e = (.ok m, e')) {k c : Nat}
    (hk : (sortedOps m.sorted)[k]? = some c) : ∃ x, e.callOf x = some c ∧
    m.layers[k]? = some ⟨e.callInfo c, (List.replicate (visits e outs c) (e.callArgs c)).flatten,
      List.replicate (visits e outs c) x⟩ ∧
    ∃ o, m.cfg.sortedOps[k]? = some o ∧
      o.inIds = (e.callArgs c).map (fun a => (dataId m.sorted a : Int)) ++
        List.replicate ((visits e outs c - 1) * (e.callArgs c).length) 0 ∧
      o.outIds = (dataId m.sorted x : Int) :: List.replicate (visits e outs c - 1) 0 := by
  obtain ⟨g, hg, hmg, hs, he, hn, hl, -, -, -, hcfg⟩ := ctor_maps hr h
  have htopo := ht g hg
  rw [← hs] at htopo
  have wf := reachable_wf hr
  have hc := (mem_opNodes hg c).1 ((htopo.op c).1 (mem_sortedOps.1 (List.mem_of_getElem? hk)))
  obtain ⟨x, hx, hxn⟩ := hc
  refine ⟨x, hx, ?_, ?_⟩
  · rw [hl, List.getElem?_map, hk, Option.map_some, mkLayer_eq wf hg e' hx]
    congr 2
    rw [he]; exact callInfo_nameOps e _ c
  · rw [hcfg]
    simp only [createConfig, List.getElem?_map, hk, Option.map_some, Option.some.injEq]
    refine ⟨_, rfl, ?_, ?_⟩
    · simp only
      rw [inIds_eq hg m.sorted ⟨x, hx, hxn⟩]
      simp
    · simp only
      rw [outIds_eq wf hg m.sorted hx hxn]
      simp

/-- **C13 (proved part).** If no argument list and no output list contains a produced placeholder
before another entry that equals it or is computed from it, every layer is wired to exactly its
arguments in order and to the one placeholder it produced. Missing: the other graphs, where the
code is wrong (`wiring_refuted`). -/
theorem wiring_partial (hr : Reachable e) (ht : SortsCorrectly topo e ins outs)
    (ho : Orderly e outs) (h : modelCtor topo ins outs e = (.ok m, e')) : Wired e m := by
  intro k c hk
  obtain ⟨g, hg, -, hs, -⟩ := ctor_maps hr h
  have htopo := ht g hg
  rw [← hs] at htopo
  have hc := (mem_opNodes hg c).1 ((htopo.op c).1 (mem_sortedOps.1 (List.mem_of_getElem? hk)))
  have hv := orderly_visits (reachable_wf hr) hg ho hc
  obtain ⟨x, h1, h2, o, h3, h4, h5⟩ := wiring_exact hr ht h hk
  rw [hv] at h2 h4 h5
  exact ⟨x, h1, by simpa using h2, o, h3, by simpa using h4, by simpa using h5⟩

/-- A sufficient condition users can see at once: with one output, networks in which every layer
has one argument (plain chains of any length) are always wired correctly. -/
theorem wiring_chain (hr : Reachable e) {out : Nat} (ht : SortsCorrectly topo e ins [out])
    (h1 : ∀ c, (e.callArgs c).length ≤ 1)
    (h : modelCtor topo ins [out] e = (.ok m, e')) : Wired e m := by
  refine wiring_partial hr ht ⟨by simp, fun x _ => ?_⟩ h
  cases hc : e.callOf x with
  | none => simp [argsOf_none hc]
  | some c =>
    rw [argsOf_some hc]
    have := h1 c
    rcases hl : e.callArgs c with _ | ⟨a, _ | ⟨b, r⟩⟩
    · simp
    · simp
    · rw [hl] at this; simp at this

/-- The full claim of C13. -/
def WiringCorrect : Prop :=
  ∀ (e e' : Expr) (topo : Graph → List Node) (ins outs : List Nat) (m : Model), Reachable e →
    SortsCorrectly topo e ins outs → modelCtor topo ins outs e = (.ok m, e') → Wired e m

/-- **C13 is violated by the code.** In the residual block `y = Add(a, Sigmoid(a))` with
`a = ReLU(x)` the traversal lists the ReLU application twice; the ReLU layer then reports the two
inputs `x, x`, the two outputs `a, a` and the bogus ids 0. -/
theorem wiring_refuted : ¬ WiringCorrect := by
  intro hall
  have ht : SortsCorrectly (creationOrder firstE) firstE [0] [3] :=
    topological_order_exists first_reachable (by decide +kernel)
  rcases hm : modelCtor (creationOrder firstE) [0] [3] firstE with ⟨o, e'⟩
  have hobs : (observe (modelCtor (creationOrder firstE) [0] [3] firstE) fun m =>
      ((sortedOps m.sorted)[0]?, m.layers[0]?)) = some (some 0, some ⟨0, [0, 0], [1, 1]⟩) := by
    decide +kernel
  rw [hm] at hobs
  cases o with
  | throw x => simp [observe] at hobs
  | ub x => simp [observe] at hobs
  | ok m =>
    simp only [observe, Option.some.injEq, Prod.mk.injEq] at hobs
    obtain ⟨x, -, hl, -⟩ := hall _ _ _ _ _ m first_reachable ht hm 0 0 hobs.1
    rw [hobs.2] at hl
    simp at hl

/-- With the shortcut given second the same network is wired correctly. -/
example : (observe (modelCtor (creationOrder lastE) [0] [3] lastE) fun m => m.layers) =
    some [⟨0, [0], [1]⟩, ⟨1, [1], [2]⟩, ⟨2, [2, 1], [3]⟩] := by decide +kernel

/-- The same happens for two outputs if the first is computed on the way to the second:
`Model({x}, {a, b})`. -/
example : (observe (modelCtor (creationOrder lastE) [0] [1, 2] lastE) fun m =>
      (m.layers, m.cfg.sortedOps.map OpInfo.inIds, m.cfg.sortedOps.map OpInfo.outIds)) =
    some ([⟨0, [0, 0], [1, 1]⟩, ⟨1, [1], [2]⟩], [[0, 0], [1]], [[1, 0], [2]]) := by decide +kernel

/-! ## C14 -/

/-- **C14, construction.** Given that the listed inputs and outputs are part of the network,
construction throws iff two of its layers end up with the same name. -/
theorem names_unique_iff (hr : Reachable e) (ho : ∀ x ∈ outs, x < e.phs.length)
    (ht : SortsCorrectly topo e ins outs) {g : Graph} (hg : buildGraph e ins outs = .ok g) :
    let names := (sortedOps (topo g)).map fun c => finalName e (sortedOps (topo g)) (e.callInfo c)
    (names.Nodup → ∃ m e', modelCtor topo ins outs e = (.ok m, e') ∧
      m.layers.map (fun l => (infoOf e' l.info).name) = names) ∧
    (¬ names.Nodup → ∃ e', modelCtor topo ins outs e = (.throw .dw, e')) := by
  intro names
  have wf := reachable_wf hr
  have htopo := ht g hg
  have hnames : (sortedOps (topo g)).map (opName (nameOps e (sortedOps (topo g)))) = names := by
    apply List.map_congr_left
    intro c hc
    obtain ⟨x, hx, -⟩ := (mem_opNodes hg c).1 ((htopo.op c).1 (mem_sortedOps.1 hc))
    exact opName_nameOps hc (wf.info_lt c (wf.call_lt x c hx))
  constructor
  · intro hn
    have hc := ctor_of_build (topo := topo) hg
    simp only [hnames, hn, if_true] at hc
    refine ⟨_, _, hc, ?_⟩
    obtain ⟨g', hg', -, hs, -, -, hl, -⟩ := ctor_maps hr hc
    rw [hl, ← hnames]
    simp only [List.map_map]
    apply List.map_congr_left
    intro c _
    show (infoOf _ (Expr.callInfo _ c)).name = _
    rw [← opName_eq]
  · intro hn
    have hc := ctor_of_build (topo := topo) hg
    simp only [hnames, hn, if_false] at hc
    exact ⟨_, hc⟩

/-- **C14, lookup.** In a constructed model `getLayer` returns the layer with that name for every
layer, and throws for every other name. -/
theorem getLayer_exact (hr : Reachable e) (h : modelCtor topo ins outs e = (.ok m, e')) :
    (∀ l ∈ m.layers, m.getLayer (infoOf e' l.info).name = .ok l) ∧
    (∀ name, name ∉ m.layers.map (fun l => (infoOf e' l.info).name) →
      m.getLayer name = .throw .dw) := by
  obtain ⟨g, hg, hmg, hs, he, hn, hl, hlm, -⟩ := ctor_maps hr h
  have hkeys : m.layersMap.map Prod.fst = (sortedOps m.sorted).map (opName e') := by
    rw [hlm]; simp [Function.comp_def]
  constructor
  · intro l hll
    rw [hl] at hll
    obtain ⟨c, hc, rfl⟩ := List.mem_map.1 hll
    have hname : (infoOf e' (mkLayer e' g c).info).name = opName e' c := (opName_eq e' c).symm
    rw [hname, Model.getLayer, lookup_of_mem (v := mkLayer e' g c)]
    · rw [hkeys]; exact hn
    · rw [hlm]; exact List.mem_map.2 ⟨c, hc, rfl⟩
  · intro name hname
    rw [Model.getLayer, lookup_none_of_not_mem]
    rw [hkeys]
    intro hm
    apply hname
    obtain ⟨c, hc, rfl⟩ := List.mem_map.1 hm
    rw [hl, List.map_map]
    exact List.mem_map.2 ⟨c, hc, (opName_eq e' c).symm⟩

/-- Names in `chain`: generated, user's, generated. -/
example : (observe (modelCtor (creationOrder chainE) [0] [3] chainE) fun m =>
    m.layersMap.map Prod.fst) = some ["relu0", "fc", "softmax2"] := by decide +kernel

/-! ## C15 -/

/-- **C15.** Names generated at different positions differ, whatever the layer types (for example
`BatchNorm1D` at position 2 and `BatchNorm1` … cannot meet: no type name ends in a digit). -/
theorem generated_names_distinct (op op' : Op) (i j : Nat) (hij : i ≠ j) :
    generatedName op.type i ≠ generatedName op'.type j :=
  fun h => hij (generatedName_inj h).1

/-- **C15, whole model.** If every layer of the network is unnamed and no layer object is applied
twice, construction succeeds: generated names never clash, for any number of layers. -/
theorem unnamed_never_clash (hr : Reachable e) (ho : ∀ x ∈ outs, x < e.phs.length)
    (ht : SortsCorrectly topo e ins outs) (hp : ∀ x ∈ ins ++ outs, TakesPart e outs x)
    (hname : ∀ c, NeededCall e outs c → (infoOf e (e.callInfo c)).name = "")
    (hdist : ∀ c d, NeededCall e outs c → NeededCall e outs d → e.callInfo c = e.callInfo d → c = d) :
    ∃ m e', modelCtor topo ins outs e = (.ok m, e') := by
  obtain ⟨g, hg⟩ := build_ok_of (reachable_wf hr) ho hp
  have htopo := ht g hg
  obtain ⟨h1, -⟩ := names_unique_iff hr ho ht hg
  have hneed : ∀ c ∈ sortedOps (topo g), NeededCall e outs c := fun c hc =>
    (mem_opNodes hg c).1 ((htopo.op c).1 (mem_sortedOps.1 hc))
  obtain ⟨m, e', hm, -⟩ := h1 (by
    apply List.Nodup.map_on _ (nodup_sortedOps htopo.nodup)
    intro c hc d hd hcd
    have e1 := hname c (hneed c hc)
    have e2 := hname d (hneed d hd)
    simp only [finalName, e1, e2, if_true] at hcd
    have := (generatedName_inj hcd).1
    have hc' : e.callInfo c ∈ (sortedOps (topo g)).map e.callInfo := List.mem_map_of_mem hc
    exact hdist c d (hneed c hc) (hneed d hd) ((List.idxOf_inj hc').1 this))
  exact ⟨m, e', hm⟩

/-! ## C16 -/

/-- **C16, keys.** The keys of `params()` and of `state()` are pairwise different. -/
theorem keys_distinct (hr : Reachable e) (h : modelCtor topo ins outs e = (.ok m, e')) :
    (m.params.map Prod.fst).Nodup ∧ (m.state.map Prod.fst).Nodup := by
  obtain ⟨g, hg, hmg, hs, he, hn, -, -, hp, hst, -⟩ := ctor_maps hr h
  have hgood : ∀ i, GoodInfo (infoOf e' i) := fun i => goodInfo_of_named (by
    rw [he]; exact nameOps_named (reachable_named hr))
  have hstate := state_keys_nodup hgood _ hn
  refine ⟨?_, by rw [hst]; exact hstate⟩
  rw [hp]
  refine List.Nodup.sublist ?_ hstate
  generalize sortedOps m.sorted = ops
  induction ops with
  | nil => simp
  | cons c ops ih =>
    simp only [List.flatMap_cons, List.map_append]
    refine List.Sublist.append ?_ ih
    simp [paramEntries, stateEntries, Function.comp_def]

/-- The tensor names of a layer that has been applied are the documented ones. -/
theorem tensor_names (hr : Reachable e) {c : Nat} (hc : c < e.calls.length) :
    (infoOf e (e.callInfo c)).params.map Prod.fst = paramNames (infoOf e (e.callInfo c)).op ∧
    (infoOf e (e.callInfo c)).buffers.map Prod.fst = bufferNames (infoOf e (e.callInfo c)).op := by
  have hl := (reachable_wf hr).info_lt c hc
  have := (reachable_named hr).used c hc _
    (show _ = some (_, _, _) by unfold sig; rw [List.getElem?_eq_getElem hl]; rfl)
  simp only [Prod.mk.injEq] at this
  simpa [infoOf, List.getElem?_eq_getElem hl] using this

/-- **C16, contents.** `params()` holds exactly one entry `layer.name + "." + p` for each
application the outputs depend on and each parameter `p` of its layer type, bound to that layer
object's own parameter; `state()` holds exactly those and one entry per buffer. Layer names may
contain dots. -/
theorem params_state_exact (hr : Reachable e) (ht : SortsCorrectly topo e ins outs)
    (h : modelCtor topo ins outs e = (.ok m, e')) :
    (∀ k i p, (k, i, p) ∈ m.params ↔ ∃ c, NeededCall e outs c ∧ i = e.callInfo c ∧
      p ∈ paramNames (infoOf e i).op ∧ k = (infoOf e' i).name ++ "." ++ p) ∧
    (∀ k r, (k, r) ∈ m.state ↔ ∃ c p, NeededCall e outs c ∧
      k = (infoOf e' (e.callInfo c)).name ++ "." ++ p ∧
      ((p ∈ paramNames (infoOf e (e.callInfo c)).op ∧ r = .param (e.callInfo c) p) ∨
       (p ∈ bufferNames (infoOf e (e.callInfo c)).op ∧ r = .buffer (e.callInfo c) p))) := by
  have hr' : Reachable e' := by
    have := Reachable.model topo ins outs hr
    rwa [h] at this
  obtain ⟨g, hg, hmg, hs, he, hn, -, -, hp, hst, -⟩ := ctor_maps hr h
  have htopo := ht g hg
  rw [← hs] at htopo
  have hneed : ∀ c, c ∈ sortedOps m.sorted ↔ NeededCall e outs c := fun c => by
    rw [mem_sortedOps, htopo.op, mem_opNodes hg]
  have hci : ∀ c, e'.callInfo c = e.callInfo c := fun c => by rw [he]; exact callInfo_nameOps e _ c
  have hop : ∀ i, (infoOf e' i).op = (infoOf e i).op := by
    intro i
    rw [he]
    unfold infoOf
    rw [nameOps_infos]
    cases e.infos[i]? with
    | none => rfl
    | some inf => simp only [Option.map_some, Option.getD_some]; split <;> rfl
  have hlt : ∀ c, NeededCall e outs c → c < e'.calls.length := by
    rintro c ⟨x, hx, -⟩
    rw [he, (nameOps_frame e _).2.1]
    exact (reachable_wf hr).call_lt x c hx
  have hpn : ∀ c, NeededCall e outs c → ∀ p,
      (∃ q ∈ (infoOf e' (e'.callInfo c)).params, q.1 = p) ↔ p ∈ paramNames (infoOf e (e.callInfo c)).op := by
    intro c hc p
    rw [← hop, ← hci, ← (tensor_names hr' (hlt c hc)).1, List.mem_map]
  have hbn : ∀ c, NeededCall e outs c → ∀ p,
      (∃ q ∈ (infoOf e' (e'.callInfo c)).buffers, q.1 = p) ↔ p ∈ bufferNames (infoOf e (e.callInfo c)).op := by
    intro c hc p
    rw [← hop, ← hci, ← (tensor_names hr' (hlt c hc)).2, List.mem_map]
  constructor
  · intro k i p
    rw [hp, List.mem_flatMap]
    constructor
    · rintro ⟨c, hc, hm⟩
      simp only [paramEntries, List.mem_map, Prod.mk.injEq] at hm
      obtain ⟨q, hq, hk, hi, hqp⟩ := hm
      have hc' := (hneed c).1 hc
      refine ⟨c, hc', by rw [← hi, hci], ?_, ?_⟩
      · rw [← hi, hci]; exact (hpn c hc' p).1 ⟨q, hq, hqp⟩
      · rw [← hk, ← hi, ← hqp, opName_eq]; rfl
    · rintro ⟨c, hc, rfl, hpm, rfl⟩
      obtain ⟨q, hq, rfl⟩ := (hpn c hc p).2 hpm
      refine ⟨c, (hneed c).2 hc, ?_⟩
      simp only [paramEntries, List.mem_map, Prod.mk.injEq]
      exact ⟨q, hq, by rw [opName_eq, hci]; rfl, hci c, rfl⟩
  · intro k r
    rw [hst, List.mem_flatMap]
    constructor
    · rintro ⟨c, hc, hm⟩
      have hc' := (hneed c).1 hc
      simp only [stateEntries, List.mem_append, List.mem_map, Prod.mk.injEq] at hm
      rcases hm with ⟨q, hq, hk, hr⟩ | ⟨q, hq, hk, hr⟩
      · exact ⟨c, q.1, hc', by rw [← hk, opName_eq, hci]; rfl,
          .inl ⟨(hpn c hc' q.1).1 ⟨q, hq, rfl⟩, by rw [← hr, hci]⟩⟩
      · exact ⟨c, q.1, hc', by rw [← hk, opName_eq, hci]; rfl,
          .inr ⟨(hbn c hc' q.1).1 ⟨q, hq, rfl⟩, by rw [← hr, hci]⟩⟩
    · rintro ⟨c, p, hc, rfl, ⟨hpm, rfl⟩ | ⟨hpm, rfl⟩⟩
      · obtain ⟨q, hq, rfl⟩ := (hpn c hc p).2 hpm
        refine ⟨c, (hneed c).2 hc, ?_⟩
        simp only [stateEntries, List.mem_append, List.mem_map, Prod.mk.injEq]
        exact .inl ⟨q, hq, by rw [opName_eq, hci]; rfl, by rw [hci]⟩
      · obtain ⟨q, hq, rfl⟩ := (hbn c hc p).2 hpm
        refine ⟨c, (hneed c).2 hc, ?_⟩
        simp only [stateEntries, List.mem_append, List.mem_map, Prod.mk.injEq]
        exact .inr ⟨q, hq, by rw [opName_eq, hci]; rfl, by rw [hci]⟩

example : (observe (modelCtor (creationOrder chainE) [0] [3] chainE) fun m => (m.params, m.state)) =
    some ([("fc.weight", 1, "weight"), ("fc.bias", 1, "bias")],
          [("fc.weight", .param 1 "weight"), ("fc.bias", .param 1 "bias")]) := by decide +kernel

/-! ## C17 -/

/-- **C17.** If two different applications of one layer object are part of the network,
construction throws, named or not. -/
theorem layer_reuse_rejected (hr : Reachable e) (ho : ∀ x ∈ outs, x < e.phs.length)
    (ht : SortsCorrectly topo e ins outs) (hp : ∀ x ∈ ins ++ outs, TakesPart e outs x) {c d : Nat}
    (hc : NeededCall e outs c) (hd : NeededCall e outs d) (hcd : c ≠ d)
    (hi : e.callInfo c = e.callInfo d) : ∃ e', modelCtor topo ins outs e = (.throw .dw, e') := by
  obtain ⟨g, hg⟩ := build_ok_of (reachable_wf hr) ho hp
  have htopo := ht g hg
  apply (names_unique_iff hr ho ht hg).2
  intro hn
  have hmem : ∀ c, NeededCall e outs c → c ∈ sortedOps (topo g) := fun c hc =>
    mem_sortedOps.2 ((htopo.op c).2 ((mem_opNodes hg c).2 hc))
  exact hcd (List.inj_on_of_nodup_map hn (hmem c hc) (hmem d hd) (by simp only [hi]))

/-- `relu = ReLU(); y = relu(relu(x))`. -/
def reuse : M Expr Nat := do
  let x ← Expr.placeholder [4, 2]
  let l ← Expr.layer .relu "r"
  let a ← Expr.apply l [x]
  Expr.apply l [a]

example : (modelCtor (creationOrder (reuse {}).2) [0] [2] (reuse {}).2).1 = .throw .dw := by
  decide +kernel

/-! ## C18 -/

/-- Trainable flag of parameter `p` of layer object `i`. -/
def flag (e : Expr) (i : Nat) (p : String) : Option Bool :=
  ((e.infos[i]?).bind fun inf => inf.params.lookup p).map Param.trainable

/-- Everything of a layer object except the trainable flags. -/
def content (inf : InfoImpl) :
    String × Op × List (String × Shape) × List (String × Shape) :=
  (inf.name, inf.op, inf.params.map (fun q => (q.1, q.2.shape)), inf.buffers)

theorem lookup_map_flag (b : Bool) (s : Nat × String → Prop) [DecidablePred s] (i : Nat) (p : String) :
    ∀ ps : List (String × Param),
    (ps.map fun q => if s (i, q.1) then (q.1, { q.2 with trainable := b }) else q).lookup p =
      (ps.lookup p).map fun q => if s (i, p) then { q with trainable := b } else q
  | [] => rfl
  | (k, q) :: ps => by
    rw [List.map_cons]
    by_cases hk : p = k
    · subst hk
      by_cases hs : s (i, p) <;> simp [hs]
    · have hk' : (p == k) = false := by simpa using hk
      have ih := lookup_map_flag b s i p ps
      by_cases hs : s (i, k) <;> simp only [hs, if_true, if_false, List.lookup_cons, hk'] <;> exact ih

/-- **C18.** `train(b)` sets the flag of every parameter of the model to `b`; every other flag,
every shape, name, attribute, buffer, placeholder and call is unchanged. -/
theorem train_exact (m : Model) (b : Bool) (e : Expr) :
    (∀ i p, (i, p) ∈ m.params.map Prod.snd → (flag e i p).isSome → flag (m.train b e).2 i p = some b) ∧
    (∀ i p, (i, p) ∉ m.params.map Prod.snd → flag (m.train b e).2 i p = flag e i p) ∧
    (m.train b e).2.phs = e.phs ∧ (m.train b e).2.calls = e.calls ∧
    (∀ i : Nat, ((m.train b e).2.infos[i]?).map content = (e.infos[i]?).map content) := by
  have hflag : ∀ i p, flag (m.train b e).2 i p =
      ((e.infos[i]?).bind fun inf => inf.params.lookup p).map fun q =>
        if (i, p) ∈ m.params.map Prod.snd then b else q.trainable := by
    intro i p
    unfold flag
    rw [train_infos]
    cases e.infos[i]? with
    | none => rfl
    | some inf =>
      simp only [Option.map_some, Option.bind_some]
      rw [lookup_map_flag b (fun ip => ip ∈ m.params.map Prod.snd) i p, Option.map_map]
      congr 1
      funext q
      simp only [Function.comp]
      split <;> rfl
  refine ⟨fun i p hm hs => ?_, fun i p hm => ?_, (train_frame m b e).1, (train_frame m b e).2.1, ?_⟩
  · rw [hflag]
    unfold flag at hs
    cases hq : (e.infos[i]?).bind fun inf => inf.params.lookup p with
    | none => simp [hq] at hs
    | some q => simp [hm]
  · rw [hflag]
    unfold flag
    simp [hm]
  · intro i
    rw [train_infos, Option.map_map]
    congr 1
    funext inf
    simp only [content, Function.comp, List.map_map, Prod.mk.injEq, true_and, and_true]
    apply List.map_congr_left
    intro q _
    simp only [Function.comp]
    split <;> rfl

/-- **C18, every parameter of the model.** In a constructed model all parameters of all its layers
have the requested flag after `train`. -/
theorem train_all (hr : Reachable e) (ht : SortsCorrectly topo e ins outs)
    (h : modelCtor topo ins outs e = (.ok m, e')) (b : Bool) {c : Nat} (hc : NeededCall e outs c)
    {p : String} (hp : p ∈ paramNames (infoOf e (e.callInfo c)).op)
    (hs : (flag e' (e.callInfo c) p).isSome) :
    flag (m.train b e').2 (e.callInfo c) p = some b :=
  (train_exact m b e').1 _ _ (List.mem_map.2 ⟨_, ((params_state_exact hr ht h).1 _ _ _).2
    ⟨c, hc, rfl, hp, rfl⟩, rfl⟩) hs

/-- **C18, the last call wins.** -/
theorem train_last_wins (m : Model) (a b : Bool) (e : Expr) :
    (m.train b (m.train a e).2).2 = (m.train b e).2 := by
  have h1 := train_frame m b (m.train a e).2
  have h2 := train_frame m a e
  have h3 := train_frame m b e
  have hinf : (m.train b (m.train a e).2).2.infos = (m.train b e).2.infos := by
    apply List.ext_getElem?
    intro i
    rw [train_infos, train_infos, train_infos, Option.map_map]
    congr 1
    funext inf
    simp only [Function.comp, List.map_map]
    congr 1
    apply List.map_congr_left
    intro q _
    simp only [Function.comp]
    by_cases hq : (i, q.1) ∈ m.params.map Prod.snd <;> simp [hq]
  rcases hx : (m.train b (m.train a e).2).2 with ⟨p, c, i⟩
  rcases hy : (m.train b e).2 with ⟨p', c', i'⟩
  rw [hx] at h1 hinf
  rw [hy] at h3 hinf
  simp only at h1 h3 hinf
  rw [h1.1, h2.1, h1.2.1, h2.2.1, h3.1, h3.2.1, hinf]

example : (observe (modelCtor (creationOrder chainE) [0] [3] chainE) fun m =>
    let e' := (modelCtor (creationOrder chainE) [0] [3] chainE).2
    (flag e' 1 "weight", flag (m.train false e').2 1 "weight",
     flag (m.train true (m.train false e').2).2 1 "bias")) = some (some true, some false, some true) := by
  decide +kernel

/-! ## C68 -/

/-- Whether `ids` lists the given placeholders in the given order. -/
def InOrder (m : Model) (ids : List Int) (phs : List Nat) : Prop :=
  ids = phs.map fun x => (dataId m.sorted x : Int)

/-- The full claim of C68. -/
def ConfigKeepsOrder : Prop :=
  ∀ (e e' : Expr) (topo : Graph → List Node) (ins outs : List Nat) (m : Model), Reachable e →
    SortsCorrectly topo e ins outs → modelCtor topo ins outs e = (.ok m, e') →
    InOrder m m.cfg.inputIds ins ∧ InOrder m m.cfg.outputIds outs

theorem cfg_ids (hr : Reachable e) (ht : SortsCorrectly topo e ins outs)
    (h : modelCtor topo ins outs e = (.ok m, e')) :
    m.cfg.inputIds.Pairwise (· < ·) ∧ m.cfg.outputIds.Pairwise (· < ·) ∧
    (∀ i : Int, i ∈ m.cfg.inputIds ↔ ∃ x ∈ ins, x ∉ outs ∧ i = dataId m.sorted x) ∧
    (∀ i : Int, i ∈ m.cfg.outputIds ↔ ∃ x ∈ outs, i = dataId m.sorted x) := by
  obtain ⟨g, hg, hmg, hs, he, hn, hl, -, -, -, hcfg⟩ := ctor_maps hr h
  have htopo := ht g hg
  rw [← hs] at htopo
  have hnd := nodup_sortedData htopo.nodup
  obtain ⟨u, -, -, -, -, -, hins, houts, hall⟩ := build_ok hg
  have hpw : ∀ p : Nat → Bool, (((sortedData m.sorted).filter p).map fun x => (dataId m.sorted x : Int)).Pairwise (· < ·) := by
    intro p
    rw [List.pairwise_map]
    refine ((pairwise_idxOf hnd).filter p).imp ?_
    intro a b hab
    exact_mod_cast hab
  have hmem : ∀ x ∈ ins ++ outs, x ∈ sortedData m.sorted := fun x hx =>
    mem_sortedData.2 ((htopo.data x).2 (hall x hx))
  refine ⟨by rw [hcfg]; exact hpw _, by rw [hcfg]; exact hpw _, ?_, ?_⟩
  · intro i
    rw [hcfg]
    simp only [createConfig, List.mem_map, List.mem_filter, Graph.storage, hins, houts, beq_iff_eq]
    constructor
    · rintro ⟨x, ⟨-, hx⟩, rfl⟩
      by_cases ho : x ∈ outs
      · simp [ho] at hx
      · by_cases hi : x ∈ ins
        · exact ⟨x, hi, ho, rfl⟩
        · simp [ho, hi] at hx
    · rintro ⟨x, hi, ho, rfl⟩
      exact ⟨x, ⟨hmem x (by simp [hi]), by simp [ho, hi]⟩, rfl⟩
  · intro i
    rw [hcfg]
    simp only [createConfig, List.mem_map, List.mem_filter, Graph.storage, hins, houts, beq_iff_eq]
    constructor
    · rintro ⟨x, ⟨-, hx⟩, rfl⟩
      by_cases ho : x ∈ outs
      · exact ⟨x, ho, rfl⟩
      · by_cases hi : x ∈ ins <;> simp [ho, hi] at hx
    · rintro ⟨x, ho, rfl⟩
      exact ⟨x, ⟨hmem x (by simp [ho]), by simp [ho]⟩, rfl⟩

theorem sorted_list_eq {l l' : List Int} (h : l.Pairwise (· < ·)) (h' : l'.Pairwise (· < ·))
    (hm : ∀ i, i ∈ l ↔ i ∈ l') : l = l' := by
  have hp : l.Perm l' := (List.perm_ext_iff_of_nodup (h.imp (fun hab heq => by omega))
    (h'.imp (fun hab heq => by omega))).2 hm
  exact hp.eq_of_pairwise (fun a b _ _ hab hba => by omega) h h'

/-- **C68 (proved part).** The config always lists ids in increasing order. So the user's order is
kept exactly when the inputs (outputs) were given in increasing id order and, for inputs, none of
them is also an output; in particular for a single input that is not an output and a single
output. Missing: other orders, where the code is wrong (`config_order_refuted`). -/
theorem config_order_partial (hr : Reachable e) (ht : SortsCorrectly topo e ins outs)
    (h : modelCtor topo ins outs e = (.ok m, e')) :
    (InOrder m m.cfg.inputIds ins ↔
      (∀ x ∈ ins, x ∉ outs) ∧ (ins.map (dataId m.sorted)).Pairwise (· < ·)) ∧
    (InOrder m m.cfg.outputIds outs ↔ (outs.map (dataId m.sorted)).Pairwise (· < ·)) := by
  obtain ⟨h1, h2, h3, h4⟩ := cfg_ids hr ht h
  obtain ⟨g, hg, -, hs, -⟩ := ctor_maps hr h
  have htopo := ht g hg
  rw [← hs] at htopo
  obtain ⟨u, -, -, -, -, -, hins, houts, hall⟩ := build_ok hg
  have hcast : ∀ l : List Nat, (l.map fun x => (dataId m.sorted x : Int)).Pairwise (· < ·) ↔
      (l.map (dataId m.sorted)).Pairwise (· < ·) := by
    intro l
    rw [List.pairwise_map, List.pairwise_map]
    constructor <;> exact fun h => h.imp fun {a b} hab => by exact_mod_cast hab
  constructor
  · constructor
    · intro hio
      unfold InOrder at hio
      refine ⟨fun x hx ho => ?_, (hcast ins).1 (hio ▸ h1)⟩
      have : (dataId m.sorted x : Int) ∈ m.cfg.inputIds := by
        rw [hio]; exact List.mem_map.2 ⟨x, hx, rfl⟩
      obtain ⟨y, hy, hyo, hxy⟩ := (h3 _).1 this
      have : x = y := dataId_inj ((htopo.data x).2 (hall x (by simp [hx]))) (by exact_mod_cast hxy)
      exact hyo (this ▸ ho)
    · rintro ⟨hd, hp⟩
      apply sorted_list_eq h1 ((hcast ins).2 hp)
      intro i
      rw [h3, List.mem_map]
      constructor
      · rintro ⟨x, hx, -, rfl⟩; exact ⟨x, hx, rfl⟩
      · rintro ⟨x, hx, rfl⟩; exact ⟨x, hx, hd x hx, rfl⟩
  · constructor
    · intro hio
      unfold InOrder at hio
      exact (hcast outs).1 (hio ▸ h2)
    · intro hp
      apply sorted_list_eq h2 ((hcast outs).2 hp)
      intro i
      rw [h4, List.mem_map]
      constructor
      · rintro ⟨x, hx, rfl⟩; exact ⟨x, hx, rfl⟩
      · rintro ⟨x, hx, rfl⟩; exact ⟨x, hx, rfl⟩

/-- One input, one output, not the same placeholder: the order is kept. -/
theorem config_order_single (hr : Reachable e) {i o : Nat} (hio : i ≠ o)
    (ht : SortsCorrectly topo e [i] [o]) (h : modelCtor topo [i] [o] e = (.ok m, e')) :
    InOrder m m.cfg.inputIds [i] ∧ InOrder m m.cfg.outputIds [o] :=
  ⟨(config_order_partial hr ht h).1.2 ⟨by simpa using hio, by simp⟩,
   (config_order_partial hr ht h).2.2 (by simp)⟩

/-- **C68 is violated by the code**: for `Model({x}, {out, hidden})` every topological order puts
`hidden` first. -/
theorem config_order_refuted : ¬ ConfigKeepsOrder := by
  intro hall
  have ht : SortsCorrectly (creationOrder chainE) chainE [0] [3, 1] :=
    topological_order_exists chain_reachable (by decide +kernel)
  rcases hm : modelCtor (creationOrder chainE) [0] [3, 1] chainE with ⟨o, e'⟩
  have hobs : (observe (modelCtor (creationOrder chainE) [0] [3, 1] chainE) fun m =>
      (m.cfg.outputIds, dataId m.sorted 3)) = some ([1, 3], 3) := by
    decide +kernel
  rw [hm] at hobs
  cases o with
  | throw x => simp [observe] at hobs
  | ub x => simp [observe] at hobs
  | ok m =>
    simp only [observe, Option.some.injEq, Prod.mk.injEq] at hobs
    have := (hall _ _ _ _ _ m chain_reachable ht hm).2
    rw [InOrder, hobs.1, List.map_cons, hobs.2] at this
    simp at this

/-! ## C70 -/

/-- **C70 is violated by the code**: whenever a listed input or output is not part of the network,
construction dereferences a null node handle instead of throwing. -/
theorem unused_input_undefined (hr : Reachable e) (ho : ∀ x ∈ outs, x < e.phs.length) {x : Nat}
    (hx : x ∈ ins ++ outs) (hn : ¬ TakesPart e outs x) :
    (modelCtor topo ins outs e).1 = .ub .null := by
  unfold modelCtor
  rw [build_ub_of (reachable_wf hr) ho hx hn]

/-- In particular `Model(x, x)` for a source placeholder. -/
theorem identity_model_undefined (hr : Reachable e) {x : Nat} (hx : x < e.phs.length)
    (hs : e.callOf x = none) : (modelCtor topo [x] [x] e).1 = .ub .null := by
  refine unused_input_undefined hr (by simpa using hx) (x := x) (by simp) ?_
  rintro ⟨c, ⟨y, hy, o, ho, hn⟩, -⟩
  simp only [List.mem_singleton] at ho
  subst ho
  cases hn with
  | refl _ => rw [hs] at hy; simp at hy
  | step hc _ _ => rw [hs] at hc; simp at hc

/-! ## C71 -/

/-- **C71 (proved part).** If every layer of the network has a name, constructing a model changes
no expression object, so later constructions are unaffected. Missing: unnamed layers, where the
generated name is written into the shared layer object (`models_interfere`). -/
theorem construction_pure_partial (hr : Reachable e) (ht : SortsCorrectly topo e ins outs)
    (hname : ∀ c, NeededCall e outs c → (infoOf e (e.callInfo c)).name ≠ "") :
    (modelCtor topo ins outs e).2 = e := by
  unfold modelCtor
  cases hg : buildGraph e ins outs with
  | throw x => rfl
  | ub x => rfl
  | ok g =>
    have htopo := ht g hg
    have he : nameOps e (sortedOps (topo g)) = e := by
      have hfr := nameOps_frame e (sortedOps (topo g))
      have hinf : (nameOps e (sortedOps (topo g))).infos = e.infos := by
        apply List.ext_getElem?
        intro i
        rw [nameOps_infos]
        cases hi : e.infos[i]? with
        | none => rfl
        | some inf =>
          simp only [Option.map_some, Option.some.injEq]
          rw [if_neg]
          rintro ⟨hm, hn⟩
          obtain ⟨c, hc, rfl⟩ := List.mem_map.1 hm
          have hc' := (mem_opNodes hg c).1 ((htopo.op c).1 (mem_sortedOps.1 hc))
          exact hname c hc' (by simpa [infoOf, hi] using hn)
      rcases hx : nameOps e (sortedOps (topo g)) with ⟨p, c, i⟩
      rw [hx] at hfr hinf
      simp only at hfr hinf
      rw [hfr.1, hfr.2.1, hinf]
    simp only
    split <;> exact he

/-- `s = Sigmoid(x); t = ReLU(x); r = ReLU(s); y = Add(t, r)`. -/
def twoModels : M Expr Nat := do
  let x ← Expr.placeholder [4, 2]
  let s ← Expr.makeLayer "Sigmoid" "" [] [x]
  let t ← Expr.makeLayer "ReLU" "" [] [x]
  let r ← Expr.makeLayer "ReLU" "" [] [s]
  Expr.makeLayer "Add" "" [] [t, r]

def twoE : Expr := (twoModels {}).2

/-- **C71 is violated by the code**: `Model(x, y)` succeeds, but after constructing the unrelated
`Model(x, r)` first, the same `Model(x, y)` throws, because `r` is now called `relu1`. -/
theorem models_interfere :
    (modelCtor (creationOrder twoE) [0] [4] twoE).1.isOk = true ∧
    (modelCtor (creationOrder twoE) [0] [3] twoE).1.isOk = true ∧
    (modelCtor (creationOrder twoE) [0] [4] (modelCtor (creationOrder twoE) [0] [3] twoE).2).1 =
      .throw .dw := by
  decide +kernel

end DW.Props.GraphP
