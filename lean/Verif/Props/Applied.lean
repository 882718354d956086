import Verif.Props.Graph
import Verif.Spec.Later
/-!
# Properties C13, C76: what is recorded by applying a layer, and that nothing changes it later
-/

set_option autoImplicit false

namespace DW.Props.AppliedP

open DW DW.Spec DW.GraphL DW.Props.GraphP

variable {e₀ e₁ e e' : Expr} {topo : Graph → List Node} {ins outs : List Nat} {m : Model}

/-- Nothing recorded in `e` is changed in `e'`. -/
structure Keeps (e e' : Expr) : Prop where
  phs : e.phs <+: e'.phs
  calls : e.calls <+: e'.calls
  infos : e.infos.length ≤ e'.infos.length

theorem Keeps.refl (e : Expr) : Keeps e e := ⟨List.prefix_refl _, List.prefix_refl _, le_refl _⟩

theorem Keeps.trans (h : Keeps e₀ e) (h' : Keeps e e') : Keeps e₀ e' :=
  ⟨h.phs.trans h'.phs, h.calls.trans h'.calls, h.infos.trans h'.infos⟩

theorem keeps_placeholder (s : Shape) (e : Expr) : Keeps e (Expr.placeholder s e).2 :=
  ⟨List.prefix_append _ _, List.prefix_refl _, le_refl _⟩

theorem keeps_layer (op : Op) (n : String) (e : Expr) : Keeps e (Expr.layer op n e).2 :=
  ⟨List.prefix_refl _, List.prefix_refl _, by simp [Expr.layer]⟩

theorem keeps_apply (i : Nat) (ins : List Nat) (e : Expr) : Keeps e (Expr.apply i ins e).2 := by
  obtain ⟨h3, h | ⟨args, out, -, hp, hcl, -, -⟩⟩ := apply_cases i ins e
  · exact ⟨by rw [h.1], by rw [h.2], h3.ge⟩
  · exact ⟨by rw [hp]; exact List.prefix_append _ _, by rw [hcl]; exact List.prefix_append _ _, h3.ge⟩

theorem keeps_makeLayer (t n : String) (as : Attrs) (ins : List Nat) (e : Expr) : Keeps e (Expr.makeLayer t n as ins e).2 := by
  unfold Expr.makeLayer
  simp only [M.bind_apply, M.lift_apply]
  cases makeOp t as with
  | throw x => exact .refl e
  | ub x => exact .refl e
  | ok op =>
    simp only
    have hl : Expr.layer op n e = (.ok e.infos.length, (Expr.layer op n e).2) := rfl
    rw [hl]
    exact (keeps_layer op n e).trans (keeps_apply _ _ _)

theorem keeps_buildInputs (cfg : Config) : ∀ (ids : List Int) (m : List (Int × Nat)) (e : Expr), Keeps e (buildInputs cfg ids m e).2
  | [], m, e => .refl e
  | id :: ids, m, e => by
    unfold buildInputs
    simp only [M.bind_apply, M.lift_apply]
    cases Out.at? (cfg.phMap.lookup id) with
    | throw x => exact .refl e
    | ub x => exact .refl e
    | ok info =>
      simp only
      have hl : Expr.placeholder info.1 e = (.ok e.phs.length, (Expr.placeholder info.1 e).2) := rfl
      rw [hl]
      exact (keeps_placeholder _ e).trans (keeps_buildInputs cfg ids _ _)

theorem keeps_buildOps : ∀ (ops : List OpInfo) (m : List (Int × Nat)) (e : Expr), Keeps e (buildOps ops m e).2
  | [], m, e => .refl e
  | op :: ops, m, e => by
    unfold buildOps
    simp only [M.bind_apply, M.lift_apply]
    cases op.inIds.mapM fun id => Out.at? (m.lookup id) with
    | throw x => exact .refl e
    | ub x => exact .refl e
    | ok inps =>
      simp only
      cases Out.idx op.outIds 0 with
      | throw x => exact .refl e
      | ub x => exact .refl e
      | ok out =>
        simp only
        have h := keeps_makeLayer op.type op.name op.attrs inps e
        rcases hm : Expr.makeLayer op.type op.name op.attrs inps e with ⟨o, e'⟩
        rw [hm] at h
        cases o with
        | throw x => exact h
        | ub x => exact h
        | ok ph => exact h.trans (keeps_buildOps ops _ _)

theorem keeps_model (topo : Graph → List Node) (ins outs : List Nat) (e : Expr) : Keeps e (modelCtor topo ins outs e).2 := by
  obtain ⟨h1, h2, h3⟩ := modelCtor_frame topo ins outs e
  exact ⟨by rw [h1], by rw [h2], h3.ge⟩

theorem keeps_build (topo : Graph → List Node) (cfg : Config) (e : Expr) : Keeps e (modelBuild topo cfg e).2 := by
  have h : Keeps e (buildPlaceholders cfg e).2 := by
    unfold buildPlaceholders
    simp only [M.bind_apply, M.lift_apply]
    have h := keeps_buildInputs cfg cfg.inputIds [] e
    rcases hm : buildInputs cfg cfg.inputIds [] e with ⟨o, e'⟩
    rw [hm] at h
    cases o with
    | throw x => exact h
    | ub x => exact h
    | ok m =>
      simp only
      have h := h.trans (keeps_buildOps cfg.sortedOps m e')
      rcases hm : buildOps cfg.sortedOps m e' with ⟨o, e'⟩
      rw [hm] at h
      cases o with
      | throw x => exact h
      | ub x => exact h
      | ok m =>
        simp only
        cases cfg.inputIds.mapM fun id => Out.at? (m.lookup id) with
        | throw x => exact h
        | ub x => exact h
        | ok i =>
          simp only
          cases cfg.outputIds.mapM fun id => Out.at? (m.lookup id) with
          | throw x => exact h
          | ub x => exact h
          | ok o => exact h
  unfold modelBuild
  simp only [M.bind_apply]
  rcases hm : buildPlaceholders cfg e with ⟨o, e'⟩
  rw [hm] at h
  cases o with
  | throw x => exact h
  | ub x => exact h
  | ok io => exact h.trans (keeps_model _ _ _ _)

theorem later_keeps (h : Later e e') : Keeps e e' := by
  induction h with
  | refl => exact .refl e
  | placeholder s _ ih => exact ih.trans (keeps_placeholder s _)
  | layer op n _ ih => exact ih.trans (keeps_layer op n _)
  | apply i ins _ ih => exact ih.trans (keeps_apply i ins _)
  | makeLayer t n as ins _ ih => exact ih.trans (keeps_makeLayer t n as ins _)
  | model topo ins outs _ ih => exact ih.trans (keeps_model topo ins outs _)
  | train m mode _ ih =>
    obtain ⟨h1, h2, h3⟩ := train_frame m mode _
    exact ih.trans ⟨by rw [h1], by rw [h2], h3.ge⟩
  | build topo cfg _ ih => exact ih.trans (keeps_build topo cfg _)

theorem later_reachable (hr : Reachable e) (h : Later e e') : Reachable e' := by
  induction h with
  | refl => exact hr
  | placeholder s _ ih => exact .placeholder s ih
  | layer op n _ ih => exact .layer op n ih
  | apply i ins _ ih => exact .apply i ins ih
  | makeLayer t n as ins _ ih => exact .makeLayer t n as ins ih
  | model topo ins outs _ ih => exact .model topo ins outs ih
  | train m mode _ ih => exact .train m mode ih
  | build topo cfg _ ih => exact .build topo cfg ih

theorem args_eq {ins : List Nat} {n : Nat} (hn : n = 1 ∨ n = 2) (h : ins.length = n) :
    ((List.range n).mapM fun k => Out.idx ins k) = Out.ok ins := by
  rcases hn with rfl | rfl
  · match ins, h with
    | [a], _ => rfl
  · match ins, h with
    | [a, b], _ => rfl

/-- What a successful application records. -/
theorem apply_ok {i x : Nat} {inf : InfoImpl} (hi : e.infos[i]? = some inf) (hlen : ins.length = inf.op.numIn)
    (h : Expr.apply i ins e = (.ok x, e')) :
    x = e.phs.length ∧ (∃ s, e'.phs = e.phs ++ [⟨s, some e.calls.length⟩]) ∧ e'.calls = e.calls ++ [⟨i, ins⟩] := by
  have hidx : Out.idx e.infos i = .ok inf := by simp [Out.idx, hi]
  have hargs := args_eq (by cases inf.op <;> simp [Op.numIn]) hlen
  unfold Expr.apply at h
  simp only [M.bind_apply, M.get_apply, M.lift_apply, hidx, hargs] at h
  cases hs : e.shapes ins with
  | throw y => simp [hs] at h
  | ub y => simp [hs] at h
  | ok shs =>
    simp only [hs] at h
    obtain ⟨f1, f2, -⟩ := initLayer_frame i shs e
    rcases hil : Expr.initLayer i shs e with ⟨o, e2⟩
    rw [hil] at f1 f2 h
    simp only at f1 f2
    cases o with
    | throw y => simp at h
    | ub y => simp at h
    | ok u =>
      cases ho : outShape inf.op shs with
      | throw y => simp [ho] at h
      | ub y => simp [ho] at h
      | ok out =>
        simp [ho] at h
        obtain ⟨rfl, rfl⟩ := h
        exact ⟨by rw [f1], ⟨out, by rw [f1, f2]⟩, by rw [f2]⟩

/-- The layer object `i` was applied to `ins` and returned the placeholder `x`; the history went on until the state is `e`. -/
def WasApplied (e : Expr) (i : Nat) (ins : List Nat) (x : Nat) : Prop :=
  ∃ e₀ e₁ inf, Reachable e₀ ∧ e₀.infos[i]? = some inf ∧ ins.length = inf.op.numIn ∧ Expr.apply i ins e₀ = (.ok x, e₁) ∧ Later e₁ e

theorem WasApplied.reachable {i x : Nat} (h : WasApplied e i ins x) : Reachable e := by
  obtain ⟨e₀, e₁, inf, hr, -, -, ha, hl⟩ := h
  have := Reachable.apply i ins hr
  rw [ha] at this
  exact later_reachable this hl

/-- **C76.** Whatever calls follow, failing ones included, the placeholder an application returned stays the result of that
layer applied to those arguments. -/
theorem application_recorded {i x : Nat} (h : WasApplied e i ins x) : ∃ c, e.callOf x = some c ∧ e.callInfo c = i ∧ e.callArgs c = ins := by
  obtain ⟨e₀, e₁, inf, hr, hi, hlen, ha, hl⟩ := h
  obtain ⟨rfl, ⟨s, hp⟩, hc⟩ := apply_ok hi hlen ha
  obtain ⟨⟨ps, hps⟩, ⟨cs, hcs⟩, -⟩ := later_keeps hl
  refine ⟨e₀.calls.length, ?_, ?_, ?_⟩
  · simp [Expr.callOf, ← hps, hp]
  · simp [Expr.callInfo, ← hcs, hc]
  · simp [Expr.callArgs, ← hcs, hc]

/-- **C76.** The shape of a placeholder never changes, nor what it was computed from. -/
theorem placeholder_unchanged (h : Later e e') {x : Nat} (hx : x < e.phs.length) : e'.phs[x]? = e.phs[x]? := by
  obtain ⟨⟨ps, hps⟩, -, -⟩ := later_keeps h
  rw [← hps, List.getElem?_append_left hx]

/-- **C76.** Different applications return different placeholders. -/
theorem application_unique {i j x : Nat} {ins' : List Nat} (h : WasApplied e i ins x) (h' : WasApplied e j ins' x) : i = j ∧ ins = ins' := by
  obtain ⟨c, h1, h2, h3⟩ := application_recorded h
  obtain ⟨d, k1, k2, k3⟩ := application_recorded h'
  obtain rfl := Option.some.inj (h1.symm.trans k1)
  exact ⟨h2.symm.trans k2, h3.symm.trans k3⟩

/-- **C13 (proved part).** If a layer was applied to `ins` and returned `x`, and some output of the model is computed from `x`,
the model has exactly one layer with output `x`; its object is the applied one and its inputs are `ins` in order, and the configuration
lists their ids. -/
theorem application_wired_partial {i x : Nat} (ha : WasApplied e i ins x) {mins : List Nat} (ht : SortsCorrectly topo e mins outs)
    (ho : Orderly e outs) (h : modelCtor topo mins outs e = (.ok m, e')) (hx : NeededBy e outs x) :
    ∃ k : Nat, m.layers[k]? = some ⟨i, ins, [x]⟩ ∧ (∃ o, m.cfg.sortedOps[k]? = some o ∧
        o.inIds = ins.map (fun a => (dataId m.sorted a : Int)) ∧ o.outIds = [(dataId m.sorted x : Int)]) ∧
      ∀ (k' : Nat) (l : Layer), m.layers[k']? = some l → x ∈ l.outputs → k' = k := by
  have hr := ha.reachable
  obtain ⟨c, h1, rfl, rfl⟩ := application_recorded ha
  obtain ⟨hnd, hmem, hinf, -⟩ := model_layers_exact hr ht h
  have hlen : m.layers.length = (sortedOps m.sorted).length := by simpa using congrArg List.length hinf
  have hw := wiring_partial hr ht ho h
  have hc : c ∈ sortedOps m.sorted := (hmem c).2 ⟨x, h1, hx⟩
  obtain ⟨k, hk, hkc⟩ := List.getElem_of_mem hc
  have hk? : (sortedOps m.sorted)[k]? = some c := by rw [List.getElem?_eq_getElem hk, hkc]
  obtain ⟨y, hy, hl, o, ho1, ho2, ho3⟩ := hw k c hk?
  obtain rfl := (reachable_wf hr).call_inj y x c hy h1
  refine ⟨k, hl, ⟨o, ho1, ho2, ho3⟩, fun k' l hl' hxl => ?_⟩
  have hk' : k' < (sortedOps m.sorted).length := by
    rw [← hlen]
    by_contra hh
    rw [List.getElem?_eq_none (Nat.le_of_not_lt hh)] at hl'
    cases hl'
  obtain ⟨z, hz, hlz, -⟩ := hw k' _ (List.getElem?_eq_getElem hk')
  rw [hl'] at hlz
  obtain rfl := Option.some.inj hlz
  simp only [List.mem_singleton] at hxl
  subst hxl
  have hcc := Option.some.inj (hz.symm.trans h1)
  exact (List.Nodup.getElem_inj_iff hnd).1 (hcc.trans hkc.symm)

/-- `r = relu(x)`, then `s = Softmax(r)`, and a rejected application of the same object in between. -/
example : ∃ e, WasApplied e 0 [0] 1 ∧ NeededBy e [2] 1 ∧ Orderly e [2] ∧
    (observe (modelCtor (creationOrder e) [0] [2] e) fun m => m.layers) = some [⟨0, [0], [1]⟩, ⟨1, [1], [2]⟩] := by
  have hr : Reachable (Expr.layer .relu "" (Expr.placeholder [4, 2] {}).2).2 := .layer _ _ (.placeholder _ .empty)
  refine ⟨(Expr.makeLayer "Softmax" "" [] [1] (Expr.apply 0 [7] (Expr.apply 0 [0] (Expr.layer .relu "" (Expr.placeholder [4, 2] {}).2).2).2).2).2,
    ⟨_, _, ⟨"", .relu, [], []⟩, hr, rfl, rfl, rfl, .makeLayer _ _ _ _ (.apply _ _ .refl)⟩, ⟨2, by simp, ?_⟩, ⟨by simp, ?_⟩, ?_⟩
  · exact .step (c := 1) (a := 1) (by decide +kernel) (by decide +kernel) (.refl 1)
  · intro x _
    have : ∀ x, ((Expr.makeLayer "Softmax" "" [] [1] (Expr.apply 0 [7] (Expr.apply 0 [0] (Expr.layer .relu "" (Expr.placeholder [4, 2] {}).2).2).2).2).2.argsOf x).length ≤ 1 := by
      intro x
      rcases x with _ | _ | _ | x
      · decide +kernel
      · decide +kernel
      · decide +kernel
      · have : (Expr.makeLayer "Softmax" "" [] [1] (Expr.apply 0 [7] (Expr.apply 0 [0] (Expr.layer .relu "" (Expr.placeholder [4, 2] {}).2).2).2).2).2.phs.length = 3 := by decide +kernel
        rw [argsOf_none]
        · simp
        · unfold Expr.callOf
          rw [List.getElem?_eq_none (by omega)]
          rfl
    match h : Expr.argsOf _ x, this x with
    | [], _ => exact List.Pairwise.nil
    | [a], _ => exact List.pairwise_singleton _ _
  · decide +kernel

end DW.Props.AppliedP
