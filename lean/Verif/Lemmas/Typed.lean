import Verif.Lemmas.GraphMore
/-! # Shapes of expressions built with the API -/

set_option autoImplicit false

namespace DW

open DW.Spec

/-- States reachable with basic steps. -/
inductive Basic : Expr → Prop
  | empty : Basic {}
  | placeholder {e} (s : Shape) : Basic e → Basic (Expr.placeholder s e).2
  | layer {e} (op : Op) (name : String) : Basic e → Basic (Expr.layer op name e).2
  | apply {e} (i : Nat) (ins : List Nat) : Basic e → Basic (Expr.apply i ins e).2
  | model {e} (topo : Graph → List Node) (ins outs : List Nat) : Basic e → Basic (modelCtor topo ins outs e).2
  | train {e} (m : Model) (mode : Bool) : Basic e → Basic (m.train mode e).2

namespace GraphL

theorem basic_makeLayer {e : Expr} (h : Basic e) (t n : String) (as : Attrs) (ins : List Nat) :
    Basic (Expr.makeLayer t n as ins e).2 := by
  unfold Expr.makeLayer
  simp only [M.bind_apply, M.lift_apply]
  cases makeOp t as with
  | throw x => exact h
  | ub x => exact h
  | ok op =>
    simp only
    have hl : Expr.layer op n e = (.ok e.infos.length, (Expr.layer op n e).2) := rfl
    rw [hl]
    exact .apply _ _ (.layer op n h)

theorem basic_buildInputs (cfg : Config) : ∀ (ids : List Int) (m : List (Int × Nat)) (e : Expr), Basic e →
    Basic (buildInputs cfg ids m e).2
  | [], m, e, wf => wf
  | id :: ids, m, e, wf => by
    unfold buildInputs
    simp only [M.bind_apply, M.lift_apply]
    cases Out.at? (cfg.phMap.lookup id) with
    | throw x => exact wf
    | ub x => exact wf
    | ok info =>
      simp only
      have hl : Expr.placeholder info.1 e = (.ok e.phs.length, (Expr.placeholder info.1 e).2) := rfl
      rw [hl]
      exact basic_buildInputs cfg ids _ _ (.placeholder _ wf)

theorem basic_buildOps : ∀ (ops : List OpInfo) (m : List (Int × Nat)) (e : Expr), Basic e →
    Basic (buildOps ops m e).2
  | [], m, e, wf => wf
  | op :: ops, m, e, wf => by
    unfold buildOps
    simp only [M.bind_apply, M.lift_apply]
    cases op.inIds.mapM fun id => Out.at? (m.lookup id) with
    | throw x => exact wf
    | ub x => exact wf
    | ok inps =>
      simp only
      cases Out.idx op.outIds 0 with
      | throw x => exact wf
      | ub x => exact wf
      | ok out =>
        simp only
        have h := basic_makeLayer wf op.type op.name op.attrs inps
        rcases hm : Expr.makeLayer op.type op.name op.attrs inps e with ⟨o, e'⟩
        rw [hm] at h
        cases o with
        | throw x => exact h
        | ub x => exact h
        | ok ph => exact basic_buildOps ops _ _ h

theorem basic_build (topo : Graph → List Node) (cfg : Config) (e : Expr) (wf : Basic e) :
    Basic (modelBuild topo cfg e).2 := by
  unfold modelBuild
  simp only [M.bind_apply]
  have h : Basic (buildPlaceholders cfg e).2 := by
    unfold buildPlaceholders
    simp only [M.bind_apply, M.lift_apply]
    have h := basic_buildInputs cfg cfg.inputIds [] e wf
    rcases hm : buildInputs cfg cfg.inputIds [] e with ⟨o, e'⟩
    rw [hm] at h
    cases o with
    | throw x => exact h
    | ub x => exact h
    | ok m =>
      simp only
      have h := basic_buildOps cfg.sortedOps m e' h
      rcases hm : buildOps cfg.sortedOps m e' with ⟨o, e'⟩
      rw [hm] at h
      cases o with
      | throw x => exact h
      | ub x => exact h
      | ok m =>
        simp only
        cases cfg.inputIds.mapM fun id => Out.at? (m.lookup id) with
        | throw x => exact h
        | ub x => exact h
        | ok i =>
          simp only
          cases cfg.outputIds.mapM fun id => Out.at? (m.lookup id) with
          | throw x => exact h
          | ub x => exact h
          | ok o => exact h
  rcases hm : buildPlaceholders cfg e with ⟨o, e'⟩
  rw [hm] at h
  cases o with
  | throw x => exact h
  | ub x => exact h
  | ok io => exact .model _ _ _ h

theorem reachable_basic {e : Expr} (h : Reachable e) : Basic e := by
  induction h with
  | empty => exact .empty
  | placeholder s _ ih => exact .placeholder s ih
  | layer op n _ ih => exact .layer op n ih
  | apply i ins _ ih => exact .apply i ins ih
  | makeLayer t n as ins _ ih => exact basic_makeLayer ih t n as ins
  | model topo ins outs _ ih => exact .model topo ins outs ih
  | train m mode _ ih => exact .train m mode ih
  | build topo cfg _ ih => exact basic_build topo cfg _ ih

/-- The constructor arguments of a layer object. -/
def opOf (e : Expr) (i : Nat) : Option Op := (e.infos[i]?).map InfoImpl.op

/-- The result of an application has the shape the layer computes from those of its arguments, and `init` succeeded. -/
structure WellTyped (e : Expr) (x c : Nat) : Prop where
  op : ∃ op, opOf e (e.callInfo c) = some op ∧ (e.callArgs c).length = op.numIn ∧
    outShape op ((e.callArgs c).map (phShape e)) = .ok (phShape e x) ∧ ∃ ps bs, initEntries op ((e.callArgs c).map (phShape e)) = .ok (ps, bs)
  lt : ∀ a ∈ e.callArgs c, a < e.phs.length

def Typed (e : Expr) : Prop := ∀ x c, e.callOf x = some c → WellTyped e x c

theorem shapes_eq {e : Expr} {args : List Nat} {shs : List Shape} (h : e.shapes args = .ok shs) : shs = args.map (phShape e) := by
  have hl := Out.mapM_ok_length h
  refine List.ext_getElem (by rw [hl, List.length_map]) fun k h1 h2 => ?_
  have hk : k < args.length := by simpa using h2
  have := Out.mapM_ok_getElem h k hk h1
  have hlt := shapes_lt h args[k] (List.getElem_mem hk)
  simp only [Out.idx, List.getElem?_eq_getElem hlt, Out.bind_ok, Out.pure_def, Out.ok.injEq] at this
  simp [phShape, List.getElem?_eq_getElem hlt, this]

theorem typed_congr {e e' : Expr} (h : Typed e) (hp : e'.phs = e.phs) (hc : e'.calls = e.calls) (ho : ∀ i, opOf e' i = opOf e i) :
    Typed e' := by
  intro x c hx
  have h1 : e'.callOf x = e.callOf x := by simp [Expr.callOf, hp]
  have h2 : e'.callArgs c = e.callArgs c := by simp [Expr.callArgs, hc]
  have h3 : e'.callInfo c = e.callInfo c := by simp [Expr.callInfo, hc]
  have h4 : phShape e' = phShape e := by funext y; simp [phShape, hp]
  rw [h1] at hx
  obtain ⟨a, b⟩ := h x c hx
  exact ⟨by rw [h2, h3, h4, ho]; exact a, by rw [h2, hp]; exact b⟩

theorem typed_extend {e e' : Expr} (wf : WF e) (h : Typed e) {p : List PhImpl} {q : List CallImpl} (hp : e'.phs = e.phs ++ p) (hc : e'.calls = e.calls ++ q)
    (ho : ∀ i, i < e.infos.length → opOf e' i = opOf e i) {x c : Nat} (hx : e.callOf x = some c) : WellTyped e' x c := by
  obtain ⟨⟨op, h1, h2, h3, h4⟩, h5⟩ := h x c hx
  have hcl := wf.call_lt x c hx
  have e2 : e'.callArgs c = e.callArgs c := by simp [Expr.callArgs, hc, List.getElem?_append_left hcl]
  have e3 : e'.callInfo c = e.callInfo c := by simp [Expr.callInfo, hc, List.getElem?_append_left hcl]
  have e4 : ∀ y, y < e.phs.length → phShape e' y = phShape e y := fun y hy => by simp [phShape, hp, List.getElem?_append_left hy]
  have hxl : x < e.phs.length := by
    by_contra hn
    simp [Expr.callOf, List.getElem?_eq_none (Nat.le_of_not_lt hn)] at hx
  have e5 : (e.callArgs c).map (phShape e') = (e.callArgs c).map (phShape e) := List.map_congr_left fun a ha => e4 a (h5 a ha)
  refine ⟨⟨op, ?_, ?_, ?_, ?_⟩, ?_⟩
  · rw [e3, ho _ (wf.info_lt c hcl)]; exact h1
  · rw [e2]; exact h2
  · rw [e2, e5, e4 x hxl]; exact h3
  · rw [e2, e5]; exact h4
  · rw [e2, hp]
    intro a ha
    have := h5 a ha
    simp; omega

theorem initLayer_op (i : Nat) (shs : List Shape) (e : Expr) (j : Nat) : opOf (Expr.initLayer i shs e).2 j = opOf e j := by
  unfold Expr.initLayer
  split
  · rfl
  · next inf hinf =>
    split
    · rfl
    · rfl
    · simp only [opOf]
      by_cases hij : i = j
      · subst hij
        rw [List.getElem?_set_self (List.getElem?_eq_some_iff.1 hinf).1, hinf]
        rfl
      · rw [List.getElem?_set_ne hij]

theorem initLayer_entries {i : Nat} {shs : List Shape} {e e' : Expr} {inf : InfoImpl} (hinf : e.infos[i]? = some inf)
    (h : Expr.initLayer i shs e = (.ok (), e')) : ∃ ps bs, initEntries inf.op shs = .ok (ps, bs) := by
  unfold Expr.initLayer at h
  simp only [hinf] at h
  cases hie : initEntries inf.op shs with
  | throw x => simp [hie] at h
  | ub x => simp [hie] at h
  | ok pb => exact ⟨pb.1, pb.2, rfl⟩

theorem typed_apply {e : Expr} (wf : WF e) (ht : Typed e) (i : Nat) (ins : List Nat) : Typed (Expr.apply i ins e).2 := by
  unfold Expr.apply
  simp only [M.bind_apply, M.get_apply, M.lift_apply]
  cases hinf : Out.idx e.infos i with
  | throw x => exact ht
  | ub x => exact ht
  | ok inf =>
    have hinf' : e.infos[i]? = some inf := by
      unfold Out.idx at hinf
      cases h : e.infos[i]? with
      | none => simp [h] at hinf
      | some a => simpa [h] using hinf
    simp only
    cases hargs : (List.range inf.op.numIn).mapM fun k => Out.idx ins k with
    | throw x => exact ht
    | ub x => exact ht
    | ok args =>
      simp only
      cases hs : e.shapes args with
      | throw x => exact ht
      | ub x => exact ht
      | ok shs =>
        simp only
        have hl : args.length = inf.op.numIn := by
          rw [Out.mapM_ok_length hargs, List.length_range]
        have hfr := initLayer_frame i shs e
        have hop := initLayer_op i shs e
        rcases hil : Expr.initLayer i shs e with ⟨o, e'⟩
        rw [hil] at hfr hop
        simp only at hfr hop
        cases o with
        | throw x => exact typed_congr ht hfr.1 hfr.2.1 hop
        | ub x => exact typed_congr ht hfr.1 hfr.2.1 hop
        | ok _ =>
          simp only
          cases ho : outShape inf.op shs with
          | throw x => exact typed_congr ht hfr.1 hfr.2.1 hop
          | ub x => exact typed_congr ht hfr.1 hfr.2.1 hop
          | ok out =>
            simp only [M.set_apply, M.pure_apply]
            intro x c hx
            have hlt := shapes_lt hs
            obtain rfl := shapes_eq hs
            simp only [Expr.callOf, hfr.1, hfr.2.1] at hx
            rcases Nat.lt_trichotomy x e.phs.length with hx' | hx' | hx'
            · rw [List.getElem?_append_left hx'] at hx
              exact typed_extend (e' := { e' with calls := e'.calls ++ [⟨i, args⟩], phs := e'.phs ++ [⟨out, some e'.calls.length⟩] }) wf ht
                (p := [⟨out, some e.calls.length⟩]) (q := [⟨i, args⟩]) (by simp only [hfr.1, hfr.2.1])
                (by simp only [hfr.2.1]) (fun j _ => hop j) hx
            · subst hx'
              simp at hx
              subst hx
              have q2 : ∀ y, y < e.phs.length → phShape { e' with calls := e'.calls ++ [⟨i, args⟩], phs := e'.phs ++ [⟨out, some e'.calls.length⟩] } y = phShape e y := fun y hy => by
                simp [phShape, hfr.1, List.getElem?_append_left hy]
              have q1 : args.map (phShape { e' with calls := e'.calls ++ [⟨i, args⟩], phs := e'.phs ++ [⟨out, some e'.calls.length⟩] }) = args.map (phShape e) :=
                List.map_congr_left fun a ha => q2 a (hlt a ha)
              have q3 : Expr.callArgs { e' with calls := e'.calls ++ [⟨i, args⟩], phs := e'.phs ++ [⟨out, some e'.calls.length⟩] } e.calls.length = args := by
                simp [Expr.callArgs, hfr.2.1]
              have q4 : Expr.callInfo { e' with calls := e'.calls ++ [⟨i, args⟩], phs := e'.phs ++ [⟨out, some e'.calls.length⟩] } e.calls.length = i := by
                simp [Expr.callInfo, hfr.2.1]
              have q5 : phShape { e' with calls := e'.calls ++ [⟨i, args⟩], phs := e'.phs ++ [⟨out, some e'.calls.length⟩] } e.phs.length = out := by
                simp [phShape, hfr.1]
              refine ⟨⟨inf.op, ?_, ?_, ?_, ?_⟩, ?_⟩
              · rw [q4]
                exact (hop i).trans (by simp [opOf, hinf'])
              · rw [q3]; exact hl
              · rw [q3, q1, q5]; exact ho
              · rw [q3, q1]; exact initLayer_entries hinf' hil
              · rw [q3]
                intro a ha
                have := hlt a ha
                simp [hfr.1]; omega
            · rw [List.getElem?_append_right (by omega), List.getElem?_eq_none (by simp; omega)] at hx
              simp at hx

theorem sig_op {e e' : Expr} {i : Nat} (h : sig e' i = sig e i) : opOf e' i = opOf e i := by
  have := congrArg (Option.map Prod.fst) h
  simp only [sig, Option.map_map] at this
  exact this

/-- Shapes are as the layers compute them. -/
theorem reachable_typed {e : Expr} (h : Reachable e) : Typed e := by
  have hwf : ∀ e, Basic e → WF e := fun e h => by
    induction h with
    | empty => exact wf_empty
    | placeholder s _ ih => exact wf_placeholder ih s
    | layer op n _ ih => exact wf_layer ih op n
    | apply i ins _ ih => exact wf_apply ih i ins
    | model topo ins outs _ ih => exact wf_model ih topo ins outs
    | train m mode _ ih =>
      obtain ⟨h1, h2, h3⟩ := train_frame m mode _
      exact wf_of_eq ih h1 h2 (Nat.le_of_eq h3.symm)
  have := reachable_basic h
  clear h
  induction this with
  | empty => intro x c hx; simp [Expr.callOf] at hx
  | @placeholder e s h ih =>
    intro x c hx
    have hx' : e.callOf x = some c := by
      simp only [Expr.placeholder, Expr.callOf] at hx ⊢
      rcases Nat.lt_trichotomy x e.phs.length with hx' | hx' | hx'
      · rwa [List.getElem?_append_left hx'] at hx
      · subst hx'; simp at hx
      · rw [List.getElem?_append_right (by omega), List.getElem?_eq_none (by simp; omega)] at hx
        simp at hx
    exact typed_extend (e' := (Expr.placeholder s e).2) (hwf e h) ih (p := [⟨s, none⟩]) (q := []) rfl (by simp [Expr.placeholder]) (fun _ _ => rfl) hx'
  | @layer e op n h ih =>
    intro x c hx
    exact typed_extend (e' := (Expr.layer op n e).2) (hwf e h) ih (p := []) (q := []) (by simp [Expr.layer]) (by simp [Expr.layer])
      (fun i hi => by simp [opOf, Expr.layer, List.getElem?_append_left hi]) hx
  | @apply e i ins h ih => exact typed_apply (hwf e h) ih i ins
  | model topo ins outs _ ih =>
    obtain ⟨h1, h2, -⟩ := modelCtor_frame topo ins outs _
    exact typed_congr ih h1 h2 fun i => sig_op (model_sig topo ins outs _ i)
  | train m mode _ ih =>
    obtain ⟨h1, h2, -⟩ := train_frame m mode _
    exact typed_congr ih h1 h2 fun i => sig_op (train_sig m mode _ i)

end GraphL

end DW
