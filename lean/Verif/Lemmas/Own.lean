import Verif.Lemmas.Rebuild
import Verif.Spec.SaveLoad
/-! # Layers applied once, where they are created -/

set_option autoImplicit false

namespace DW.RebuildL

open DW DW.Spec DW.GraphL

/-- What `make_layer` does: nothing but possibly a new unused layer object, or one application of a new layer object. -/
theorem makeLayer_cases (t n : String) (as : Attrs) (ins : List Nat) (e : Expr) :
    ((Expr.makeLayer t n as ins e).2.phs = e.phs ∧ (Expr.makeLayer t n as ins e).2.calls = e.calls ∧
      ∃ l, (Expr.makeLayer t n as ins e).2.infos = e.infos ++ l) ∨
    ∃ op args out ps bs, args.length = op.numIn ∧ (∀ a ∈ args, a < e.phs.length) ∧
      initEntries op (args.map (phShape e)) = .ok (ps, bs) ∧
      (Expr.makeLayer t n as ins e).2 = ⟨e.phs ++ [⟨out, some e.calls.length⟩], e.calls ++ [⟨e.infos.length, args⟩],
        e.infos ++ [freshInfo op n ps bs]⟩ := by
  cases hop : makeOp t as with
  | throw x => left; unfold Expr.makeLayer; simp only [M.bind_apply, M.lift_apply, hop]; exact ⟨trivial, trivial, [], by simp⟩
  | ub x => left; unfold Expr.makeLayer; simp only [M.bind_apply, M.lift_apply, hop]; exact ⟨trivial, trivial, [], by simp⟩
  | ok op =>
    have hml : Expr.makeLayer t n as ins e = Expr.apply e.infos.length ins ⟨e.phs, e.calls, e.infos ++ [{ name := n, op := op }]⟩ := by
      unfold Expr.makeLayer
      simp only [M.bind_apply, M.lift_apply, hop]
      rfl
    rw [hml]
    generalize he1 : (⟨e.phs, e.calls, e.infos ++ [{ name := n, op := op }]⟩ : Expr) = e1
    have hget : e1.infos[e.infos.length]? = some { name := n, op := op } := by subst he1; simp
    have h0 : e1.phs = e.phs ∧ e1.calls = e.calls ∧ ∃ l, e1.infos = e.infos ++ l := by subst he1; exact ⟨rfl, rfl, _, rfl⟩
    unfold Expr.apply
    have hidx : Out.idx e1.infos e.infos.length = .ok { name := n, op := op } := by simp [Out.idx, hget]
    simp only [M.bind_apply, M.get_apply, M.lift_apply, hidx]
    cases hargs : (List.range op.numIn).mapM fun k => Out.idx ins k with
    | throw x => exact .inl h0
    | ub x => exact .inl h0
    | ok args =>
      simp only
      cases hs : e1.shapes args with
      | throw x => exact .inl h0
      | ub x => exact .inl h0
      | ok shs =>
        simp only
        have hl : args.length = op.numIn := by rw [Out.mapM_ok_length hargs, List.length_range]
        have hlt := shapes_lt hs
        have hsh := shapes_eq hs
        have hph : phShape e1 = phShape e := by funext y; simp [phShape, h0.1]
        rw [hph] at hsh
        rw [h0.1] at hlt
        subst hsh
        cases hie : initEntries op (args.map (phShape e)) with
        | throw x => simp only [Expr.initLayer, hget, hie]; exact .inl h0
        | ub x => simp only [Expr.initLayer, hget, hie]; exact .inl h0
        | ok pb =>
          obtain ⟨ps, bs⟩ := pb
          obtain ⟨hp, hb⟩ := initEntries_names (by rw [List.length_map, hl]) hie
          have q1 : ps.foldl (fun m p => emplace m p.1 ({ shape := p.2 } : Param)) [] = ps.map fun p => (p.1, ({ shape := p.2 } : Param)) := by
            have := foldl_emplace_new (fun p : String × Shape => p.1) (fun p => ({ shape := p.2 } : Param)) ps [] (by
              rw [show ps.map (fun p => p.1) = ps.map Prod.fst from rfl, hp]; exact paramNames_nodup op) (by simp)
            simpa using this
          have q2 : bs.foldl (fun m b => emplace m b.1 b.2) [] = bs := by
            have := foldl_emplace_new (fun p : String × Shape => p.1) (fun p => p.2) bs [] (by
              rw [show bs.map (fun p => p.1) = bs.map Prod.fst from rfl, hb]; exact bufferNames_nodup op) (by simp)
            simpa using this
          have hil : Expr.initLayer e.infos.length (args.map (phShape e)) e1 =
              (.ok (), ⟨e.phs, e.calls, e.infos ++ [freshInfo op n ps bs]⟩) := by
            subst he1
            simp only [Expr.initLayer, hget, hie, q1, q2]
            simp [freshInfo]
          simp only [hil]
          cases ho : outShape op (args.map (phShape e)) with
          | throw x => exact .inl ⟨rfl, rfl, _, rfl⟩
          | ub x => exact .inl ⟨rfl, rfl, _, rfl⟩
          | ok out =>
            right
            exact ⟨op, args, out, ps, bs, hl, hlt, hie, rfl⟩

/-- Operation, parameter shapes and buffers of a layer object. -/
def tens (e : Expr) (i : Nat) : Op × List (String × Shape) × List (String × Shape) :=
  ((infoOf e i).op, (infoOf e i).params.map (fun p => (p.1, p.2.shape)), (infoOf e i).buffers)

def OwnAt (e : Expr) (c : Nat) : Prop :=
  ∀ ps bs, initEntries (tens e (e.callInfo c)).1 ((e.callArgs c).map (phShape e)) = .ok (ps, bs) → (tens e (e.callInfo c)).2 = (ps, bs)

/-- Everything applied so far has its own tensors. -/
def Own (e : Expr) : Prop := ∀ x c, e.callOf x = some c → OwnAt e c

theorem own_extend {e e' : Expr} (wf : WF e) (h : Own e) {p : List PhImpl} {q : List CallImpl} (hp : e'.phs = e.phs ++ p)
    (hc : e'.calls = e.calls ++ q) (ht : ∀ i, i < e.infos.length → tens e' i = tens e i) {x c : Nat} (hx : e.callOf x = some c) :
    OwnAt e' c := by
  have hcl := wf.call_lt x c hx
  have e2 : e'.callArgs c = e.callArgs c := by simp [Expr.callArgs, hc, List.getElem?_append_left hcl]
  have e3 : e'.callInfo c = e.callInfo c := by simp [Expr.callInfo, hc, List.getElem?_append_left hcl]
  have e4 : ∀ y, y < e.phs.length → phShape e' y = phShape e y := fun y hy => by simp [phShape, hp, List.getElem?_append_left hy]
  have e5 : (e.callArgs c).map (phShape e') = (e.callArgs c).map (phShape e) := List.map_congr_left fun a ha =>
    e4 a (Nat.lt_trans (wf.arg_lt x c hx a ha) (callOf_lt hx))
  intro ps bs
  rw [e2, e3, e5, ht _ (wf.info_lt c hcl)]
  exact h x c hx ps bs

theorem own_same {e e' : Expr} (wf : WF e) (h : Own e) (hp : e'.phs = e.phs) (hc : e'.calls = e.calls)
    (ht : ∀ i, i < e.infos.length → tens e' i = tens e i) : Own e' := by
  intro x c hx
  have hx' : e.callOf x = some c := by rw [← hx]; simp [Expr.callOf, hp]
  exact own_extend wf h (p := []) (q := []) (by simpa using hp) (by simpa using hc) ht hx'

theorem tens_append {e e' : Expr} {l : List InfoImpl} (h : e'.infos = e.infos ++ l) (i : Nat) (hi : i < e.infos.length) :
    tens e' i = tens e i := by
  simp [tens, infoOf, h, List.getElem?_append_left hi]

theorem own_placeholder {e : Expr} (wf : WF e) (h : Own e) (s : Shape) : Own (Expr.placeholder s e).2 := by
  intro x c hx
  have hx' : e.callOf x = some c := by
    simp only [Expr.placeholder, Expr.callOf] at hx ⊢
    rcases Nat.lt_trichotomy x e.phs.length with hx' | hx' | hx'
    · rwa [List.getElem?_append_left hx'] at hx
    · subst hx'; simp at hx
    · rw [List.getElem?_append_right (by omega), List.getElem?_eq_none (by simp; omega)] at hx
      simp at hx
  exact own_extend (e' := (Expr.placeholder s e).2) wf h (p := [⟨s, none⟩]) (q := []) rfl (by simp [Expr.placeholder]) (fun _ _ => rfl) hx'

theorem own_makeLayer {e : Expr} (wf : WF e) (h : Own e) (t n : String) (as : Attrs) (ins : List Nat) :
    Own (Expr.makeLayer t n as ins e).2 := by
  rcases makeLayer_cases t n as ins e with ⟨h1, h2, l, h3⟩ | ⟨op, args, out, ps, bs, h1, h2, h3, h4⟩
  · exact own_same wf h h1 h2 (tens_append h3)
  · rw [h4]
    intro x c hx
    rcases Nat.lt_trichotomy x e.phs.length with hx' | hx' | hx'
    · simp only [Expr.callOf, List.getElem?_append_left hx'] at hx
      exact own_extend wf h rfl rfl (tens_append rfl) hx
    · subst hx'
      simp [Expr.callOf] at hx
      subst hx
      intro ps' bs'
      have q1 : args.map (phShape ⟨e.phs ++ [⟨out, some e.calls.length⟩], e.calls ++ [⟨e.infos.length, args⟩],
          e.infos ++ [freshInfo op n ps bs]⟩) = args.map (phShape e) := List.map_congr_left fun a ha => by
        simp [phShape, List.getElem?_append_left (h2 a ha)]
      simp only [Expr.callInfo, Expr.callArgs, List.getElem?_concat_length, Option.map_some, Option.getD_some]
      rw [q1]
      simp only [tens, infoOf, List.getElem?_concat_length, Option.getD_some, freshInfo, h3, Out.ok.injEq, Prod.mk.injEq]
      rintro ⟨rfl, rfl⟩
      simp [Function.comp_def]
    · simp only [Expr.callOf] at hx
      rw [List.getElem?_append_right (by omega), List.getElem?_eq_none (by simp; omega)] at hx
      simp at hx

theorem tens_nameOps (e : Expr) (ops : List Nat) (i : Nat) : tens (nameOps e ops) i = tens e i := by
  unfold tens infoOf
  rw [nameOps_infos]
  cases e.infos[i]? with
  | none => rfl
  | some inf => simp only [Option.map_some, Option.getD_some]; split <;> rfl

theorem own_model {e : Expr} (wf : WF e) (h : Own e) (topo : Graph → List Node) (ins outs : List Nat) :
    Own (modelCtor topo ins outs e).2 := by
  unfold modelCtor
  cases buildGraph e ins outs with
  | throw x => exact h
  | ub x => exact h
  | ok g =>
    have : Own (nameOps e (sortedOps (topo g))) := own_same wf h (nameOps_frame e _).1 (nameOps_frame e _).2.1 fun i _ => tens_nameOps e _ i
    simp only
    split <;> exact this

theorem own_train {e : Expr} (wf : WF e) (h : Own e) (m : Model) (b : Bool) : Own (m.train b e).2 := by
  obtain ⟨h1, h2, -⟩ := train_frame m b e
  refine own_same wf h h1 h2 fun i _ => ?_
  unfold tens infoOf
  rw [train_infos]
  cases e.infos[i]? with
  | none => rfl
  | some inf =>
    simp only [Option.map_some, Option.getD_some, List.map_map]
    congr 2
    apply List.map_congr_left
    intro q _
    simp only [Function.comp]
    split <;> rfl

end DW.RebuildL

namespace DW.Spec

/-- States in which every layer object was applied where it was created, as in `Linear(10)(x)`. -/
inductive Direct : Expr → Prop
  | empty : Direct {}
  | placeholder {e} (s : Shape) : Direct e → Direct (Expr.placeholder s e).2
  | makeLayer {e} (t n : String) (as : Attrs) (ins : List Nat) : Direct e → Direct (Expr.makeLayer t n as ins e).2
  | model {e} (topo : Graph → List Node) (ins outs : List Nat) : Direct e → Direct (modelCtor topo ins outs e).2
  | train {e} (m : Model) (mode : Bool) : Direct e → Direct (m.train mode e).2

end DW.Spec

namespace DW.RebuildL

open DW DW.Spec DW.GraphL

theorem direct_reachable {e : Expr} (h : Direct e) : Reachable e := by
  induction h with
  | empty => exact .empty
  | placeholder s _ ih => exact .placeholder s ih
  | makeLayer t n as ins _ ih => exact .makeLayer t n as ins ih
  | model topo ins outs _ ih => exact .model topo ins outs ih
  | train m b _ ih => exact .train m b ih

/-- In such states every layer has its own tensors. -/
theorem direct_own {e : Expr} (h : Direct e) (outs : List Nat) : OwnTensors e outs := by
  have : Own e := by
    induction h with
    | empty => intro x c hx; simp [Expr.callOf] at hx
    | placeholder s h ih => exact own_placeholder (reachable_wf (direct_reachable h)) ih s
    | makeLayer t n as ins h ih => exact own_makeLayer (reachable_wf (direct_reachable h)) ih t n as ins
    | model topo ins outs h ih => exact own_model (reachable_wf (direct_reachable h)) ih topo ins outs
    | train m b h ih => exact own_train (reachable_wf (direct_reachable h)) ih m b
  rintro c ⟨x, hx, -⟩ ps bs hpb
  have := this x c hx ps bs hpb
  simp only [tens, Prod.mk.injEq] at this
  exact this

end DW.RebuildL
