import Verif.Lemmas.Graph
/-!
# Expression states reachable with the API are well formed
-/

set_option autoImplicit false

namespace DW

open DW.Spec

namespace GraphL

theorem initLayer_frame (i : Nat) (shs : List Shape) (e : Expr) :
    (Expr.initLayer i shs e).2.phs = e.phs ∧ (Expr.initLayer i shs e).2.calls = e.calls ∧
    (Expr.initLayer i shs e).2.infos.length = e.infos.length := by
  unfold Expr.initLayer
  split
  · exact ⟨rfl, rfl, rfl⟩
  · split
    · exact ⟨rfl, rfl, rfl⟩
    · exact ⟨rfl, rfl, rfl⟩
    · exact ⟨rfl, rfl, by simp⟩

theorem shapes_lt {e : Expr} {args : List Nat} {shs : List Shape} (h : e.shapes args = .ok shs) :
    ∀ a ∈ args, a < e.phs.length := by
  intro a ha
  obtain ⟨k, hk, rfl⟩ := List.getElem_of_mem ha
  have hl := Out.mapM_ok_length h
  have := Out.mapM_ok_getElem h k hk (by omega)
  by_contra hc
  simp [Out.idx_of_ge (Nat.le_of_not_lt hc)] at this

theorem apply_cases (i : Nat) (ins : List Nat) (e : Expr) :
    let r := Expr.apply i ins e
    r.2.infos.length = e.infos.length ∧
    ((r.2.phs = e.phs ∧ r.2.calls = e.calls) ∨
     ∃ args out, r.1 = .ok e.phs.length ∧ r.2.phs = e.phs ++ [⟨out, some e.calls.length⟩] ∧
       r.2.calls = e.calls ++ [⟨i, args⟩] ∧ i < e.infos.length ∧ ∀ a ∈ args, a < e.phs.length) := by
  intro r
  have hr : r = Expr.apply i ins e := rfl
  unfold Expr.apply at hr
  simp only [M.bind_apply, M.get_apply, M.lift_apply] at hr
  cases hinf : Out.idx e.infos i with
  | throw x => simp only [hinf] at hr; rw [hr]; exact ⟨rfl, .inl ⟨rfl, rfl⟩⟩
  | ub x => simp only [hinf] at hr; rw [hr]; exact ⟨rfl, .inl ⟨rfl, rfl⟩⟩
  | ok inf =>
    have hi : i < e.infos.length := by
      by_contra hc
      simp [Out.idx_of_ge (Nat.le_of_not_lt hc)] at hinf
    simp only [hinf] at hr
    cases hargs : (List.range inf.op.numIn).mapM fun k => Out.idx ins k with
    | throw x => simp only [hargs] at hr; rw [hr]; exact ⟨rfl, .inl ⟨rfl, rfl⟩⟩
    | ub x => simp only [hargs] at hr; rw [hr]; exact ⟨rfl, .inl ⟨rfl, rfl⟩⟩
    | ok args =>
      simp only [hargs] at hr
      cases hs : e.shapes args with
      | throw x => simp only [hs] at hr; rw [hr]; exact ⟨rfl, .inl ⟨rfl, rfl⟩⟩
      | ub x => simp only [hs] at hr; rw [hr]; exact ⟨rfl, .inl ⟨rfl, rfl⟩⟩
      | ok shs =>
        simp only [hs] at hr
        obtain ⟨f1, f2, f3⟩ := initLayer_frame i shs e
        rcases hil : Expr.initLayer i shs e with ⟨o, e'⟩
        rw [hil] at f1 f2 f3
        cases o with
        | throw x => simp only [hil] at hr; rw [hr]; exact ⟨f3, .inl ⟨f1, f2⟩⟩
        | ub x => simp only [hil] at hr; rw [hr]; exact ⟨f3, .inl ⟨f1, f2⟩⟩
        | ok _ =>
          simp only [hil] at hr
          cases ho : outShape inf.op shs with
          | throw x => simp only [ho] at hr; rw [hr]; exact ⟨f3, .inl ⟨f1, f2⟩⟩
          | ub x => simp only [ho] at hr; rw [hr]; exact ⟨f3, .inl ⟨f1, f2⟩⟩
          | ok out =>
            simp only [ho, M.set_apply, M.pure_apply] at hr
            rw [hr]
            refine ⟨f3, .inr ⟨args, out, ?_, ?_, ?_, hi, shapes_lt hs⟩⟩
            · simp only at f1; simp [f1]
            · simp only at f1 f2; simp [f1, f2]
            · simp only at f2; simp [f2]

theorem wf_of_eq {e e' : Expr} (wf : WF e) (h1 : e'.phs = e.phs) (h2 : e'.calls = e.calls)
    (h3 : e.infos.length ≤ e'.infos.length) : WF e' := by
  have hc : ∀ x, e'.callOf x = e.callOf x := fun x => by simp [Expr.callOf, h1]
  have ha : ∀ x, e'.callArgs x = e.callArgs x := fun x => by simp [Expr.callArgs, h2]
  have hi : ∀ x, e'.callInfo x = e.callInfo x := fun x => by simp [Expr.callInfo, h2]
  constructor
  · intro x c; rw [hc, h2]; exact wf.call_lt x c
  · intro x c; rw [hc, ha]; exact wf.arg_lt x c
  · intro x y c; rw [hc, hc]; exact wf.call_inj x y c
  · intro c; rw [hi, h2]; exact fun h => Nat.lt_of_lt_of_le (wf.info_lt c h) h3

theorem wf_placeholder {e : Expr} (wf : WF e) (s : Shape) : WF (Expr.placeholder s e).2 := by
  have hc : ∀ x c, (Expr.placeholder s e).2.callOf x = some c → e.callOf x = some c := by
    intro x c h
    simp only [Expr.placeholder, Expr.callOf] at h ⊢
    rcases Nat.lt_trichotomy x e.phs.length with hx | hx | hx
    · rwa [List.getElem?_append_left hx] at h
    · subst hx; simp at h
    · rw [List.getElem?_append_right (by omega), List.getElem?_eq_none (by simp; omega)] at h
      simp at h
  exact ⟨fun x c h => wf.call_lt x c (hc x c h), fun x c h => wf.arg_lt x c (hc x c h),
    fun x y c h h' => wf.call_inj x y c (hc x c h) (hc y c h'), wf.info_lt⟩

theorem wf_apply {e : Expr} (wf : WF e) (i : Nat) (ins : List Nat) : WF (Expr.apply i ins e).2 := by
  obtain ⟨h3, h | ⟨args, out, -, hp, hcl, hi, ha⟩⟩ := apply_cases i ins e
  · exact wf_of_eq wf h.1 h.2 (Nat.le_of_eq h3.symm)
  · generalize (Expr.apply i ins e).2 = e' at h3 hp hcl ⊢
    have hc : ∀ x c, e'.callOf x = some c →
        (e.callOf x = some c ∧ c < e.calls.length) ∨ (x = e.phs.length ∧ c = e.calls.length) := by
      intro x c h
      simp only [Expr.callOf, hp] at h
      rcases Nat.lt_trichotomy x e.phs.length with hx | hx | hx
      · rw [List.getElem?_append_left hx] at h; exact .inl ⟨h, wf.call_lt x c h⟩
      · subst hx; simp at h; exact .inr ⟨rfl, h.symm⟩
      · rw [List.getElem?_append_right (by omega), List.getElem?_eq_none (by simp; omega)] at h
        simp at h
    have hargs : ∀ c, c < e.calls.length → e'.callArgs c = e.callArgs c := by
      intro c h; simp [Expr.callArgs, hcl, List.getElem?_append_left h]
    have hinfo : ∀ c, c < e.calls.length → e'.callInfo c = e.callInfo c := by
      intro c h; simp [Expr.callInfo, hcl, List.getElem?_append_left h]
    constructor
    · intro x c h
      rw [hcl, List.length_append]
      rcases hc x c h with ⟨_, h⟩ | ⟨_, h⟩ <;> simp <;> omega
    · intro x c h a haa
      rcases hc x c h with ⟨h1, h2⟩ | ⟨rfl, rfl⟩
      · rw [hargs c h2] at haa; exact wf.arg_lt x c h1 a haa
      · simp [Expr.callArgs, hcl] at haa; exact ha a haa
    · intro x y c hx hy
      rcases hc x c hx with ⟨h1, h2⟩ | ⟨rfl, rfl⟩
      · rcases hc y c hy with ⟨h1', h2'⟩ | ⟨_, h2'⟩
        · exact wf.call_inj x y c h1 h1'
        · omega
      · rcases hc y _ hy with ⟨h1', h2'⟩ | ⟨h2', _⟩
        · omega
        · exact h2'.symm
    · intro c h
      rw [h3]
      rw [hcl, List.length_append] at h
      simp at h
      rcases Nat.lt_or_ge c e.calls.length with h' | h'
      · rw [hinfo c h']; exact wf.info_lt c h'
      · have : c = e.calls.length := by omega
        subst this
        simpa [Expr.callInfo, hcl] using hi

theorem wf_layer {e : Expr} (wf : WF e) (op : Op) (name : String) : WF (Expr.layer op name e).2 :=
  wf_of_eq wf rfl rfl (by simp [Expr.layer])

theorem wf_makeLayer {e : Expr} (wf : WF e) (t n : String) (as : Attrs) (ins : List Nat) :
    WF (Expr.makeLayer t n as ins e).2 := by
  unfold Expr.makeLayer
  simp only [M.bind_apply, M.lift_apply]
  cases makeOp t as with
  | throw x => exact wf
  | ub x => exact wf
  | ok op =>
    simp only
    have h := wf_layer wf op n
    have hl : Expr.layer op n e = (.ok e.infos.length, (Expr.layer op n e).2) := rfl
    rw [hl]
    exact wf_apply h _ _

theorem nameOp_frame (e : Expr) (c idx : Nat) :
    (nameOp e c idx).phs = e.phs ∧ (nameOp e c idx).calls = e.calls ∧
    (nameOp e c idx).infos.length = e.infos.length := by
  unfold nameOp
  simp only
  split
  · exact ⟨rfl, rfl, rfl⟩
  · split
    · exact ⟨rfl, rfl, by simp⟩
    · exact ⟨rfl, rfl, rfl⟩

theorem foldl_nameOp_frame (l : List (Nat × Nat)) : ∀ e : Expr,
    (l.foldl (fun e p => nameOp e p.1 p.2) e).phs = e.phs ∧
    (l.foldl (fun e p => nameOp e p.1 p.2) e).calls = e.calls ∧
    (l.foldl (fun e p => nameOp e p.1 p.2) e).infos.length = e.infos.length := by
  induction l with
  | nil => intro e; exact ⟨rfl, rfl, rfl⟩
  | cons p l ih =>
    intro e
    obtain ⟨h1, h2, h3⟩ := ih (nameOp e p.1 p.2)
    obtain ⟨h4, h5, h6⟩ := nameOp_frame e p.1 p.2
    exact ⟨h1.trans h4, h2.trans h5, h3.trans h6⟩

theorem nameOps_frame (e : Expr) (ops : List Nat) :
    (nameOps e ops).phs = e.phs ∧ (nameOps e ops).calls = e.calls ∧
    (nameOps e ops).infos.length = e.infos.length := foldl_nameOp_frame _ e

theorem modelCtor_frame (topo : Graph → List Node) (ins outs : List Nat) (e : Expr) :
    (modelCtor topo ins outs e).2.phs = e.phs ∧ (modelCtor topo ins outs e).2.calls = e.calls ∧
    (modelCtor topo ins outs e).2.infos.length = e.infos.length := by
  unfold modelCtor
  split
  · exact ⟨rfl, rfl, rfl⟩
  · exact ⟨rfl, rfl, rfl⟩
  · simp only
    split <;> exact nameOps_frame _ _

theorem wf_model {e : Expr} (wf : WF e) (topo : Graph → List Node) (ins outs : List Nat) :
    WF (modelCtor topo ins outs e).2 :=
  let ⟨h1, h2, h3⟩ := modelCtor_frame topo ins outs e
  wf_of_eq wf h1 h2 (Nat.le_of_eq h3.symm)

theorem train_frame (m : Model) (mode : Bool) (e : Expr) :
    (m.train mode e).2.phs = e.phs ∧ (m.train mode e).2.calls = e.calls ∧
    (m.train mode e).2.infos.length = e.infos.length := by
  unfold Model.train
  simp only [M.modify_apply]
  generalize m.params = ps
  induction ps generalizing e with
  | nil => exact ⟨rfl, rfl, rfl⟩
  | cons p ps ih =>
    rw [List.foldl_cons]
    cases h : e.infos[p.2.1]? with
    | none => exact ih e
    | some inf =>
      simp only
      obtain ⟨h1, h2, h3⟩ := ih { e with infos := e.infos.set p.2.1 { inf with
        params := inf.params.map fun q => if q.1 = p.2.2 then (q.1, { q.2 with trainable := mode }) else q } }
      exact ⟨h1, h2, h3.trans (by simp)⟩

theorem wf_buildInputs (cfg : Config) : ∀ (ids : List Int) (m : List (Int × Nat)) (e : Expr), WF e →
    WF (buildInputs cfg ids m e).2
  | [], m, e, wf => wf
  | id :: ids, m, e, wf => by
    unfold buildInputs
    simp only [M.bind_apply, M.lift_apply]
    cases Out.at? (cfg.phMap.lookup id) with
    | throw x => exact wf
    | ub x => exact wf
    | ok info =>
      simp only
      have hl : Expr.placeholder info.1 e = (.ok e.phs.length, (Expr.placeholder info.1 e).2) := rfl
      rw [hl]
      exact wf_buildInputs cfg ids _ _ (wf_placeholder wf _)

theorem wf_buildOps : ∀ (ops : List OpInfo) (m : List (Int × Nat)) (e : Expr), WF e →
    WF (buildOps ops m e).2
  | [], m, e, wf => wf
  | op :: ops, m, e, wf => by
    unfold buildOps
    simp only [M.bind_apply, M.lift_apply]
    cases op.inIds.mapM fun id => Out.at? (m.lookup id) with
    | throw x => exact wf
    | ub x => exact wf
    | ok inps =>
      simp only
      cases Out.idx op.outIds 0 with
      | throw x => exact wf
      | ub x => exact wf
      | ok out =>
        simp only
        have h := wf_makeLayer wf op.type op.name op.attrs inps
        rcases hm : Expr.makeLayer op.type op.name op.attrs inps e with ⟨o, e'⟩
        rw [hm] at h
        cases o with
        | throw x => exact h
        | ub x => exact h
        | ok ph => exact wf_buildOps ops _ _ h

theorem wf_buildPlaceholders (cfg : Config) (e : Expr) (wf : WF e) :
    WF (buildPlaceholders cfg e).2 := by
  unfold buildPlaceholders
  simp only [M.bind_apply, M.lift_apply]
  have h := wf_buildInputs cfg cfg.inputIds [] e wf
  rcases hm : buildInputs cfg cfg.inputIds [] e with ⟨o, e'⟩
  rw [hm] at h
  cases o with
  | throw x => exact h
  | ub x => exact h
  | ok m =>
    simp only
    have h := wf_buildOps cfg.sortedOps m e' h
    rcases hm : buildOps cfg.sortedOps m e' with ⟨o, e'⟩
    rw [hm] at h
    cases o with
    | throw x => exact h
    | ub x => exact h
    | ok m =>
      simp only
      cases cfg.inputIds.mapM fun id => Out.at? (m.lookup id) with
      | throw x => exact h
      | ub x => exact h
      | ok i =>
        simp only
        cases cfg.outputIds.mapM fun id => Out.at? (m.lookup id) with
        | throw x => exact h
        | ub x => exact h
        | ok o => exact h

theorem wf_build (topo : Graph → List Node) (cfg : Config) (e : Expr) (wf : WF e) :
    WF (modelBuild topo cfg e).2 := by
  unfold modelBuild
  simp only [M.bind_apply]
  have h := wf_buildPlaceholders cfg e wf
  rcases hm : buildPlaceholders cfg e with ⟨o, e'⟩
  rw [hm] at h
  cases o with
  | throw x => exact h
  | ub x => exact h
  | ok io => exact wf_model h _ _ _

theorem wf_empty : WF {} := by
  constructor
  · intro x c h; simp [Expr.callOf] at h
  · intro x c h; simp [Expr.callOf] at h
  · intro x y c h; simp [Expr.callOf] at h
  · intro c h; simp at h

/-- Every state the API can reach is well formed. -/
theorem reachable_wf {e : Expr} (h : Reachable e) : WF e := by
  induction h with
  | empty => exact wf_empty
  | placeholder s _ ih => exact wf_placeholder ih s
  | layer op n _ ih => exact wf_layer ih op n
  | apply i ins _ ih => exact wf_apply ih i ins
  | makeLayer t n as ins _ ih => exact wf_makeLayer ih t n as ins
  | model topo ins outs _ ih => exact wf_model ih topo ins outs
  | train m mode _ ih =>
    obtain ⟨h1, h2, h3⟩ := train_frame m mode _
    exact wf_of_eq ih h1 h2 (Nat.le_of_eq h3.symm)
  | build topo cfg _ ih => exact wf_build topo cfg _ ih

end GraphL

end DW
