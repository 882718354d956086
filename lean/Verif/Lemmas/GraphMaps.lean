import Verif.Lemmas.GraphModel
/-!
# Lemmas on parameter names, keys and the maps of a model
-/

set_option autoImplicit false

namespace DW

open DW.Spec

namespace GraphL

/-! ### Parameter and buffer names of reachable layers -/

def sig (e : Expr) (i : Nat) : Option (Op × List String × List String) :=
  (e.infos[i]?).map fun inf => (inf.op, inf.params.map Prod.fst, inf.buffers.map Prod.fst)

structure Named (e : Expr) : Prop where
  all : ∀ i s, sig e i = some s → s.2 = ([], []) ∨ s.2 = (paramNames s.1, bufferNames s.1)
  used : ∀ c, c < e.calls.length → ∀ s, sig e (e.callInfo c) = some s →
    s.2 = (paramNames s.1, bufferNames s.1)

theorem named_of_eq {e e' : Expr} (h : Named e) (h1 : ∀ i, sig e' i = sig e i)
    (h2 : e'.calls = e.calls) : Named e' := by
  have hi : ∀ x, e'.callInfo x = e.callInfo x := fun x => by simp [Expr.callInfo, h2]
  refine ⟨fun i s hs => h.all i s (by rw [← h1]; exact hs), fun c hc s hs => ?_⟩
  rw [h2] at hc
  rw [hi, h1] at hs
  exact h.used c hc s hs

theorem initEntries_names {op : Op} {shs : List Shape} {ps bs : List (String × Shape)}
    (hl : shs.length = op.numIn) (h : initEntries op shs = .ok (ps, bs)) :
    ps.map Prod.fst = paramNames op ∧ bs.map Prod.fst = bufferNames op := by
  rcases shs with _ | ⟨s, _ | ⟨t, r⟩⟩ <;> cases op <;> simp [Op.numIn] at hl <;>
    simp only [initEntries, Out.bind_eq_ok, Out.pure_def, Out.ok.injEq, Prod.mk.injEq] at h
  case cons.nil.linear =>
    cases s with
    | nil => simp at h
    | cons a s =>
      simp only [Out.bind_eq_ok, Out.ok.injEq, Prod.mk.injEq] at h
      obtain ⟨_, _, _, _, _, _, rfl, rfl⟩ := h; exact ⟨rfl, rfl⟩
  all_goals first
    | (obtain ⟨rfl, rfl⟩ := h; exact ⟨rfl, rfl⟩)
    | (obtain ⟨_, _, _, _, rfl, rfl⟩ := h; exact ⟨rfl, rfl⟩)
    | (obtain ⟨_, _, _, _, _, _, rfl, rfl⟩ := h; exact ⟨rfl, rfl⟩)
    | (obtain ⟨_, _, rfl, rfl⟩ := h; exact ⟨rfl, rfl⟩)

theorem lookup_isSome_iff {β : Type} (m : List (String × β)) (k : String) :
    (m.lookup k).isSome ↔ k ∈ m.map Prod.fst := by
  induction m with
  | nil => simp
  | cons p m ih =>
    obtain ⟨a, b⟩ := p
    rw [List.lookup_cons]
    by_cases h : k = a
    · simp [h]
    · have : (k == a) = false := by simpa using h
      simp [this, ih, h]

theorem emplace_new {β : Type} {m : List (String × β)} {k : String} {v : β}
    (h : k ∉ m.map Prod.fst) : emplace m k v = m ++ [(k, v)] := by
  unfold emplace
  rw [if_neg (by rw [lookup_isSome_iff]; exact h)]

theorem emplace_old {β : Type} {m : List (String × β)} {k : String} {v : β}
    (h : k ∈ m.map Prod.fst) : emplace m k v = m := by
  unfold emplace
  rw [if_pos (by rw [lookup_isSome_iff]; exact h)]

theorem foldl_emplace_old {α β : Type} (key : α → String) (val : α → β) (m : List (String × β)) :
    ∀ l : List α, (∀ a ∈ l, key a ∈ m.map Prod.fst) →
    l.foldl (fun m a => emplace m (key a) (val a)) m = m
  | [], _ => rfl
  | a :: l, h => by
    rw [List.foldl_cons, emplace_old (h a (by simp))]
    exact foldl_emplace_old key val m l fun b hb => h b (by simp [hb])

theorem foldl_emplace_new {α β : Type} (key : α → String) (val : α → β) :
    ∀ (l : List α) (m : List (String × β)), (l.map key).Nodup →
    (∀ a ∈ l, key a ∉ m.map Prod.fst) →
    l.foldl (fun m a => emplace m (key a) (val a)) m = m ++ l.map fun a => (key a, val a)
  | [], m, _, _ => by simp
  | a :: l, m, hn, h => by
    rw [List.map_cons, List.nodup_cons] at hn
    rw [List.foldl_cons, emplace_new (h a (by simp)), foldl_emplace_new key val l _ hn.2]
    · simp
    · intro b hb hm
      simp only [List.map_append, List.map_cons, List.map_nil, List.mem_append, List.mem_singleton] at hm
      rcases hm with hm | hm
      · exact h b (by simp [hb]) hm
      · exact hn.1 (hm ▸ List.mem_map_of_mem hb)

theorem paramNames_nodup (op : Op) : (paramNames op).Nodup := by
  cases op <;> simp [paramNames]
theorem bufferNames_nodup (op : Op) : (bufferNames op).Nodup := by
  cases op <;> simp [bufferNames]
theorem names_disjoint (op : Op) : ∀ p ∈ paramNames op, p ∉ bufferNames op := by
  cases op <;> simp [paramNames, bufferNames]
theorem paramNames_dotless (op : Op) : ∀ p ∈ paramNames op, '.' ∉ p.toList := by
  cases op <;> simp [paramNames]
theorem bufferNames_dotless (op : Op) : ∀ p ∈ bufferNames op, '.' ∉ p.toList := by
  cases op <;> simp [bufferNames]

theorem emplace_keys {β : Type} (val : String × Shape → β) (m : List (String × β))
    (ps : List (String × Shape)) (names : List String) (hp : ps.map Prod.fst = names)
    (hn : names.Nodup) (hm : m.map Prod.fst = [] ∨ m.map Prod.fst = names) :
    (ps.foldl (fun m p => emplace m p.1 (val p)) m).map Prod.fst = names := by
  rcases hm with hm | hm
  · have : m = [] := by simpa using hm
    subst this
    rw [foldl_emplace_new Prod.fst val ps [] (by rw [hp]; exact hn) (by simp)]
    simpa [Function.comp_def] using hp
  · rw [foldl_emplace_old Prod.fst val m ps (by
      intro a ha; rw [hm, ← hp]; exact List.mem_map_of_mem ha), hm]

theorem initLayer_sig {e e' : Expr} (h : Named e) {i : Nat} {inf : InfoImpl} {shs : List Shape}
    (hinf : e.infos[i]? = some inf) (hl : shs.length = inf.op.numIn)
    (hi : Expr.initLayer i shs e = (.ok (), e')) :
    (∀ j, j ≠ i → sig e' j = sig e j) ∧
    sig e' i = some (inf.op, paramNames inf.op, bufferNames inf.op) := by
  unfold Expr.initLayer at hi
  rw [hinf] at hi
  simp only at hi
  cases hie : initEntries inf.op shs with
  | throw x => simp [hie] at hi
  | ub x => simp [hie] at hi
  | ok pb =>
    obtain ⟨ps, bs⟩ := pb
    obtain ⟨hps, hbs⟩ := initEntries_names hl hie
    simp only [hie, Prod.mk.injEq, true_and] at hi
    have hall := h.all i _ (by simp [sig, hinf]; rfl)
    simp only [Prod.mk.injEq] at hall
    subst hi
    constructor
    · intro j hj
      simp [sig, List.getElem?_set_ne (Ne.symm hj)]
    · have hlt : i < e.infos.length := by
        by_contra hc; rw [List.getElem?_eq_none (by omega)] at hinf; simp at hinf
      simp only [sig, List.getElem?_set_self hlt, Option.map_some, Option.some.injEq, Prod.mk.injEq,
        true_and]
      refine ⟨emplace_keys _ _ _ _ hps (paramNames_nodup _) ?_,
        emplace_keys _ _ _ _ hbs (bufferNames_nodup _) ?_⟩
      · rcases hall with ⟨h, _⟩ | ⟨h, _⟩
        · exact .inl h
        · exact .inr h
      · rcases hall with ⟨_, h⟩ | ⟨_, h⟩
        · exact .inl h
        · exact .inr h

theorem initLayer_fail {e : Expr} (i : Nat) (shs : List Shape)
    (h : (Expr.initLayer i shs e).1 ≠ .ok ()) : (Expr.initLayer i shs e).2 = e := by
  unfold Expr.initLayer at h ⊢
  cases hinf : e.infos[i]? with
  | none => rfl
  | some inf =>
    simp only [hinf] at h ⊢
    cases hie : initEntries inf.op shs with
    | throw x => rfl
    | ub x => rfl
    | ok pb => obtain ⟨ps, bs⟩ := pb; simp [hie] at h

theorem named_of_sig {e e' : Expr} (h : Named e) {i : Nat} {op : Op}
    (h1 : ∀ j, j ≠ i → sig e' j = sig e j)
    (h2 : sig e' i = some (op, paramNames op, bufferNames op))
    (h3 : ∀ c, c < e'.calls.length → (c < e.calls.length ∧ e'.callInfo c = e.callInfo c) ∨
      e'.callInfo c = i) : Named e' := by
  constructor
  · intro j s hs
    by_cases hj : j = i
    · subst hj
      rw [h2, Option.some.injEq] at hs
      subst hs
      exact .inr rfl
    · rw [h1 j hj] at hs; exact h.all j s hs
  · intro c hc s hs
    by_cases hj : e'.callInfo c = i
    · rw [hj, h2, Option.some.injEq] at hs
      subst hs; rfl
    · rcases h3 c hc with ⟨h4, h5⟩ | h4
      · rw [h1 _ hj, h5] at hs; exact h.used c h4 s hs
      · exact absurd h4 hj

theorem named_apply {e : Expr} (wf : WF e) (hn : Named e) (i : Nat) (ins : List Nat) :
    Named (Expr.apply i ins e).2 := by
  unfold Expr.apply
  simp only [M.bind_apply, M.get_apply, M.lift_apply]
  cases hinf : Out.idx e.infos i with
  | throw x => exact hn
  | ub x => exact hn
  | ok inf =>
    have hinf' : e.infos[i]? = some inf := by
      unfold Out.idx at hinf
      cases h : e.infos[i]? with
      | none => simp [h] at hinf
      | some a => simpa [h] using hinf
    simp only
    cases hargs : (List.range inf.op.numIn).mapM fun k => Out.idx ins k with
    | throw x => exact hn
    | ub x => exact hn
    | ok args =>
      simp only
      cases hs : e.shapes args with
      | throw x => exact hn
      | ub x => exact hn
      | ok shs =>
        simp only
        have hl : shs.length = inf.op.numIn := by
          rw [Out.mapM_ok_length hs, Out.mapM_ok_length hargs, List.length_range]
        have hfr := initLayer_frame i shs e
        have hfail := initLayer_fail (e := e) i shs
        rcases hil : Expr.initLayer i shs e with ⟨o, e'⟩
        rw [hil] at hfail hfr
        cases o with
        | throw x => simp only at hfail ⊢; rw [hfail (by simp)]; exact hn
        | ub x => simp only at hfail ⊢; rw [hfail (by simp)]; exact hn
        | ok _ =>
          simp only at hfr ⊢
          obtain ⟨s1, s2⟩ := initLayer_sig hn hinf' hl hil
          cases ho : outShape inf.op shs with
          | throw x =>
            exact named_of_sig hn s1 s2 fun c hc => .inl (by
              simp only at hc ⊢
              rw [hfr.2.1] at hc; exact ⟨hc, by simp [Expr.callInfo, hfr.2.1]⟩)
          | ub x =>
            exact named_of_sig hn s1 s2 fun c hc => .inl (by
              simp only at hc ⊢
              rw [hfr.2.1] at hc; exact ⟨hc, by simp [Expr.callInfo, hfr.2.1]⟩)
          | ok out =>
            simp only [M.set_apply, M.pure_apply]
            refine named_of_sig (i := i) (op := inf.op) hn s1 s2 fun c hc => ?_
            simp only [hfr.2.1, List.length_append, List.length_singleton] at hc
            rcases Nat.lt_or_ge c e.calls.length with h | h
            · exact .inl ⟨h, by simp [Expr.callInfo, hfr.2.1, List.getElem?_append_left h]⟩
            · have : c = e.calls.length := by omega
              subst this
              exact .inr (by simp [Expr.callInfo, hfr.2.1])

theorem named_layer {e : Expr} (wf : WF e) (h : Named e) (op : Op) (name : String) :
    Named (Expr.layer op name e).2 := by
  constructor
  · intro i s hs
    simp only [sig, Expr.layer] at hs
    rcases Nat.lt_trichotomy i e.infos.length with hi | hi | hi
    · rw [List.getElem?_append_left hi] at hs
      exact h.all i s hs
    · subst hi
      simp at hs
      subst hs
      exact .inl rfl
    · rw [List.getElem?_append_right (by omega), List.getElem?_eq_none (by simp; omega)] at hs
      simp at hs
  · intro c hc s hs
    have hl := wf.info_lt c hc
    simp only [sig, Expr.layer] at hs
    have hci : Expr.callInfo { e with infos := e.infos ++ [{ name := name, op := op }] } c = e.callInfo c := rfl
    rw [hci, List.getElem?_append_left hl] at hs
    exact h.used c hc s hs

theorem named_makeLayer {e : Expr} (wf : WF e) (h : Named e) (t n : String) (as : Attrs)
    (ins : List Nat) : Named (Expr.makeLayer t n as ins e).2 := by
  unfold Expr.makeLayer
  simp only [M.bind_apply, M.lift_apply]
  cases makeOp t as with
  | throw x => exact h
  | ub x => exact h
  | ok op =>
    simp only
    have hl : Expr.layer op n e = (.ok e.infos.length, (Expr.layer op n e).2) := rfl
    rw [hl]
    exact named_apply (wf_layer wf op n) (named_layer wf h op n) _ _

theorem nameOps_sig (e : Expr) (ops : List Nat) (i : Nat) : sig (nameOps e ops) i = sig e i := by
  unfold sig
  rw [nameOps_infos, Option.map_map]
  congr 1
  funext inf
  simp only [Function.comp]
  split <;> rfl

theorem train_sig (m : Model) (mode : Bool) (e : Expr) (i : Nat) :
    sig (m.train mode e).2 i = sig e i := by
  unfold Model.train
  simp only [M.modify_apply]
  generalize m.params = ps
  induction ps generalizing e with
  | nil => rfl
  | cons p ps ih =>
    rw [List.foldl_cons, ih]
    cases h : e.infos[p.2.1]? with
    | none => rfl
    | some inf =>
      simp only [sig]
      by_cases hi : p.2.1 = i
      · subst hi
        obtain ⟨hlt, hh⟩ := List.getElem?_eq_some_iff.1 h
        rw [List.getElem?_set_self hlt, h]
        simp only [Option.map_some, List.map_map, Option.some.injEq, Prod.mk.injEq, true_and, and_true]
        apply List.map_congr_left
        intro q _
        simp only [Function.comp]
        split <;> rfl
      · rw [List.getElem?_set_ne hi]

theorem model_sig (topo : Graph → List Node) (ins outs : List Nat) (e : Expr) (i : Nat) :
    sig (modelCtor topo ins outs e).2 i = sig e i := by
  unfold modelCtor
  split
  · rfl
  · rfl
  · simp only
    split <;> exact nameOps_sig _ _ _

theorem named_buildInputs (cfg : Config) : ∀ (ids : List Int) (m : List (Int × Nat)) (e : Expr),
    Named e → Named (buildInputs cfg ids m e).2
  | [], m, e, wf => wf
  | id :: ids, m, e, wf => by
    unfold buildInputs
    simp only [M.bind_apply, M.lift_apply]
    cases Out.at? (cfg.phMap.lookup id) with
    | throw x => exact wf
    | ub x => exact wf
    | ok info =>
      simp only
      have hl : Expr.placeholder info.1 e = (.ok e.phs.length, (Expr.placeholder info.1 e).2) := rfl
      rw [hl]
      exact named_buildInputs cfg ids _ _ (named_of_eq wf (fun _ => rfl) rfl)

theorem named_buildOps : ∀ (ops : List OpInfo) (m : List (Int × Nat)) (e : Expr), WF e → Named e →
    Named (buildOps ops m e).2
  | [], m, e, _, wf => wf
  | op :: ops, m, e, wf, hn => by
    unfold buildOps
    simp only [M.bind_apply, M.lift_apply]
    cases op.inIds.mapM fun id => Out.at? (m.lookup id) with
    | throw x => exact hn
    | ub x => exact hn
    | ok inps =>
      simp only
      cases Out.idx op.outIds 0 with
      | throw x => exact hn
      | ub x => exact hn
      | ok out =>
        simp only
        have h := wf_makeLayer wf op.type op.name op.attrs inps
        have h' := named_makeLayer wf hn op.type op.name op.attrs inps
        rcases hm : Expr.makeLayer op.type op.name op.attrs inps e with ⟨o, e'⟩
        rw [hm] at h h'
        cases o with
        | throw x => exact h'
        | ub x => exact h'
        | ok ph => exact named_buildOps ops _ _ h h'

theorem named_build (topo : Graph → List Node) (cfg : Config) (e : Expr) (wf : WF e) (hn : Named e) :
    Named (modelBuild topo cfg e).2 := by
  unfold modelBuild
  simp only [M.bind_apply]
  have h : Named (buildPlaceholders cfg e).2 := by
    unfold buildPlaceholders
    simp only [M.bind_apply, M.lift_apply]
    have h := named_buildInputs cfg cfg.inputIds [] e hn
    have h' := wf_buildInputs cfg cfg.inputIds [] e wf
    rcases hm : buildInputs cfg cfg.inputIds [] e with ⟨o, e'⟩
    rw [hm] at h h'
    cases o with
    | throw x => exact h
    | ub x => exact h
    | ok m =>
      simp only
      have h := named_buildOps cfg.sortedOps m e' h' h
      rcases hm : buildOps cfg.sortedOps m e' with ⟨o, e'⟩
      rw [hm] at h
      cases o with
      | throw x => exact h
      | ub x => exact h
      | ok m =>
        simp only
        cases cfg.inputIds.mapM fun id => Out.at? (m.lookup id) with
        | throw x => exact h
        | ub x => exact h
        | ok i =>
          simp only
          cases cfg.outputIds.mapM fun id => Out.at? (m.lookup id) with
          | throw x => exact h
          | ub x => exact h
          | ok o => exact h
  rcases hm : buildPlaceholders cfg e with ⟨o, e'⟩
  rw [hm] at h
  cases o with
  | throw x => exact h
  | ub x => exact h
  | ok io =>
    exact named_of_eq h (model_sig topo io.1 io.2 e') (modelCtor_frame topo io.1 io.2 e').2.1

theorem reachable_named {e : Expr} (h : Reachable e) : Named e := by
  induction h with
  | empty => exact ⟨fun i s hs => by simp [sig] at hs, fun c hc => by simp at hc⟩
  | placeholder s _ ih => exact named_of_eq ih (fun _ => rfl) rfl
  | layer op n h ih => exact named_layer (reachable_wf h) ih op n
  | apply i ins h ih => exact named_apply (reachable_wf h) ih i ins
  | makeLayer t n as ins h ih => exact named_makeLayer (reachable_wf h) ih t n as ins
  | model topo ins outs _ ih => exact named_of_eq ih (model_sig topo ins outs _) (modelCtor_frame topo ins outs _).2.1
  | train m mode _ ih => exact named_of_eq ih (train_sig m mode _) (train_frame m mode _).2.1
  | build topo cfg h ih => exact named_build topo cfg _ (reachable_wf h) ih

/-! ### Keys -/

/-- The key of a tensor in `params()` / `state()`. -/
def key (layer tensor : String) : String := layer ++ "." ++ tensor

theorem append_sep_inj {α : Type} {d : α} : ∀ {x x' y y' : List α}, d ∉ x → d ∉ x' →
    x ++ d :: y = x' ++ d :: y' → x = x' ∧ y = y'
  | [], [], _, _, _, _, h => by simpa using h
  | [], a :: x', _, _, _, h', h => by
    simp at h
    simp [← h.1] at h'
  | a :: x, [], _, _, h', _, h => by
    simp at h
    simp [h.1] at h'
  | a :: x, b :: x', y, y', h1, h2, h => by
    simp only [List.cons_append, List.cons.injEq] at h
    simp only [List.mem_cons, not_or] at h1 h2
    obtain ⟨h3, h4⟩ := append_sep_inj h1.2 h2.2 h.2
    exact ⟨by rw [h.1, h3], h4⟩

theorem key_inj {n n' p p' : String} (hp : '.' ∉ p.toList) (hp' : '.' ∉ p'.toList)
    (h : key n p = key n' p') : n = n' ∧ p = p' := by
  have h' : n.toList ++ '.' :: p.toList = n'.toList ++ '.' :: p'.toList := by
    have := congrArg String.toList h
    simpa [key, String.toList_append] using this
  have h'' := congrArg List.reverse h'
  simp only [List.reverse_append, List.reverse_cons, List.append_assoc, List.singleton_append] at h''
  obtain ⟨h1, h2⟩ := append_sep_inj (by simpa using hp) (by simpa using hp') h''
  exact ⟨String.toList_inj.1 (List.reverse_injective h2), String.toList_inj.1 (List.reverse_injective h1)⟩

/-! ### The maps -/

variable {e : Expr} {g : Graph}

def paramEntries (e : Expr) (c : Nat) : List (String × Nat × String) :=
  (infoOf e (e.callInfo c)).params.map fun p => (key (opName e c) p.1, e.callInfo c, p.1)

def stateEntries (e : Expr) (c : Nat) : List (String × StateRef) :=
  (infoOf e (e.callInfo c)).params.map (fun p => (key (opName e c) p.1, .param (e.callInfo c) p.1)) ++
  (infoOf e (e.callInfo c)).buffers.map (fun b => (key (opName e c) b.1, .buffer (e.callInfo c) b.1))

/-- Layers whose tensors have distinct names without dots. -/
structure GoodInfo (inf : InfoImpl) : Prop where
  nodup : (inf.params.map Prod.fst ++ inf.buffers.map Prod.fst).Nodup
  dotless : ∀ k ∈ inf.params.map Prod.fst ++ inf.buffers.map Prod.fst, '.' ∉ k.toList

theorem goodInfo_of_named {i : Nat} (h : Named e) : GoodInfo (infoOf e i) := by
  unfold infoOf
  cases hi : e.infos[i]? with
  | none => exact ⟨by simp, by simp⟩
  | some inf =>
    have := h.all i _ (by simp [sig, hi]; rfl)
    simp only [Prod.mk.injEq] at this
    simp only [Option.getD_some]
    rcases this with ⟨h1, h2⟩ | ⟨h1, h2⟩
    · exact ⟨by simp [h1, h2], by simp [h1, h2]⟩
    · refine ⟨?_, ?_⟩
      · rw [h1, h2, List.nodup_append]
        exact ⟨paramNames_nodup _, bufferNames_nodup _, fun a ha b hb heq =>
          names_disjoint _ a ha (heq ▸ hb)⟩
      · rw [h1, h2]
        intro k hk
        rcases List.mem_append.1 hk with hk | hk
        · exact paramNames_dotless _ k hk
        · exact bufferNames_dotless _ k hk

theorem stateEntries_keys (e : Expr) (c : Nat) : (stateEntries e c).map Prod.fst =
    ((infoOf e (e.callInfo c)).params.map Prod.fst ++ (infoOf e (e.callInfo c)).buffers.map Prod.fst).map
      (key (opName e c)) := by
  simp [stateEntries, Function.comp_def]

theorem mem_paramEntries_key {c : Nat} {k : String} (h : k ∈ (paramEntries e c).map Prod.fst) :
    k ∈ (stateEntries e c).map Prod.fst := by
  rw [stateEntries_keys]
  simp only [paramEntries, List.map_map, List.mem_map, Function.comp] at h
  obtain ⟨p, hp, rfl⟩ := h
  simp only [List.map_append, List.map_map, List.mem_append, List.mem_map, Function.comp]
  exact .inl ⟨p, hp, rfl⟩

theorem stateEntries_nodup {c : Nat} (h : GoodInfo (infoOf e (e.callInfo c))) :
    ((stateEntries e c).map Prod.fst).Nodup := by
  rw [stateEntries_keys]
  apply List.Nodup.map_on _ h.nodup
  intro x hx y hy hxy
  exact (key_inj (h.dotless x hx) (h.dotless y hy) hxy).2

theorem stateEntries_disjoint {c d : Nat} (hc : GoodInfo (infoOf e (e.callInfo c)))
    (hd : GoodInfo (infoOf e (e.callInfo d))) (hn : opName e c ≠ opName e d) :
    ∀ k ∈ (stateEntries e c).map Prod.fst, k ∉ (stateEntries e d).map Prod.fst := by
  intro k hk hk'
  rw [stateEntries_keys] at hk hk'
  obtain ⟨x, hx, rfl⟩ := List.mem_map.1 hk
  obtain ⟨y, hy, hxy⟩ := List.mem_map.1 hk'
  exact hn (key_inj (hc.dotless x hx) (hd.dotless y hy) hxy.symm).1

theorem paramFold (n : String) (i : Nat) : ∀ (ps : List (String × Param)) (m : Maps),
    (ps.map fun p => key n p.1).Nodup →
    (∀ p ∈ ps, key n p.1 ∉ m.params.map Prod.fst) → (∀ p ∈ ps, key n p.1 ∉ m.state.map Prod.fst) →
    ps.foldl (fun (m : Maps) p =>
      { m with
        params := emplace m.params (n ++ "." ++ p.1) (i, p.1)
        state := emplace m.state (n ++ "." ++ p.1) (.param i p.1) }) m =
    { m with
      params := m.params ++ ps.map fun p => (key n p.1, i, p.1)
      state := m.state ++ ps.map fun p => (key n p.1, .param i p.1) }
  | [], m, _, _, _ => by simp
  | p :: ps, m, hn, h1, h2 => by
    rw [List.map_cons, List.nodup_cons] at hn
    rw [List.foldl_cons]
    have e1 : emplace m.params (n ++ "." ++ p.1) (i, p.1) = m.params ++ [(key n p.1, i, p.1)] :=
      emplace_new (h1 p (by simp))
    have e2 : emplace m.state (n ++ "." ++ p.1) (StateRef.param i p.1) =
        m.state ++ [(key n p.1, .param i p.1)] := emplace_new (h2 p (by simp))
    rw [e1, e2, paramFold n i ps _ hn.2]
    · simp
    · intro q hq hm
      simp only [List.map_append, List.map_cons, List.map_nil, List.mem_append, List.mem_singleton] at hm
      rcases hm with hm | hm
      · exact h1 q (by simp [hq]) hm
      · exact hn.1 (hm ▸ List.mem_map.2 ⟨q, hq, rfl⟩)
    · intro q hq hm
      simp only [List.map_append, List.map_cons, List.map_nil, List.mem_append, List.mem_singleton] at hm
      rcases hm with hm | hm
      · exact h2 q (by simp [hq]) hm
      · exact hn.1 (hm ▸ List.mem_map.2 ⟨q, hq, rfl⟩)

theorem bufferFold (n : String) (i : Nat) : ∀ (bs : List (String × Shape)) (m : Maps),
    (bs.map fun p => key n p.1).Nodup → (∀ p ∈ bs, key n p.1 ∉ m.state.map Prod.fst) →
    bs.foldl (fun (m : Maps) b =>
      { m with state := emplace m.state (n ++ "." ++ b.1) (.buffer i b.1) }) m =
    { m with state := m.state ++ bs.map fun p => (key n p.1, .buffer i p.1) }
  | [], m, _, _ => by simp
  | p :: ps, m, hn, h2 => by
    rw [List.map_cons, List.nodup_cons] at hn
    rw [List.foldl_cons]
    have e2 : emplace m.state (n ++ "." ++ p.1) (StateRef.buffer i p.1) =
        m.state ++ [(key n p.1, .buffer i p.1)] := emplace_new (h2 p (by simp))
    rw [e2, bufferFold n i ps _ hn.2]
    · simp
    · intro q hq hm
      simp only [List.map_append, List.map_cons, List.map_nil, List.mem_append, List.mem_singleton] at hm
      rcases hm with hm | hm
      · exact h2 q (by simp [hq]) hm
      · exact hn.1 (hm ▸ List.mem_map.2 ⟨q, hq, rfl⟩)

theorem opName_eq (e : Expr) (c : Nat) : opName e c = (infoOf e (e.callInfo c)).name := by
  unfold opName infoOf
  cases e.infos[e.callInfo c]? <;> rfl

theorem lookup_append_new {β : Type} (m : List (String × β)) (k : String) (v : β)
    (h : k ∉ m.map Prod.fst) : (m ++ [(k, v)]).lookup k = some v := by
  induction m with
  | nil => simp
  | cons p m ih =>
    obtain ⟨a, b⟩ := p
    simp only [List.map_cons, List.mem_cons, not_or] at h
    have : (k == a) = false := by simpa using h.1
    simp only [List.cons_append, List.lookup_cons, this]
    exact ih h.2

theorem addLayer_new (m : Maps) (c : Nat) (hg : GoodInfo (infoOf e (e.callInfo c)))
    (hl : opName e c ∉ m.layersMap.map Prod.fst)
    (hs : ∀ k ∈ (stateEntries e c).map Prod.fst, k ∉ m.state.map Prod.fst)
    (hp : ∀ k ∈ (stateEntries e c).map Prod.fst, k ∉ m.params.map Prod.fst) :
    addLayer e g m c =
      { layers := m.layers ++ [mkLayer e g c]
        layersMap := m.layersMap ++ [(opName e c, mkLayer e g c)]
        params := m.params ++ paramEntries e c
        state := m.state ++ stateEntries e c } := by
  have hinfo : (mkLayer e g c).info = e.callInfo c := rfl
  have hnd := stateEntries_nodup hg
  rw [stateEntries_keys, List.map_append, List.nodup_append] at hnd
  obtain ⟨hn1, hn2, hn3⟩ := hnd
  rw [stateEntries_keys] at hs hp
  simp only [List.map_append, List.map_map, List.mem_append] at hs hp
  unfold addLayer
  simp only [hinfo]
  rw [opName_eq] at hl
  rw [emplace_new hl, lookup_append_new _ _ _ hl]
  simp only [Option.getD_some, hinfo]
  rw [paramFold, bufferFold]
  · simp [opName_eq, paramEntries, stateEntries]
  · rw [← opName_eq]; simpa [Function.comp_def] using hn2
  · intro p hp' hm
    rw [← opName_eq] at hm
    simp only [List.map_append, List.mem_append] at hm
    rcases hm with hm | hm
    · exact hs _ (.inr (List.mem_map.2 ⟨p, hp', rfl⟩)) hm
    · simp only [List.map_map, List.mem_map, Function.comp] at hm
      obtain ⟨q, hq, heq⟩ := hm
      exact hn3 _ (by
        simp only [List.map_map, List.mem_map, Function.comp]
        exact ⟨q, hq, rfl⟩) _ (by
        simp only [List.map_map, List.mem_map, Function.comp]
        exact ⟨p, hp', rfl⟩) heq
  · rw [← opName_eq]; simpa [Function.comp_def] using hn1
  · intro p hp' hm
    rw [← opName_eq] at hm
    exact hp _ (.inl (List.mem_map.2 ⟨p, hp', rfl⟩)) hm
  · intro p hp' hm
    rw [← opName_eq] at hm
    exact hs _ (.inl (List.mem_map.2 ⟨p, hp', rfl⟩)) hm

theorem addLayers_eq (hg : ∀ i, GoodInfo (infoOf e i)) : ∀ (ops done : List Nat),
    ((done ++ ops).map (opName e)).Nodup →
    ops.foldl (addLayer e g)
      { layers := done.map (mkLayer e g)
        layersMap := done.map fun c => (opName e c, mkLayer e g c)
        params := done.flatMap (paramEntries e)
        state := done.flatMap (stateEntries e) } =
      { layers := (done ++ ops).map (mkLayer e g)
        layersMap := (done ++ ops).map fun c => (opName e c, mkLayer e g c)
        params := (done ++ ops).flatMap (paramEntries e)
        state := (done ++ ops).flatMap (stateEntries e) }
  | [], done, _ => by simp
  | c :: ops, done, hn => by
    have hne : ∀ d ∈ done, opName e c ≠ opName e d := by
      intro d hd heq
      rw [List.map_append, List.nodup_append] at hn
      exact hn.2.2 _ (List.mem_map_of_mem hd) _ (by simp) heq.symm
    rw [List.foldl_cons, addLayer_new _ c (hg _)]
    · have := addLayers_eq hg ops (done ++ [c]) (by simpa using hn)
      simpa using this
    · simp only [List.map_map, List.mem_map, Function.comp]
      rintro ⟨d, hd, heq⟩
      exact hne d hd heq.symm
    · intro k hk hm
      simp only [List.map_flatMap, List.mem_flatMap] at hm
      obtain ⟨d, hd, hm⟩ := hm
      exact stateEntries_disjoint (hg _) (hg _) (hne d hd) k hk hm
    · intro k hk hm
      simp only [List.map_flatMap, List.mem_flatMap] at hm
      obtain ⟨d, hd, hm⟩ := hm
      exact stateEntries_disjoint (hg _) (hg _) (hne d hd) k hk (mem_paramEntries_key hm)

theorem maps_eq (hg : ∀ i, GoodInfo (infoOf e i)) (ops : List Nat)
    (hn : (ops.map (opName e)).Nodup) :
    ops.foldl (addLayer e g) {} =
      { layers := ops.map (mkLayer e g)
        layersMap := ops.map fun c => (opName e c, mkLayer e g c)
        params := ops.flatMap (paramEntries e)
        state := ops.flatMap (stateEntries e) } := by
  have := addLayers_eq (g := g) hg ops [] (by simpa using hn)
  simpa using this

theorem state_keys_nodup (hg : ∀ i, GoodInfo (infoOf e i)) : ∀ (ops : List Nat),
    (ops.map (opName e)).Nodup → ((ops.flatMap (stateEntries e)).map Prod.fst).Nodup
  | [], _ => by simp
  | c :: ops, hn => by
    rw [List.map_cons, List.nodup_cons] at hn
    rw [List.flatMap_cons, List.map_append, List.nodup_append]
    refine ⟨stateEntries_nodup (hg _), state_keys_nodup hg ops hn.2, ?_⟩
    intro k hk k' hk' heq
    subst heq
    simp only [List.map_flatMap, List.mem_flatMap] at hk'
    obtain ⟨d, hd, hm⟩ := hk'
    refine stateEntries_disjoint (hg _) (hg _) ?_ k hk hm
    intro h
    exact hn.1 (h ▸ List.mem_map_of_mem hd)

end GraphL

end DW
