import Verif.Props.SaveLoad
import Verif.Props.Train
import Verif.Spec.Reload
/-! # The function of a loaded model -/

set_option autoImplicit false

namespace DW.ReloadL

open DW DW.Spec DW.GraphL DW.RenameL DW.RebuildL DW.Props.GraphP DW.Props.SaveLoadP

/-- The same shape and elements. -/
def SameVal {s s' : Shape} (u : Elems s) (u' : Elems s') : Prop := s = s' ∧ List.ofFn u = List.ofFn u'

theorem SameVal.refl {s : Shape} (u : Elems s) : SameVal u u := ⟨rfl, rfl⟩

theorem SameVal.eq {s : Shape} {u u' : Elems s} (h : SameVal u u') : u = u' := List.ofFn_injective h.2

/-! ### Layers -/

section

variable {real : F32 → ℝ} {t t' : InfoTensors}

/-- The tensors of a layer as far as its type asks for them. -/
structure Covers (op : Op) (t t' : InfoTensors) : Prop where
  param : ∀ name ∈ paramNames op, ∀ s vals tr, HasParam t name s vals tr → HasParam t' name s vals tr
  buffer : ∀ name ∈ bufferNames op, ∀ s vals, HasBuffer t name s vals → HasBuffer t' name s vals

theorem computes1_copy {op : Op} {s o : Shape} {P : Nat} {f : (Nat → ℝ) → (Fin P → ℝ) → Elems s → Elems o} {θ : Fin P → ℝ}
    {exact : Prop} (h : Computes1 real t op s o P f θ exact) (hcov : Covers op t t') : Computes1 real t' op s o P f θ exact := by
  have hp := hcov.param
  have hb := hcov.buffer
  cases h with
  | relu => exact .relu _ _
  | leakyReLU => exact .leakyReLU _ _ _
  | elu => exact .elu _ _ _
  | sigmoid => exact .sigmoid _ _
  | softmax hn => exact .softmax hn _
  | linear hne hs hf hc _ hw hbi =>
    exact .linear hne hs hf hc _ (hp _ (by simp [paramNames]) _ _ _ hw) (hp _ (by simp [paramNames]) _ _ _ hbi)
  | batchNorm1D eps alpha heps hn hf _ mu var hg hbe hm hv =>
    exact .batchNorm1D eps alpha heps hn hf _ mu var (hp _ (by simp [paramNames]) _ _ _ hg) (hp _ (by simp [paramNames]) _ _ _ hbe)
      (hb _ (by simp [bufferNames]) _ _ hm) (hb _ (by simp [bufferNames]) _ _ hv)
  | batchNorm1DEval eps alpha heps hn hf _ mu var hpos hg hbe hm hv =>
    exact .batchNorm1DEval eps alpha heps hn hf _ mu var hpos (hp _ (by simp [paramNames]) _ _ _ hg)
      (hp _ (by simp [paramNames]) _ _ _ hbe) (hb _ (by simp [bufferNames]) _ _ hm) (hb _ (by simp [bufferNames]) _ _ hv)
  | batchNorm2D eps alpha heps hC hn hf _ mu var hg hbe hm hv =>
    exact .batchNorm2D eps alpha heps hC hn hf _ mu var (hp _ (by simp [paramNames]) _ _ _ hg) (hp _ (by simp [paramNames]) _ _ _ hbe)
      (hb _ (by simp [bufferNames]) _ _ hm) (hb _ (by simp [bufferNames]) _ _ hv)
  | batchNorm2DEval eps alpha heps hC hn hf _ mu var hpos hg hbe hm hv =>
    exact .batchNorm2DEval eps alpha heps hC hn hf _ mu var hpos (hp _ (by simp [paramNames]) _ _ _ hg)
      (hp _ (by simp [paramNames]) _ _ _ hbe) (hb _ (by simp [bufferNames]) _ _ hm) (hb _ (by simp [bufferNames]) _ _ hv)
  | globalAvgPooling hH hW => exact .globalAvgPooling hH hW _
  | dropout p hp' s m hm => exact .dropout p hp' s m (hp _ (by simp [paramNames]) _ _ _ hm) _
  | dropoutEval p s hs m hm => exact .dropoutEval p s hs m (hp _ (by simp [paramNames]) _ _ _ hm) _
  | convolution ha hb' hf hpos _ hw hbi =>
    exact .convolution ha hb' hf hpos _ (hp _ (by simp [paramNames]) _ _ _ hw) (hp _ (by simp [paramNames]) _ _ _ hbi)
  | maxPooling ha hb' hf hf' => exact .maxPooling ha hb' hf hf' _

theorem computes_copy {op : Op} {n n' : Nat} {ishape : Fin n → Shape} {ishape' : Fin n' → Shape} {o o' : Shape} {P : Nat}
    {f : (Nat → ℝ) → (Fin P → ℝ) → Args ishape → Elems o} {θ : Fin P → ℝ} {exact : Prop}
    (h : Computes real t op ishape o P f θ exact) (hc : Covers op t t') (hn : n' = n)
    (hi : ∀ (j : Fin n) (j' : Fin n'), j.val = j'.val → ishape' j' = ishape j) (ho : o' = o) :
    ∃ f' : (Nat → ℝ) → (Fin P → ℝ) → Args ishape' → Elems o', Computes real t' op ishape' o' P f' θ exact ∧
      ∀ r (X : Args ishape) (X' : Args ishape'), (∀ (j : Fin n) (j' : Fin n'), j.val = j'.val → SameVal (X j) (X' j')) →
        SameVal (f r θ X) (f' r θ X') := by
  subst hn ho
  obtain rfl : ishape' = ishape := funext fun j => hi j j rfl
  refine ⟨f, ?_, fun r X X' hX => ?_⟩
  · cases h with
    | one hn hs ho h => exact .one hn hs ho (computes1_copy h hc)
    | add hn h0 h1 => exact .add hn h0 h1 _
  · obtain rfl : X' = X := funext fun j => (hX j j rfl).eq.symm
    exact .refl _

end

/-! ### The expressions before and after naming -/

section

variable {e E : Expr} {topo : Graph → List Node} {ins outs : List Nat} {m : Model}

theorem named_same (hr : Reachable e) (h : modelCtor topo ins outs e = (.ok m, E)) :
    (∀ x, E.callOf x = e.callOf x) ∧ (∀ c, E.callArgs c = e.callArgs c) ∧ (∀ c, E.callInfo c = e.callInfo c) ∧
      (∀ x, phShape E x = phShape e x) ∧ ∀ i, (infoOf E i).op = (infoOf e i).op := by
  obtain ⟨g, -, -, -, he, -⟩ := ctor_maps hr h
  subst he
  refine ⟨callOf_nameOps e _, callArgs_nameOps e _, callInfo_nameOps e _, fun x => ?_, fun i => ?_⟩
  · unfold phShape
    rw [(nameOps_frame e _).1]
  · have := nameOps_sig e (sortedOps m.sorted) i
    unfold sig at this
    unfold infoOf
    cases h1 : (nameOps e (sortedOps m.sorted)).infos[i]? <;> cases h2 : e.infos[i]? <;> simp_all

/-! ### The tensors of the loaded model -/

theorem iso_before {e₃ : Expr} {m' : Model} {φ ψ : Nat → Nat} (hr : Reachable e) (h : modelCtor topo ins outs e = (.ok m, E))
    (R : Rebuilt E m e₃ m' φ ψ) : Iso e e₃ (· ∈ m.graph.dataNodes) φ ψ := by
  obtain ⟨h1, h2, -⟩ := named_same hr h
  exact ⟨R.iso.inj, fun x hx => by rw [← h1]; exact R.iso.call x hx, fun x c hx hc => by rw [← h2]; exact R.iso.args x c hx (by rw [h1]; exact hc),
    fun x c hx hc a ha => R.iso.closed x c hx (by rw [h1]; exact hc) a (by rw [h2]; exact ha)⟩

theorem covers {e₃ : Expr} {m' : Model} {φ ψ : Nat → Nat} {real : F32 → ℝ} {tensors tensors₃ : Nat → InfoTensors} {d d' : Dict}
    (hr : Reachable e) (h : modelCtor topo ins outs e = (.ok m, E)) (R : Rebuilt E m e₃ m' φ ψ)
    (hown : ∀ c ∈ sortedOps m.sorted, ∀ ps bs,
      initEntries (infoOf E (E.callInfo c)).op ((E.callArgs c).map (phShape E)) = .ok (ps, bs) →
      (infoOf E (E.callInfo c)).params.map (fun p => (p.1, p.2.shape)) = ps ∧ (infoOf E (E.callInfo c)).buffers = bs)
    (hd : StateHolds real m tensors d) (hd' : StateHolds real m' tensors₃ d') (hdd : ∀ k, d'.lookup k = d.lookup k) {mode : Bool}
    {c : Nat} (hc : c ∈ sortedOps m.sorted) (hlt : c < E.calls.length)
    (hm : ∀ name p, (tensors (e.callInfo c)).params.lookup name = some p → p.trainable = mode)
    (hm' : ∀ name p, (tensors₃ (e₃.callInfo (ψ c))).params.lookup name = some p →
      p.trainable = mode ∧ p.grad.shape = p.data.shape ∧ p.grad.vals.length = p.data.vals.length) :
    Covers (infoOf e (e.callInfo c)).op (tensors (e.callInfo c)) (tensors₃ (e₃.callInfo (ψ c))) := by
  obtain ⟨h1, h2, h3, h4, h5⟩ := named_same hr h
  obtain ⟨ps, bs, hi, hfi⟩ := R.info c hc
  obtain ⟨hps, hbs⟩ := hown c hc ps bs hi
  have hrE : Reachable E := by
    have := Reachable.model topo ins outs hr
    rwa [h] at this
  obtain ⟨hpn, hbn⟩ : ps.map Prod.fst = paramNames (infoOf E (E.callInfo c)).op ∧ bs.map Prod.fst = bufferNames (infoOf E (E.callInfo c)).op := by
    have hu := (reachable_named hrE).used c hlt
    have hs := (reachable_wf hrE).info_lt c hlt
    have := hu _ (by unfold sig; rw [List.getElem?_eq_getElem hs]; rfl)
    simp only [Prod.mk.injEq] at this
    have hinf : infoOf E (E.callInfo c) = E.infos[E.callInfo c] := by unfold infoOf; rw [List.getElem?_eq_getElem hs]; rfl
    rw [← hps, ← hbs, hinf, List.map_map]
    exact this
  obtain ⟨topo₃, -, hct⟩ := R.ctor
  obtain ⟨-, -, -, -, -, -, -, -, -, hst, -⟩ := ctor_maps hr h
  obtain ⟨-, -, -, -, -, -, -, -, -, hst₃, -⟩ := ctor_maps R.reach hct
  have hψ : ψ c ∈ sortedOps m'.sorted := R.ops.mem_iff.2 (List.mem_map_of_mem hc)
  have hname : opName e₃ (ψ c) = opName E c := by rw [opName_eq, opName_eq, hfi]; rfl
  have key1 : ∀ name ∈ paramNames (infoOf E (E.callInfo c)).op, (key (opName E c) name, StateRef.param (E.callInfo c) name) ∈ m.state ∧
      (key (opName E c) name, StateRef.param (e₃.callInfo (ψ c)) name) ∈ m'.state := by
    intro name hn
    rw [← hpn, ← hps, List.map_map] at hn
    refine ⟨?_, ?_⟩
    · rw [hst, List.mem_flatMap]
      refine ⟨c, hc, List.mem_append_left _ (List.mem_map.2 ?_)⟩
      obtain ⟨p, hp, rfl⟩ := List.mem_map.1 hn
      exact ⟨p, hp, rfl⟩
    · rw [hst₃, List.mem_flatMap]
      refine ⟨ψ c, hψ, List.mem_append_left _ (List.mem_map.2 ?_)⟩
      obtain ⟨p, hp, rfl⟩ := List.mem_map.1 hn
      rw [hname, hfi]
      have : (p.1, p.2.shape) ∈ ps := by rw [← hps]; exact List.mem_map_of_mem (f := fun p : String × Param => (p.1, p.2.shape)) hp
      refine ⟨_, List.mem_map_of_mem this, rfl⟩
  have key2 : ∀ name ∈ bufferNames (infoOf E (E.callInfo c)).op, (key (opName E c) name, StateRef.buffer (E.callInfo c) name) ∈ m.state ∧
      (key (opName E c) name, StateRef.buffer (e₃.callInfo (ψ c)) name) ∈ m'.state := by
    intro name hn
    rw [← hbn] at hn
    refine ⟨?_, ?_⟩
    · rw [hst, List.mem_flatMap]
      refine ⟨c, hc, List.mem_append_right _ (List.mem_map.2 ?_)⟩
      obtain ⟨p, hp, rfl⟩ := List.mem_map.1 hn
      exact ⟨p, by rw [hbs]; exact hp, rfl⟩
    · rw [hst₃, List.mem_flatMap]
      refine ⟨ψ c, hψ, List.mem_append_right _ (List.mem_map.2 ?_)⟩
      obtain ⟨p, hp, rfl⟩ := List.mem_map.1 hn
      rw [hname, hfi]
      exact ⟨p, hp, rfl⟩
  rw [h5, h3] at key1 key2
  constructor
  · rintro name hn s vals tr ⟨g, hg, -⟩
    obtain ⟨k1, k2⟩ := key1 name hn
    obtain ⟨sv, e1, e2⟩ := hd _ _ k1
    obtain ⟨sv', e1', e2'⟩ := hd' _ _ k2
    rw [hdd, e1] at e1'
    obtain rfl := Option.some.inj e1'
    simp only [tensorAt] at e2 e2'
    rw [hg] at e2
    rw [← e2] at e2'
    obtain ⟨⟨dat, grad, tr'⟩, e3, e4⟩ := Option.map_eq_some_iff.1 e2'
    obtain ⟨m1, m2, m3⟩ := hm' _ _ e3
    have m4 := hm _ _ hg
    simp only at m1 m2 m3 m4 e4
    subst e4 m1 m4
    obtain ⟨gs, gv⟩ := grad
    simp only at m2 m3
    subst m2
    exact ⟨gv, e3, m3⟩
  · intro name hn s vals hb
    obtain ⟨k1, k2⟩ := key2 name hn
    obtain ⟨sv, e1, e2⟩ := hd _ _ k1
    obtain ⟨sv', e1', e2'⟩ := hd' _ _ k2
    rw [hdd, e1] at e1'
    obtain rfl := Option.some.inj e1'
    simp only [tensorAt] at e2 e2'
    unfold HasBuffer at hb ⊢
    rw [hb] at e2
    rw [e2', ← e2]

theorem keys_reloaded {e₃ : Expr} {m' : Model} {φ ψ : Nat → Nat} (hr : Reachable e) (h : modelCtor topo ins outs e = (.ok m, E))
    (R : Rebuilt E m e₃ m' φ ψ) (hown : ∀ c ∈ sortedOps m.sorted, ∀ ps bs,
      initEntries (infoOf E (E.callInfo c)).op ((E.callArgs c).map (phShape E)) = .ok (ps, bs) →
      (infoOf E (E.callInfo c)).params.map (fun p => (p.1, p.2.shape)) = ps ∧ (infoOf E (E.callInfo c)).buffers = bs)
    {k : String} {r : StateRef} (hk : (k, r) ∈ m'.state) : ∃ r', (k, r') ∈ m.state := by
  obtain ⟨topo₃, -, hct⟩ := R.ctor
  obtain ⟨-, -, -, -, -, -, -, -, -, hst, -⟩ := ctor_maps hr h
  obtain ⟨-, -, -, -, -, -, -, -, -, hst₃, -⟩ := ctor_maps R.reach hct
  rw [hst₃, List.mem_flatMap] at hk
  obtain ⟨c₃, hc₃, hk⟩ := hk
  obtain ⟨c, hc, rfl⟩ := List.mem_map.1 (R.ops.mem_iff.1 hc₃)
  obtain ⟨ps, bs, hi, hfi⟩ := R.info c hc
  obtain ⟨hps, hbs⟩ := hown c hc ps bs hi
  have hname : opName e₃ (ψ c) = opName E c := by rw [opName_eq, opName_eq, hfi]; rfl
  have : k ∈ (stateEntries E c).map Prod.fst := by
    have h1 := List.mem_map_of_mem (f := Prod.fst) hk
    rw [stateEntries_keys, hname, hfi] at h1
    rw [stateEntries_keys]
    have : (infoOf E (E.callInfo c)).params.map Prod.fst = ps.map Prod.fst := by rw [← hps, List.map_map]; rfl
    rw [this, hbs]
    simpa [freshInfo, Function.comp_def] using h1
  obtain ⟨⟨k', r'⟩, hr', rfl⟩ := List.mem_map.1 this
  exact ⟨r', by rw [hst, List.mem_flatMap]; exact ⟨c, hc, hr'⟩⟩

theorem lookup_map_val {α β : Type} (f : String → β) : ∀ (l : List (String × α)) (k : String), k ∈ l.map Prod.fst →
    (l.map fun p => (p.1, f p.1)).lookup k = some (f k)
  | [], k, h => by simp at h
  | p :: l, k, h => by
    rw [List.map_cons, List.lookup_cons]
    by_cases hk : k = p.1
    · subst hk; simp
    · rw [show (k == p.1) = false by simpa using hk]
      exact lookup_map_val f l k (by simpa [hk] using h)

/-- There are tensors with the contents of a state dict. -/
theorem tensors_exist {m' : Model} {e₃ : Expr} {topo₃ : Graph → List Node} {ins₃ outs₃ : List Nat} (hr : Reachable e₃)
    (h : modelCtor topo₃ ins₃ outs₃ e₃ = (.ok m', e₃)) (real : F32 → ℝ) {d : Dict}
    (hd : ∀ k r, (k, r) ∈ m'.state → ∃ s, d.lookup k = some s) (mode : Bool) :
    ∃ tensors₃, StateHolds real m' tensors₃ d ∧ InMode e₃ m' tensors₃ mode := by
  let val : Nat → String → Buf := fun i n =>
    ⟨((d.lookup (key (infoOf e₃ i).name n)).getD ⟨[], []⟩).shape, numbers real ((d.lookup (key (infoOf e₃ i).name n)).getD ⟨[], []⟩).bytes⟩
  refine ⟨fun i => ⟨(infoOf e₃ i).params.map fun p => (p.1, ⟨val i p.1, ⟨(val i p.1).shape, List.replicate (val i p.1).vals.length 0⟩, mode⟩),
    (infoOf e₃ i).buffers.map fun p => (p.1, val i p.1)⟩, fun k r hk => ?_, fun x hx c hc name p hp => ?_⟩
  · obtain ⟨s, hs⟩ := hd k r hk
    refine ⟨s, hs, ?_⟩
    obtain ⟨-, -, -, -, -, -, -, -, -, hst, -⟩ := ctor_maps hr h
    rw [hst, List.mem_flatMap] at hk
    obtain ⟨c, -, hk⟩ := hk
    rcases List.mem_append.1 hk with hk | hk
    · obtain ⟨p, hp, he⟩ := List.mem_map.1 hk
      obtain ⟨rfl, rfl⟩ := Prod.mk.inj he
      simp only [tensorAt]
      rw [lookup_map_val (fun n => (⟨val (e₃.callInfo c) n, ⟨(val (e₃.callInfo c) n).shape,
        List.replicate (val (e₃.callInfo c) n).vals.length 0⟩, mode⟩ : Parameter)) _ _ (List.mem_map_of_mem hp)]
      rw [opName_eq] at hs
      simp only [Option.map_some, val, hs, Option.getD_some]
    · obtain ⟨p, hp, he⟩ := List.mem_map.1 hk
      obtain ⟨rfl, rfl⟩ := Prod.mk.inj he
      simp only [tensorAt]
      rw [lookup_map_val (fun n => val (e₃.callInfo c) n) _ _ (List.mem_map_of_mem hp)]
      rw [opName_eq] at hs
      simp only [val, hs, Option.getD_some]
  · obtain ⟨q, -, hq⟩ := List.mem_map.1 (Props.BackendP.lookup_mem hp)
    obtain ⟨-, rfl⟩ := Prod.mk.inj hq
    exact ⟨rfl, rfl, by simp⟩

/-! ### The network of the loaded model -/

section

variable {e₃ : Expr} {P : Nat → Prop} {φ ψ : Nat → Nat}

theorem argsOf_iso (hI : Iso e e₃ P φ ψ) {x : Nat} (hx : P x) : e₃.argsOf (φ x) = (e.argsOf x).map φ := by
  cases hc : e.callOf x with
  | none =>
    have := hI.call x hx
    rw [hc] at this
    rw [argsOf_none hc, argsOf_none this]
    rfl
  | some c => rw [argsOf_some hc, argsOf_some (hI.call_some hx hc), hI.args x c hx hc]

theorem needs_iso (hI : Iso e e₃ P φ ψ) {z y : Nat} (hn : Needs e₃ z y) : ∀ b, P b → φ b = z → ∃ x, P x ∧ φ x = y ∧ Needs e b x := by
  induction hn with
  | refl z => exact fun b hb hz => ⟨b, hb, hz, .refl _⟩
  | step hc ha _ ih =>
    rintro b hb rfl
    cases hcb : e.callOf b with
    | none => rw [hI.call b hb, hcb] at hc; cases hc
    | some d =>
      rw [hI.call_some hb hcb] at hc
      obtain rfl := Option.some.inj hc
      rw [hI.args b d hb hcb] at ha
      obtain ⟨a', ha', rfl⟩ := List.mem_map.1 ha
      obtain ⟨x, h1, h2, h3⟩ := ih a' (hI.closed b d hb hcb a' ha') rfl
      exact ⟨x, h1, h2, .step hcb ha' h3⟩

theorem ordered_iso (hI : Iso e e₃ P φ ψ) {l : List Nat} (hl : ∀ x ∈ l, P x)
    (h : l.Pairwise fun a b => (e.callOf a).isSome → ¬ Needs e b a) :
    (l.map φ).Pairwise fun a b => (e₃.callOf a).isSome → ¬ Needs e₃ b a := by
  rw [List.pairwise_map]
  refine h.imp_of_mem fun {a b} ha hb hab hs hn => ?_
  obtain ⟨x, h1, h2, h3⟩ := needs_iso hI hn b (hl b hb) rfl
  obtain rfl := hI.inj _ _ h1 (hl a ha) h2
  refine hab ?_ h3
  rw [hI.call _ h1] at hs
  cases hc : e.callOf x with
  | none => rw [hc] at hs; cases hs
  | some c => rfl

theorem orderly_iso (hI : Iso e e₃ P φ ψ) (ho : ∀ x ∈ outs, P x) (h : Orderly e outs) : Orderly e₃ (outs.map φ) := by
  refine ⟨ordered_iso hI ho h.outsOrd, fun y hy => ?_⟩
  obtain ⟨o, ho', hn⟩ := hy
  obtain ⟨o, hoo, rfl⟩ := List.mem_map.1 ho'
  obtain ⟨x, h1, rfl, h3⟩ := needs_iso hI hn o (ho o hoo) rfl
  rw [argsOf_iso hI h1]
  refine ordered_iso hI (fun a ha => ?_) (h.argsOrd x ⟨o, hoo, h3⟩)
  obtain ⟨c, hc, hac⟩ := mem_argsOf.1 ha
  exact hI.closed x c h1 hc a hac

end

section

variable {e₃ : Expr} {m' : Model} {φ ψ : Nat → Nat} {real : F32 → ℝ} {tensors tensors₃ : Nat → InfoTensors}
  {L : Layers e} {θ : L.Params}

theorem mem_dataOf (hr : Reachable e) (hs : SortsCorrectly topo e ins outs) (h : modelCtor topo ins outs e = (.ok m, E)) (x : Nat) :
    x ∈ dataOf m ↔ x ∈ m.graph.dataNodes := by
  obtain ⟨g, hg, hmg, hso, -⟩ := ctor_maps hr h
  have := hs g hg
  rw [← hso, ← hmg] at this
  unfold dataOf
  rw [mem_sortedData, this.data]

/-- The layers of the loaded model, with the functions they have in the saved one. -/
theorem built_reloaded (B : Built topo e ins outs m real tensors L θ) (h : modelCtor topo ins outs e = (.ok m, E))
    (R : Rebuilt E m e₃ m' φ ψ) {d d' : Dict} (hown : OwnTensors E outs) (hd : StateHolds real m tensors d)
    (hd' : StateHolds real m' tensors₃ d') (hdd : ∀ k, d'.lookup k = d.lookup k) {mode : Bool}
    (hm : ∀ x ∈ dataOf m, ∀ c, e.callOf x = some c → ∀ name p, (tensors (e.callInfo c)).params.lookup name = some p → p.trainable = mode)
    (hm' : InMode e₃ m' tensors₃ mode) :
    ∃ (topo₃ : Graph → List Node) (L₃ : Layers e₃) (θ₃ : L₃.Params),
      Built topo₃ e₃ (ins.map φ) (outs.map φ) m' real tensors₃ L₃ θ₃ ∧
      ∀ x ∈ dataOf m, (e.callOf x).isSome → ∀ r X X', (∀ (j : Fin (e.argsOf x).length) (j' : Fin (e₃.argsOf (φ x)).length),
        j.val = j'.val → SameVal (X j) (X' j')) → SameVal (L.fn x r (θ x) X) (L₃.fn (φ x) r (θ₃ (φ x)) X') := by
  classical
  have hr := B.reachable
  have pl := HistL.plan B
  obtain ⟨n1, n2, n3, n4, n5⟩ := named_same hr h
  have hI := iso_before hr h R
  have hdat := mem_dataOf hr B.sorts h
  obtain ⟨topo₃, hs₃, hct⟩ := R.ctor
  rw [pl.gins, pl.gouts] at hs₃ hct
  have hdat₃ : ∀ y, y ∈ dataOf m' ↔ ∃ x ∈ dataOf m, φ x = y := fun y => by
    rw [mem_dataOf R.reach hs₃ hct, R.graph]
    simp only [Graph.rename, List.mem_map, hdat]
  have hphs : ∀ x ∈ dataOf m, phShape e₃ (φ x) = phShape e x := fun x hx => by rw [R.shape x ((hdat x).1 hx), n4]
  have hcallN : ∀ x ∈ dataOf m, e₃.callOf (φ x) = (e.callOf x).map ψ := fun x hx => hI.call x ((hdat x).1 hx)
  have hinj : ∀ x ∈ dataOf m, ∀ y ∈ dataOf m, φ x = φ y → x = y := fun x hx y hy => hI.inj x y ((hdat x).1 hx) ((hdat y).1 hy)
  have hrE : Reachable E := by
    have := Reachable.model topo ins outs hr
    rwa [h] at this
  have hneed : ∀ c, c ∈ sortedOps m.sorted → NeededCall E outs c := fun c hc => by
    obtain ⟨g, hg, hmg, hso, he, -⟩ := ctor_maps hr h
    have ht := B.sorts g hg
    rw [← hso] at ht
    have hg' : buildGraph E ins outs = .ok g := by rw [he]; exact build_nameOps (reachable_wf hr) hg (out_lt hr h)
    rwa [mem_sortedOps, ht.op, mem_opNodes hg'] at hc
  have main : ∀ y, ∃ (P : Nat) (f : (Nat → ℝ) → (Fin P → ℝ) → Args (fun j : Fin (e₃.argsOf y).length => phShape e₃ (e₃.argsOf y)[j]) →
      Elems (phShape e₃ y)) (θ₃ : Fin P → ℝ) (ex : Prop), ∀ x ∈ dataOf m, φ x = y → ∀ c, e.callOf x = some c →
        Computes real (tensors₃ (e₃.callInfo (ψ c))) (infoOf e₃ (e₃.callInfo (ψ c))).op
          (fun j : Fin (e₃.argsOf y).length => phShape e₃ (e₃.argsOf y)[j]) (phShape e₃ y) P f θ₃ ex ∧
        ∀ r X X', (∀ (j : Fin (e.argsOf x).length) (j' : Fin (e₃.argsOf y).length),
          j.val = j'.val → SameVal (X j) (X' j')) → SameVal (L.fn x r (θ x) X) (f r θ₃ X') := by
    intro y
    by_cases hy : ∃ x ∈ dataOf m, φ x = y ∧ (e.callOf x).isSome
    · obtain ⟨x, hx, rfl, hs⟩ := hy
      obtain ⟨c, hc⟩ := Option.isSome_iff_exists.1 hs
      have hco := (pl.make x hx c hc).1
      have hfi : (infoOf e₃ (e₃.callInfo (ψ c))).op = (infoOf e (e.callInfo c)).op := by
        obtain ⟨ps, bs, -, hfi⟩ := R.info c hco
        rw [hfi, ← n5, ← n3]
        rfl
      have hcov := covers (topo := topo) (ins := ins) (outs := outs) (mode := mode) hr h R (fun c hc => hown c (hneed c hc)) hd hd' hdd hco
        ((reachable_wf hrE).call_lt x c (by rw [n1]; exact hc)) (hm x hx c hc)
        (hm' (φ x) ((hdat₃ _).2 ⟨x, hx, rfl⟩) (ψ c) (by rw [hcallN x hx, hc]; rfl))
      have ha := argsOf_iso hI ((hdat x).1 hx)
      obtain ⟨f, h1, h2⟩ := computes_copy (B.layers x hx c hc) hcov
        (n' := (e₃.argsOf (φ x)).length) (ishape' := fun j : Fin (e₃.argsOf (φ x)).length => phShape e₃ (e₃.argsOf (φ x))[j])
        (o' := phShape e₃ (φ x)) (by rw [ha, List.length_map]) (by
          rintro ⟨j, hj⟩ ⟨j', hj'⟩ rfl
          simp only [Fin.getElem_fin, ha, List.getElem_map]
          exact hphs _ ((pl.make x hx c hc).2.2.2 _ (List.getElem_mem hj)).1) (hphs x hx)
      refine ⟨L.params x, f, θ x, L.exact x, fun x' hx' hxx c' hc' => ?_⟩
      obtain rfl := hinj x' hx' x hx hxx
      obtain rfl := Option.some.inj (hc'.symm.trans hc)
      rw [hfi]
      exact ⟨h1, h2⟩
    · exact ⟨0, fun _ _ _ => 0, fun _ => 0, True, fun x hx hxy c hc => absurd ⟨x, hx, hxy, by rw [hc]; rfl⟩ hy⟩
  choose P f θ₃ ex H using main
  refine ⟨topo₃, ⟨P, f, ex⟩, θ₃, ⟨R.reach, hs₃, ⟨_, hct⟩, orderly_iso hI (fun x hx => (hdat x).1 (pl.outs_mem x hx)) B.orderly, ?_, ?_, ?_⟩, ?_⟩
  · refine ⟨fun y hy => ?_, fun y hy hn => ?_, fun y hy => ?_, ?_, ?_⟩
    · obtain ⟨x, hx, rfl⟩ := List.mem_map.1 hy
      rw [hcallN x (pl.ins_mem x hx), B.sound.given x hx]
      rfl
    · obtain ⟨x, hx, rfl⟩ := (hdat₃ y).1 hy
      rw [hcallN x hx, Option.map_eq_none_iff] at hn
      exact List.mem_map_of_mem (B.sound.listed x hx hn)
    · obtain ⟨x, hx, rfl⟩ := List.mem_map.1 hy
      rw [hcallN x (pl.outs_mem x hx), Option.isSome_map]
      exact B.sound.outputs x hx
    · exact List.Nodup.map_on (fun x hx y hy => hinj x (pl.outs_mem x hx) y (pl.outs_mem y hy)) B.sound.nodup
    · exact List.Nodup.map_on (fun x hx y hy => hinj x (pl.ins_mem x hx) y (pl.ins_mem y hy)) B.sound.nodupIns
  · intro y hy hn
    obtain ⟨x, hx, rfl⟩ := (hdat₃ y).1 hy
    rw [hphs x hx]
    exact B.shapes x hx fun ho => hn (List.mem_map_of_mem ho)
  · intro y hy c hc
    obtain ⟨x, hx, rfl⟩ := (hdat₃ y).1 hy
    rw [hcallN x hx] at hc
    obtain ⟨c', hc', rfl⟩ := Option.map_eq_some_iff.1 hc
    exact (H (φ x) x hx rfl c' hc').1
  · intro x hx hs
    obtain ⟨c, hc⟩ := Option.isSome_iff_exists.1 hs
    exact (H (φ x) x hx rfl c hc).2

/-- Evaluating the loaded model. -/
theorem values_reloaded (hr : Reachable e) (pl : BackendL.Plan e m ins outs) {L₃ : Layers e₃} {θ₃ : L₃.Params} (hI : Iso e e₃ (· ∈ dataOf m) φ ψ)
    (hdat₃ : ∀ x ∈ dataOf m, φ x ∈ dataOf m') (hsame : ∀ x ∈ dataOf m, (e.callOf x).isSome → ∀ r X X',
      (∀ (j : Fin (e.argsOf x).length) (j' : Fin (e₃.argsOf (φ x)).length),
        j.val = j'.val → SameVal (X j) (X' j')) → SameVal (L.fn x r (θ x) X) (L₃.fn (φ x) r (θ₃ (φ x)) X'))
    {env env₃ : Nat → Env} (hrng : ∀ x ∈ dataOf m, (e.callOf x).isSome → L.fn x (rngOf e env x) = L.fn x (rngOf e₃ env₃ (φ x)))
    (hlist : ∀ x ∈ dataOf m, e.callOf x = none → x ∈ ins)
    {v : Vals e} {v₃ : Vals e₃} (hv : (L.net m env).Evaluates θ v) (hv₃ : (L₃.net m' env₃).Evaluates θ₃ v₃)
    (hin : ∀ x ∈ ins, SameVal (v x) (v₃ (φ x))) : ∀ x ∈ dataOf m, SameVal (v x) (v₃ (φ x)) := by
  intro x
  induction x using Nat.strong_induction_on with
  | _ x ih =>
    intro hx
    cases hc : e.callOf x with
    | none => exact hin x (hlist x hx hc)
    | some c =>
      have hs : (e.callOf x).isSome := by rw [hc]; rfl
      have hs₃ : (e₃.callOf (φ x)).isSome := by rw [hI.call_some hx hc]; rfl
      rw [hv x (Props.BackendP.mem_net.2 ⟨hx, hs⟩), hv₃ (φ x) (Props.BackendP.mem_net.2 ⟨hdat₃ x hx, hs₃⟩)]
      show SameVal (L.fn x (rngOf e env x) (θ x) _) (L₃.fn (φ x) (rngOf e₃ env₃ (φ x)) (θ₃ (φ x)) _)
      rw [hrng x hx hs]
      refine hsame x hx hs _ _ _ fun j j' hj => ?_
      obtain ⟨j, hjl⟩ := j
      obtain ⟨j', hjl'⟩ := j'
      obtain rfl : j = j' := hj
      have ha := argsOf_iso hI hx
      have hmem := List.getElem_mem hjl
      have key := ih _ (pl.lt x _ hmem) ((pl.make x hx c hc).2.2.2 _ hmem).1
      show SameVal (v (e.argsOf x)[j]) (v₃ (e₃.argsOf (φ x))[j])
      have : (e₃.argsOf (φ x))[j] = φ (e.argsOf x)[j] := by simp only [ha, List.getElem_map]
      rw [this]
      exact key

end

end

end DW.ReloadL
