import Verif.Lemmas.Reload
import Verif.Props.Training
/-!
# A saved and loaded model computes the same function (C82)
-/

set_option autoImplicit false

namespace DW.Props.ReloadP

open DW DW.Spec DW.GraphL DW.HistL DW.ReloadL DW.RebuildL DW.Props.SaveLoadP DW.Props.BackendP

variable {lim : Nat} {topo topo₂ : Graph → List Node} {e e' e₂ : Expr} {ins outs : List Nat} {m : Model} {real : F32 → ℝ}
  {tensors : Nat → InfoTensors} {L : Layers e} {θ : L.Params} {d : Dict} {fresh : Expr → Model → Dict}

/-- The calls of `forward` on two models agree: with the same numbers in their input tensors, both return normally, with the same
shapes and numbers in their output tensors. -/
def SameForward (m : Model) (env : Nat → Env) (it ot : List Nat) (w : World) (m' : Model) (env' : Nat → Env) (it' ot' : List Nat)
    (w' : World) : Prop :=
  (∀ i k k' : Nat, it[i]? = some k → it'[i]? = some k' → w.store[k]? = w'.store[k']?) →
  ∃ u u', m.forward env it ot w = (.ok (), u) ∧ m'.forward env' it' ot' w' = (.ok (), u') ∧
    ∀ i k k' : Nat, ot[i]? = some k → ot'[i]? = some k' → u.store[k]? = u'.store[k']?

/-- **C82.** A model is saved with its state `d` and loaded, in another process. Then the loaded model, with tensors that hold what
was read and in the same mode, can be compiled and used like any model, and its `forward` computes the same outputs from the same
inputs as the saved model: after any history of calls on both sides that leaves the parameters, in evaluation mode for all random
numbers, in training mode for equal random numbers. Tensors that hold what was read exist. -/
theorem reloaded_computes (B : Built topo e ins outs m real tensors L θ)
    (hS : Restorable lim topo e ins outs m e' d e₂ topo₂ fresh) (hd : StateHolds real m tensors d) {mode : Bool}
    (hm : ∀ x ∈ dataOf m, ∀ c, e.callOf x = some c → ∀ name p, (tensors (e.callInfo c)).params.lookup name = some p →
      p.trainable = mode) :
    ∃ m' d' e₃ φ, load lim topo₂ fresh (e₂, ⟨(save m.cfg d []).2, false⟩) = (.ok (m', d'), (e₃, ⟨[], false⟩)) ∧
      SameModel e' m e₃ m' φ ∧ (∃ tensors₃, StateHolds real m' tensors₃ d' ∧ InMode e₃ m' tensors₃ mode) ∧
      ∀ tensors₃, StateHolds real m' tensors₃ d' → InMode e₃ m' tensors₃ mode →
        ∃ (topo₃ : Graph → List Node) (L₃ : Layers e₃) (θ₃ : L₃.Params),
          Built topo₃ e₃ (ins.map φ) (outs.map φ) m' real tensors₃ L₃ θ₃ ∧
          ∀ {last last₃ w w₃ b b₃ it ot it₃ ot₃} {env env₃ : Nat → Env},
            History e ins outs m real tensors L θ θ last w →
            History e₃ (ins.map φ) (outs.map φ) m' real tensors₃ L₃ θ₃ θ₃ last₃ w₃ →
            FwdArgs e m ins outs w b it ot → FwdArgs e₃ m' (ins.map φ) (outs.map φ) w₃ b₃ it₃ ot₃ →
            (∀ c, IsPick (env c).pick) → (∀ c, IsPick (env₃ c).pick) →
            (mode = false ∨ ∀ x ∈ dataOf m, rngOf e env x = rngOf e₃ env₃ (φ x)) →
            SameForward m env it ot w m' env₃ it₃ ot₃ w₃ := by
  obtain ⟨m', d', e₃, φ, ψ, h1, h2, h3, R⟩ := load_rebuilt hS.limit B.reachable B.sorts hS.ctor hS.state hS.cfg hS.dict hS.reachable
    hS.sorts hS.fresh hS.sources hS.apart hS.insOrder hS.outsOrder hS.own
  have pl := plan B
  have hI := iso_before B.reachable hS.ctor R
  have hdat := mem_dataOf B.reachable B.sorts hS.ctor
  have hneed : ∀ c, c ∈ sortedOps m.sorted → NeededCall e' outs c := fun c hc => by
    obtain ⟨g, hg, -, hso, he, -⟩ := ctor_maps B.reachable hS.ctor
    have ht := B.sorts g hg
    rw [← hso] at ht
    have hg' : buildGraph e' ins outs = .ok g := by rw [he]; exact build_nameOps (reachable_wf B.reachable) hg (out_lt B.reachable hS.ctor)
    rwa [mem_sortedOps, ht.op, mem_opNodes hg'] at hc
  refine ⟨m', d', e₃, φ, h1, h2, ?_, fun tensors₃ hd₃ hm₃ => ?_⟩
  · obtain ⟨topo₃, -, hct⟩ := R.ctor
    refine tensors_exist R.reach hct real (fun k r hk => ?_) mode
    obtain ⟨r', hk'⟩ := keys_reloaded B.reachable hS.ctor R (fun c hc => hS.own c (hneed c hc)) hk
    obtain ⟨s, hs, -⟩ := hd k r' hk'
    exact ⟨s, by rw [h3]; exact hs⟩
  · obtain ⟨topo₃, L₃, θ₃, B₃, hsame⟩ := built_reloaded B hS.ctor R hS.own hd hd₃ h3 hm hm₃
    refine ⟨topo₃, L₃, θ₃, B₃, ?_⟩
    intro last last₃ w w₃ b b₃ it ot it₃ ot₃ env env₃ hh hh₃ ha ha₃ hp hp₃ hmode hi
    have pl₃ := plan B₃
    obtain ⟨v, hv, hc⟩ := values_of_inputs B ha env θ
    obtain ⟨v₃, hv₃, hc₃⟩ := values_of_inputs B₃ ha₃ env₃ θ₃
    obtain ⟨u, -, r1, -, -, o1, -⟩ := forward_evaluates_partial B hh ha hp hv hc
    obtain ⟨u₃, -, r3, -, -, o3, -⟩ := forward_evaluates_partial B₃ hh₃ ha₃ hp₃ hv₃ hc₃
    have hrng : ∀ x ∈ dataOf m, (e.callOf x).isSome → L.fn x (rngOf e env x) = L.fn x (rngOf e₃ env₃ (φ x)) := fun x hx hs => by
      rcases hmode with rfl | hr
      · obtain ⟨c, hc⟩ := Option.isSome_iff_exists.1 hs
        exact computes_frozen (B.layers x hx c hc) (hm x hx c hc) _ _
      · rw [hr x hx]
    have hdat₃ : ∀ x ∈ dataOf m, φ x ∈ dataOf m' := fun x hx => by
      obtain ⟨_, hct⟩ := B₃.ctor
      rw [mem_dataOf R.reach B₃.sorts hct, R.graph]
      exact List.mem_map_of_mem ((hdat x).1 hx)
    have hI' : RenameL.Iso e e₃ (· ∈ dataOf m) φ ψ := ⟨fun x y hx hy => hI.inj x y ((hdat x).1 hx) ((hdat y).1 hy),
      fun x hx => hI.call x ((hdat x).1 hx), fun x c hx => hI.args x c ((hdat x).1 hx),
      fun x c hx hc a ha => (hdat a).2 (hI.closed x c ((hdat x).1 hx) hc a ha)⟩
    have hvals := values_reloaded B.reachable pl hI' hdat₃ hsame hrng B.sound.listed hv hv₃ fun x hx => by
      obtain ⟨i, hil, rfl⟩ := List.getElem_of_mem hx
      have l1 : i < it.length := by rw [ha.givenIns.length]; exact hil
      have l3 : i < it₃.length := by rw [ha₃.givenIns.length, List.length_map]; exact hil
      have e1 := hc i _ _ (List.getElem?_eq_getElem hil) (List.getElem?_eq_getElem l1)
      have e3 := hc₃ i _ _ (by rw [List.getElem?_map, List.getElem?_eq_getElem hil]; rfl) (List.getElem?_eq_getElem l3)
      unfold Holds at e1 e3
      rw [hi i _ _ (List.getElem?_eq_getElem l1) (List.getElem?_eq_getElem l3), e3] at e1
      have := Buf.mk.inj (Option.some.inj e1)
      exact ⟨this.1.symm, this.2.symm⟩
    refine ⟨u, u₃, r1, r3, fun i k k₃ hk hk₃ => ?_⟩
    have hlt : i < outs.length := by
      rw [← ha.givenOuts.length]
      exact (List.getElem?_eq_some_iff.1 hk).1
    have e1 := o1 i _ _ (List.getElem?_eq_getElem hlt) hk
    have e3 := o3 i _ _ (by rw [List.getElem?_map, List.getElem?_eq_getElem hlt]; rfl) hk₃
    unfold Holds at e1 e3
    obtain ⟨s1, s2⟩ := hvals outs[i] (pl.outs_mem _ (List.getElem_mem hlt))
    rw [e1, e3]
    exact congrArg some (Buf.mk.injEq .. ▸ ⟨s1, s2⟩)

/-- **C82, a trained model.** After any history of training, `train(false)`; the state of the model is saved and loaded elsewhere.
In evaluation mode the loaded model makes the predictions the trained one makes. -/
theorem trained_reloaded {θ₀ : L.Params} (B : Built topo e ins outs m real tensors L θ₀) {last : Option ((Nat → Env) × Vals e)}
    {w : World} (h : History e ins outs m real tensors L θ₀ θ last w)
    (hg : ∀ x ∈ dataOf m, ∀ c, e.callOf x = some c → GoodVar real (tensors (e.callInfo c)) (infoOf e (e.callInfo c)).op)
    (hdr : ∀ x ∈ dataOf m, ∀ c, e.callOf x = some c → DropOk real (infoOf e (e.callInfo c)).op (phShape e x)) :
    ∃ (tensors' : Nat → InfoTensors) (L' : Layers e) (θ' : L'.Params),
      Built topo e ins outs m real tensors' L' θ' ∧ History e ins outs m real tensors' L' θ' θ' none (trained false w) ∧
      (∀ x, List.ofFn (θ' x) = List.ofFn (θ x)) ∧
      (∀ x ∈ dataOf m, ∀ c, e.callOf x = some c → ∀ b l, w.backend = some b → layerAt e m b x = some l →
        l.Shows false (tensors' (e.callInfo c))) ∧
      ∀ d, Restorable lim topo e ins outs m e' d e₂ topo₂ fresh → StateHolds real m tensors' d →
        ∃ m' d' e₃ φ, load lim topo₂ fresh (e₂, ⟨(save m.cfg d []).2, false⟩) = (.ok (m', d'), (e₃, ⟨[], false⟩)) ∧
          ∀ tensors₃, StateHolds real m' tensors₃ d' → InMode e₃ m' tensors₃ false →
            ∃ (topo₃ : Graph → List Node) (L₃ : Layers e₃) (θ₃ : L₃.Params),
              Built topo₃ e₃ (ins.map φ) (outs.map φ) m' real tensors₃ L₃ θ₃ ∧
              ∀ {last₁ last₃ w₁ w₃ b b₃ it ot it₃ ot₃} {env env₃ : Nat → Env},
                History e ins outs m real tensors' L' θ' θ' last₁ w₁ →
                History e₃ (ins.map φ) (outs.map φ) m' real tensors₃ L₃ θ₃ θ₃ last₃ w₃ →
                FwdArgs e m ins outs w₁ b it ot → FwdArgs e₃ m' (ins.map φ) (outs.map φ) w₃ b₃ it₃ ot₃ →
                (∀ c, IsPick (env c).pick) → (∀ c, IsPick (env₃ c).pick) →
                SameForward m env it ot w₁ m' env₃ it₃ ot₃ w₃ := by
  obtain ⟨tensors', L', θ', B', h1, h2, h3⟩ := train_switches B h hg hdr false
  refine ⟨tensors', L', θ', B', h1, h2, fun x hx c hc => (h3 x hx c hc).1, fun d hS hd => ?_⟩
  obtain ⟨m', d', e₃, φ, r1, -, -, r2⟩ := reloaded_computes B' hS hd (mode := false) fun x hx c hc => (h3 x hx c hc).2.1
  refine ⟨m', d', e₃, φ, r1, fun tensors₃ hd₃ hm₃ => ?_⟩
  obtain ⟨topo₃, L₃, θ₃, B₃, r3⟩ := r2 tensors₃ hd₃ hm₃
  exact ⟨topo₃, L₃, θ₃, B₃, fun a1 a2 a3 a4 a5 a6 => r3 a1 a2 a3 a4 a5 a6 (.inl rfl)⟩

/-! ### A classifier, saved and loaded -/

/-- The bytes of the tensors of the classifier: the weights 1, 0, 0, 0, 1, 0 and zeros, if a float stands for the number its bits
stand for. -/
def classBytes : StateRef → List Byte
  | .param 0 "weight" => [1, 0, 0, 0, 1, 0].flatMap intBytes
  | r => List.replicate (4 * (tensorShape (built TrainP.classE [0] [2]).2 r).prod.toNat) 0

/-- The state of the classifier. -/
def classState : Dict := stateDict (built TrainP.classE [0] [2]).2 (built TrainP.classE [0] [2]).1 classBytes

theorem class_direct : Direct TrainP.classE := by
  have : TrainP.classE = (Expr.makeLayer "Softmax" "" [] [1] (Expr.makeLayer "Linear" "" [("units", .int 2)] [0]
      (Expr.placeholder [2, 3] {}).2).2).2 := by decide +kernel
  rw [this]
  exact .makeLayer _ _ _ _ (.makeLayer _ _ _ _ (.placeholder _ .empty))

theorem class_ctor : modelCtor (creationOrder TrainP.classE) [0] [2] TrainP.classE =
    (.ok (built TrainP.classE [0] [2]).1, (built TrainP.classE [0] [2]).2) := by
  have h : (modelCtor (creationOrder TrainP.classE) [0] [2] TrainP.classE).1.isOk = true := by decide +kernel
  unfold built
  rcases hm : modelCtor (creationOrder TrainP.classE) [0] [2] TrainP.classE with ⟨o, e'⟩
  rw [hm] at h
  cases o with
  | ok m => rfl
  | throw x => simp [Out.isOk] at h
  | ub x => simp [Out.isOk] at h

theorem class_restorable : Restorable 1000 (creationOrder TrainP.classE) TrainP.classE [0] [2] (built TrainP.classE [0] [2]).1
    (built TrainP.classE [0] [2]).2 classState {} (creationOrder (rebuiltE TrainP.classE [0] [2])) newState where
  limit := by decide
  ctor := class_ctor
  state := ⟨classBytes, fun r => by
    unfold classBytes
    split
    · decide +kernel
    · simp, .refl _⟩
  cfg := by decide +kernel
  dict := by decide +kernel
  reachable := .empty
  sorts := sorts_rebuilt .empty (ins := [0]) (outs := [2]) (by decide +kernel) (by decide +kernel)
  fresh := newState_ok
  sources := by
    rintro x ⟨c, -, hx⟩
    have hlt : x < 3 := by
      rcases hx with hx | hx
      · exact callOf_lt hx
      · by_cases hc : c < 2
        · have : ∀ c < 2, ∀ a ∈ TrainP.classE.callArgs c, a < 3 := by decide +kernel
          exact this c hc x hx
        · have : TrainP.classE.calls.length = 2 := by decide +kernel
          simp [Expr.callArgs, List.getElem?_eq_none (show TrainP.classE.calls.length ≤ c by omega)] at hx
    have : ∀ x < 3, (TrainP.classE.callOf x = none ↔ x ∈ [0]) := by decide +kernel
    exact this x hlt
  apart := by simp
  insOrder := by decide +kernel
  outsOrder := by decide +kernel
  own := own_tensors_of_direct (by
    have := Direct.model (creationOrder TrainP.classE) [0] [2] class_direct
    rwa [class_ctor] at this) _

/-- The classifier with the weights 1, 0, 0, 0, 1, 0 meets the assumptions of `reloaded_computes`. -/
example : ∃ (m : Model) (e' : Expr) (L : Layers TrainP.classE) (θ : L.Params),
    Built (creationOrder TrainP.classE) TrainP.classE [0] [2] m (fun b => (b.toNat : ℝ)) (fun _ => TrainP.classTensors) L θ ∧
    Restorable 1000 (creationOrder TrainP.classE) TrainP.classE [0] [2] m e' classState {}
      (creationOrder (rebuiltE TrainP.classE [0] [2])) newState ∧
    StateHolds (fun b => (b.toNat : ℝ)) m (fun _ => TrainP.classTensors) classState ∧
    ∀ x ∈ dataOf m, ∀ c, TrainP.classE.callOf x = some c → ∀ name p, TrainP.classTensors.params.lookup name = some p →
      p.trainable = true := by
  obtain ⟨m, L, θ, B, -⟩ := TrainP.class_built_of fun b => (b.toNat : ℝ)
  obtain ⟨e', hc⟩ := B.ctor
  rw [class_ctor] at hc
  obtain ⟨h1, rfl⟩ := Prod.mk.inj hc
  obtain rfl := Out.ok.inj h1
  refine ⟨_, _, L, θ, B, class_restorable, ?_, fun x _ c _ name p hp => ?_⟩
  · have hst : (built TrainP.classE [0] [2]).1.state = [("linear0.weight", .param 0 "weight"), ("linear0.bias", .param 0 "bias")] := by
      decide +kernel
    have h1 : classState.lookup "linear0.weight" = some ⟨[2, 3], [1, 0, 0, 0, 1, 0].flatMap intBytes⟩ := by decide +kernel
    have h2 : classState.lookup "linear0.bias" = some ⟨[2], List.replicate 8 0⟩ := by decide +kernel
    have f1 : floats 6 ([1, 0, 0, 0, 1, 0].flatMap intBytes) = [1, 0, 0, 0, 1, 0] := by decide +kernel
    have f2 : floats 2 (List.replicate 8 0) = [0, 0] := by decide +kernel
    have l1 : ([1, 0, 0, 0, 1, 0].flatMap intBytes).length / 4 = 6 := by decide +kernel
    intro k r hk
    rw [hst] at hk
    simp only [List.mem_cons, Prod.mk.injEq, List.not_mem_nil, or_false] at hk
    rcases hk with ⟨rfl, rfl⟩ | ⟨rfl, rfl⟩
    · refine ⟨_, h1, ?_⟩
      simp only [numbers, l1, f1]
      simp [tensorAt, TrainP.classTensors]
    · refine ⟨_, h2, ?_⟩
      simp only [numbers, List.length_replicate, f2]
      simp only [tensorAt, show TrainP.classTensors.params.lookup "bias" = some ⟨⟨[2], [0, 0]⟩, ⟨[2], [0, 0]⟩, true⟩ from rfl]
      simp [f2]
  · have := lookup_mem hp
    simp only [TrainP.classTensors, List.mem_cons, Prod.mk.injEq, List.not_mem_nil, or_false] at this
    rcases this with ⟨-, rfl⟩ | ⟨-, rfl⟩ <;> rfl

end DW.Props.ReloadP
