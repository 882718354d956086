import Verif.Spec.History
import Verif.Props.LayerSpec
import Verif.Props.Graph
import Verif.Lemmas.BackendBack
import Verif.Lemmas.BackendCompile
/-! # What holds after any history of calls -/

set_option autoImplicit false

namespace DW.HistL

open DW DW.Spec DW.BackendL DW.NetL DW.Props.ContractP

noncomputable section

/-- A contract nothing fulfils. -/
def dummy {n : Nat} (ishape : Fin n → Shape) (o : Shape) (P : Nat) (fn : (Fin P → ℝ) → Args ishape → Elems o) (θ : Fin P → ℝ) :
    Contract ishape o P fn θ where
  env _ := False
  overwrites := False
  Ready _ := False
  After _ _ _ _ := False
  params h := h.elim
  ready h := h
  det h := h.elim
  regradReady h := h.elim
  regrad h := h.elim
  forward h := h.elim
  update h := h.elim
  backward h := h.elim

variable {topo : Graph → List Node} {e : Expr} {ins outs : List Nat} {m : Model} {real : F32 → ℝ} {tensors : Nat → InfoTensors}
  {L : Layers e} {θ₀ : L.Params}

/-- The contract of each layer. -/
abbrev Contracts (L : Layers e) := (env : Nat → Env) → (θ : L.Params) → (x : Nat) →
  Contract (fun j : Fin (e.argsOf x).length => phShape e (e.argsOf x)[j]) (phShape e x) (L.params x) (L.fn x (rngOf e env x)) (θ x)

/-- The states in which a layer can run. -/
abbrev States (L : Layers e) := (x : Nat) → (Fin (L.params x) → ℝ) → Cpu → Prop

/-- Contracts for the layers of the model. -/
structure Kit (m : Model) (R : States L) (K : Contracts L) : Prop where
  ready : ∀ env θ, ∀ x ∈ dataOf m, (e.callOf x).isSome → (K env θ x).Ready = R x (θ x)
  env : ∀ env θ, ∀ x ∈ dataOf m, ∀ c, e.callOf x = some c → IsPick (env c).pick → (K env θ x).env (env c)
  overwrites : ∀ env θ, ∀ x ∈ dataOf m, ∀ c, e.callOf x = some c →
    ((K env θ x).overwrites ↔ (infoOf e (e.callInfo c)).op.overwrites = true)
  setParams : ∀ x ∈ dataOf m, (e.callOf x).isSome → ∀ t t' l, R x t l → R x t' (l.setParams (List.ofFn t'))
  exact : ∀ env θ, ∀ x ∈ dataOf m, (e.callOf x).isSome → L.exact x →
    ∀ X, DifferentiableAt ℝ (L.fn x (rngOf e env x) (θ x)) X → ∀ bk pk l, (K env θ x).After X bk pk l →
      BackpropN (L.fn x (rngOf e env x) (θ x)) X bk ∧ Backprop (fun t => L.fn x (rngOf e env x) t X) (θ x) pk

/-- What is always true of the layer object that computes `x`. -/
def SaneAt (e : Expr) (real : F32 → ℝ) (x c : Nat) (l : Cpu) : Prop :=
  ∀ s ∈ (List.ofFn fun j : Fin (e.argsOf x).length => phShape e (e.argsOf x)[j]).head?,
    Sane real s (phShape e x) (infoOf e (e.callInfo c)).op l

/-- What is true of a batch normalisation layer between the calls. -/
def FormAt (e : Expr) (real : F32 → ℝ) (t : InfoTensors) (x c : Nat) (l : Cpu) : Prop :=
  ∀ s ∈ (List.ofFn fun j : Fin (e.argsOf x).length => phShape e (e.argsOf x)[j]).head?, Form real t s (phShape e x) (infoOf e (e.callInfo c)).op l

/-- How layer objects get into a state in which they can run with parameters `θ`, and what stays as it is. -/
structure Starts (m : Model) (real : F32 → ℝ) (tensors : Nat → InfoTensors) (R : States L) (θ : L.Params) : Prop where
  layer : ∀ x ∈ dataOf m, ∀ c, e.callOf x = some c →
    Starts1 real (tensors (e.callInfo c)) (infoOf e (e.callInfo c)).op (SaneAt e real x c)
      (FormAt e real (tensors (e.callInfo c)) x c) (R x) (θ x)
  retensor : ∀ x ∈ dataOf m, ∀ c, e.callOf x = some c → ∀ t l, R x t l → l.VarOk →
    DropOk real (infoOf e (e.callInfo c)).op (phShape e x) → ∀ mode t', l.Shows mode t' → ∃ f' exact',
      Computes real t' (infoOf e (e.callInfo c)).op (fun j : Fin (e.argsOf x).length => phShape e (e.argsOf x)[j]) (phShape e x)
        (L.params x) f' t exact'

theorem kit_exists (B : Built topo e ins outs m real tensors L θ₀) : ∃ (R : States L) (K : Contracts L), Kit m R K ∧
    Starts m real tensors R θ₀ := by
  have h : ∀ x, ∃ (R : (Fin (L.params x) → ℝ) → Cpu → Prop) (K : (env : Nat → Env) → (θ : Fin (L.params x) → ℝ) →
      Contract (fun j : Fin (e.argsOf x).length => phShape e (e.argsOf x)[j]) (phShape e x) (L.params x)
        (L.fn x (rngOf e env x)) θ), x ∈ dataOf m → ∀ c, e.callOf x = some c →
      (∀ env θ, (K env θ).Ready = R θ ∧ (IsPick (env c).pick → (K env θ).env (env c)) ∧
        ((K env θ).overwrites ↔ (infoOf e (e.callInfo c)).op.overwrites = true) ∧
        (L.exact x → ∀ X, DifferentiableAt ℝ (L.fn x (rngOf e env x) θ) X → ∀ bk pk l, (K env θ).After X bk pk l →
          BackpropN (L.fn x (rngOf e env x) θ) X bk ∧ Backprop (fun t => L.fn x (rngOf e env x) t X) θ pk)) ∧
      (∀ t t' l, R t l → R t' (l.setParams (List.ofFn t'))) ∧
      Starts1 real (tensors (e.callInfo c)) (infoOf e (e.callInfo c)).op (SaneAt e real x c)
        (FormAt e real (tensors (e.callInfo c)) x c) R (θ₀ x) ∧
      ∀ t l, R t l → l.VarOk → DropOk real (infoOf e (e.callInfo c)).op (phShape e x) → ∀ mode t', l.Shows mode t' → ∃ f' exact',
        Computes real t' (infoOf e (e.callInfo c)).op (fun j : Fin (e.argsOf x).length => phShape e (e.argsOf x)[j]) (phShape e x)
          (L.params x) f' t exact' := by
    intro x
    by_cases hx : x ∈ dataOf m
    · cases hc : e.callOf x with
      | none => exact ⟨fun _ _ => False, fun env θ => dummy _ _ _ _ _, fun _ c hc => by simp at hc⟩
      | some c =>
        obtain ⟨R, ⟨h1, h2⟩, h3, h4⟩ := layer (B.layers x hx c hc)
        choose K hK using fun (env : Nat → Env) (θ : Fin (L.params x) → ℝ) => h2 (rngOf e env x) (env c).pick θ
        refine ⟨R, K, fun _ c' hc' => ?_⟩
        obtain rfl := Option.some.inj hc'
        refine ⟨fun env θ => ⟨(hK env θ).1, fun hp => (hK env θ).2.1 (env c) ?_ rfl hp, (hK env θ).2.2.1, (hK env θ).2.2.2⟩, h1, h3, h4⟩
        simp [rngOf, hc]
    · exact ⟨fun _ _ => False, fun env θ => dummy _ _ _ _ _, fun h => absurd h hx⟩
  choose R K h using h
  refine ⟨R, fun env θ x => K x env (θ x), ⟨fun env θ x hx hc => ?_, fun env θ x hx c hc => ((h x hx c hc).1 env (θ x)).2.1,
    fun env θ x hx c hc => ((h x hx c hc).1 env (θ x)).2.2.1, fun x hx hc => ?_, fun env θ x hx hc => ?_⟩,
    ⟨fun x hx c hc => (h x hx c hc).2.2.1, fun x hx c hc => (h x hx c hc).2.2.2⟩⟩
  · obtain ⟨c, hc⟩ := Option.isSome_iff_exists.1 hc
    exact ((h x hx c hc).1 env (θ x)).1
  · obtain ⟨c, hc⟩ := Option.isSome_iff_exists.1 hc
    exact (h x hx c hc).2.1
  · obtain ⟨c, hc⟩ := Option.isSome_iff_exists.1 hc
    exact ((h x hx c hc).1 env (θ x)).2.2.2

theorem plan (B : Built topo e ins outs m real tensors L θ₀) : Plan e m ins outs := by
  obtain ⟨e', h⟩ := B.ctor
  exact plan_of B.reachable B.sorts h (Props.GraphP.wiring_partial B.reachable B.sorts B.orderly h)

/-- What holds after any history. -/
def Live (m : Model) (R : States L) (K : Contracts L) (θ : L.Params) (last : Option ((Nat → Env) × Vals e)) (w : World) : Prop :=
  ∃ b, Compiled e m w b ∧ (∀ x ∈ dataOf m, (e.callOf x).isSome → ∃ l, layerAt e m b x = some l ∧ R x (θ x) l) ∧
    ∀ env v, last = some (env, v) → (L.net m env).Evaluates θ v ∧ ∃ bk pk, AfterForward (K env θ) m w b v bk pk

section

variable {R : States L} {K : Contracts L} {θ : L.Params} {w w' : World} {b b' : Backend} {env : Nat → Env} {v : Vals e}

theorem Kit.layersReady (hk : Kit m R K) (h : ∀ x ∈ dataOf m, (e.callOf x).isSome → ∃ l, layerAt e m b x = some l ∧ R x (θ x) l) :
    LayersReady (K env θ) m b := fun x hx hc => by
  obtain ⟨l, h1, h2⟩ := h x hx hc
  exact ⟨l, h1, by rw [hk.ready env θ x hx hc]; exact h2⟩

theorem Kit.states (hk : Kit m R K) {bk pk} (h : AfterForward (K env θ) m w b v bk pk) :
    ∀ x ∈ dataOf m, (e.callOf x).isSome → ∃ l, layerAt e m b x = some l ∧ R x (θ x) l := fun x hx hc => by
  obtain ⟨l, h1, h2⟩ := h.layers x hx hc
  exact ⟨l, h1, by rw [← hk.ready env θ x hx hc]; exact (K env θ x).ready h2⟩

/-- Only tensors that are not private change. -/
theorem live_store {last : Option ((Nat → Env) × Vals e)} {store : List Buf} (hl : Live m R K θ last w)
    (hs : ∀ b, w.backend = some b → ∀ h ∈ privates m b, store[h]? = w.store[h]?) :
    Live m R K θ last { w with store := store } := by
  obtain ⟨b, hC, h1, h2⟩ := hl
  have hs := hs b hC.backend
  refine ⟨b, ⟨hC.backend, hC.mem_len, hC.grad_len, hC.layers_len, fun y hy => ?_, fun y hy => ?_, hC.distinct⟩, h1, fun env v hl => ?_⟩
  · obtain ⟨vals, h, hv⟩ := hC.mem y hy
    exact ⟨vals, (hs _ (mem_privates_mem hy)).trans h, hv⟩
  · obtain ⟨vals, h, hv⟩ := hC.grad y hy
    exact ⟨vals, (hs _ (mem_privates_grad hy)).trans h, hv⟩
  · obtain ⟨hv, bk, pk, h⟩ := h2 env v hl
    exact ⟨hv, bk, pk, fun y hy => (hs _ (mem_privates_mem hy)).trans (h.mem y hy), h.layers⟩

theorem compiled_lt (hC : Compiled e m w b) : ∀ h ∈ privates m b, h < w.store.length := by
  intro h hh
  rcases List.mem_append.1 hh with hh | hh
  · obtain ⟨y, hy, rfl⟩ := List.mem_map.1 hh
    obtain ⟨vals, h, -⟩ := hC.mem y hy
    exact (List.getElem?_eq_some_iff.1 h).1
  · obtain ⟨y, hy, rfl⟩ := List.mem_map.1 hh
    obtain ⟨vals, h, -⟩ := hC.grad y hy
    exact (List.getElem?_eq_some_iff.1 h).1

theorem changed_privates {f : Nat → Cpu → Cpu} (h : ChangedLayers e m b b' f) : privates m b' = privates m b := by
  unfold privates memOf gradOf
  rw [h.mem, h.grad]

/-- Layer objects change. -/
theorem compiled_changed {f : Nat → Cpu → Cpu} (hC : Compiled e m w b) (h : ChangedLayers e m b b' f) :
    Compiled e m { w with backend := some b' } b' := by
  refine ⟨rfl, by rw [h.mem, hC.mem_len], by rw [h.grad, hC.grad_len], by rw [h.length, hC.layers_len], fun y hy => ?_, fun y hy => ?_,
    by rw [changed_privates h]; exact hC.distinct⟩
  · have := hC.mem y hy
    unfold memOf at this ⊢
    rw [h.mem]; exact this
  · have := hC.grad y hy
    unfold gradOf at this ⊢
    rw [h.grad]; exact this

theorem live_setGrads {last : Option ((Nat → Env) × Vals e)} (hk : Kit m R K) (hl : Live m R K θ last w) (hb : w.backend = some b)
    {g : Nat → Cpu → List ℝ} (hg : ∀ x l, (g x l).length = l.grads.length)
    (h : ChangedLayers e m b b' fun x l => l.setGrads (g x l)) : Live m R K θ last { w with backend := some b' } := by
  obtain ⟨b₁, hC, h1, h2⟩ := hl
  obtain rfl : b₁ = b := Option.some.inj (hC.backend.symm.trans hb)
  refine ⟨b', compiled_changed hC h, fun x hx hc => ?_, fun env v hl => ?_⟩
  · obtain ⟨l, e1, e2⟩ := h1 x hx hc
    refine ⟨_, h.layer x hx l e1, ?_⟩
    rw [← hk.ready (fun _ => ⟨fun _ => 0, fun _ => 0, fun _ => 0⟩) θ x hx hc] at e2 ⊢
    exact (K _ θ x).regradReady e2 _ (hg x l)
  · obtain ⟨hv, bk, pk, hA⟩ := h2 env v hl
    refine ⟨hv, bk, pk, fun y hy => ?_, fun x hx hc => ?_⟩
    · have := hA.mem y hy
      unfold memOf at this ⊢
      rw [h.mem]; exact this
    · obtain ⟨l, e1, e2⟩ := hA.layers x hx hc
      exact ⟨_, h.layer x hx l e1, (K env θ x).regrad e2 _ (hg x l)⟩

theorem live_setParams {last : Option ((Nat → Env) × Vals e)} (hk : Kit m R K) (hl : Live m R K θ last w) (hb : w.backend = some b)
    {θ' : L.Params} (h : ChangedLayers e m b b' fun x l => l.setParams (List.ofFn (θ' x))) :
    Live m R K θ' none { w with backend := some b' } := by
  obtain ⟨b₁, hC, h1, h2⟩ := hl
  obtain rfl : b₁ = b := Option.some.inj (hC.backend.symm.trans hb)
  refine ⟨b', compiled_changed hC h, fun x hx hc => ?_, fun env v hl => by cases hl⟩
  obtain ⟨l, e1, e2⟩ := h1 x hx hc
  exact ⟨_, h.layer x hx l e1, hk.setParams x hx hc _ _ _ e2⟩

/-- `forward` in a live state. -/
theorem live_forward_ran (P : Plan e m ins outs) (hs : Sound e m ins outs) (hk : Kit m R K) {last : Option ((Nat → Env) × Vals e)}
    (hl : Live m R K θ last w) {it ot : List Nat} (ha : FwdArgs e m ins outs w b it ot) (hp : ∀ c, IsPick (env c).pick)
    (hv : (L.net m env).Evaluates θ v) (hc : Carry e w ins it v) :
    ∃ w' b', m.forward env it ot w = (.ok (), w') ∧ w'.backend = some b' ∧ SameOwner m b b' ∧ Live m R K θ (some (env, v)) w' ∧
      Carry e w' outs ot v ∧ Untouched m b w w' ot ∧
      ∀ x ∈ dataOf m, ∀ c, e.callOf x = some c → ∃ l l', layerAt e m b x = some l ∧ layerAt e m b' x = some l' ∧ R x (θ x) l ∧
        Ran x (env c) l (L.fn x (rngOf e env x) (θ x)) v l' := by
  obtain ⟨b₁, hC, h1, -⟩ := hl
  obtain rfl : b₁ = b := Option.some.inj (hC.backend.symm.trans ha.backend)
  obtain ⟨w', b', bk, pk, r1, r2, r3, r4, r5, r6, r7⟩ := forward_run (K env θ) P hs hC (hk.layersReady h1) hv
    (fun x hx c hc => hk.env env θ x hx c hc (hp c)) ha.givenIns hc ha.givenOuts ha.nodup ha.disjoint
  refine ⟨w', b', r1, r2.backend, r3, ⟨b', r2, hk.states r4, fun env' v' he => ?_⟩, r5, r6, fun x hx c hc => ?_⟩
  · obtain ⟨rfl, rfl⟩ := Prod.mk.inj (Option.some.inj he)
    exact ⟨hv, bk, pk, r4⟩
  · obtain ⟨l, l', q1, q2, q3⟩ := r7 x hx c hc
    obtain ⟨l₁, q4, q5⟩ := h1 x hx (by rw [hc]; rfl)
    obtain rfl := Option.some.inj (q1.symm.trans q4)
    exact ⟨l, l', q1, q2, q5, q3⟩

theorem live_forward (P : Plan e m ins outs) (hs : Sound e m ins outs) (hk : Kit m R K) {last : Option ((Nat → Env) × Vals e)}
    (hl : Live m R K θ last w) {it ot : List Nat} (ha : FwdArgs e m ins outs w b it ot) (hp : ∀ c, IsPick (env c).pick)
    (hv : (L.net m env).Evaluates θ v) (hc : Carry e w ins it v) :
    ∃ w' b', m.forward env it ot w = (.ok (), w') ∧ w'.backend = some b' ∧ SameOwner m b b' ∧ Live m R K θ (some (env, v)) w' ∧
      Carry e w' outs ot v ∧ Untouched m b w w' ot := by
  obtain ⟨w', b', r1, r2, r3, r4, r5, r6, -⟩ := live_forward_ran P hs hk hl ha hp hv hc
  exact ⟨w', b', r1, r2, r3, r4, r5, r6⟩

theorem Kit.replaces (hk : Kit m R K) : Replaces (fun x => (K env θ x).overwrites) e m = Replaces (writesOver e) e m := by
  funext x y
  refine propext (and_congr_right fun hx => and_congr_right fun hc => and_congr_left fun _ => ?_)
  obtain ⟨c, hc⟩ := Option.isSome_iff_exists.1 hc
  refine (hk.overwrites env θ x hx c hc).trans ⟨fun h => ⟨c, hc, h⟩, fun ⟨d, hd, h⟩ => ?_⟩
  rwa [Option.some.inj (hc.symm.trans hd)]

theorem Kit.kept (hk : Kit m R K) : Spec.kept (fun x => (K env θ x).overwrites) e m = Spec.kept (writesOver e) e m := by
  unfold Spec.kept Survives
  rw [hk.replaces]

theorem Kit.keptBase (hk : Kit m R K) : Spec.keptBase (fun x => (K env θ x).overwrites) e m = Spec.keptBase (writesOver e) e m := by
  unfold Spec.keptBase
  rw [hk.replaces]

/-- `backward` in a live state. -/
theorem live_backward (P : Plan e m ins outs) (hs : Sound e m ins outs) (hk : Kit m R K)
    (hl : Live m R K θ (some (env, v)) w) {env' : Nat → Env} {it ot gt : List Nat} {gout : Vals e}
    (ha : BwdArgs e m ins outs w b it ot gt v gout) :
    ∃ w' b' bk pk G, m.backward env' it ot gt w = (.ok (), w') ∧ w'.backend = some b' ∧ SameOwner m b b' ∧
      Live m R K θ (some (env, v)) w' ∧ AfterForward (K env θ) m w b v bk pk ∧
      Gradients m w' b' G ∧ Carry e w' outs gt G ∧
      (∀ y ∈ dataOf m, (L.net m env).Accumulates (kept (writesOver e) e m bk)
        (keptBase (writesOver e) e m fun y => if y ∈ outs then gout y else 0) G y) ∧
      ParamGradients e m b' pk G ∧ Untouched m b w w' gt := by
  obtain ⟨b₁, hC, h1, h2⟩ := hl
  obtain rfl : b₁ = b := Option.some.inj (hC.backend.symm.trans ha.backend)
  obtain ⟨hv, bk, pk, hA⟩ := h2 env v rfl
  obtain ⟨w', b', G, r1, r2, r3, r4, r5, r6, r7, r8, r9⟩ := backward_run (K env θ) P hs hC hA hv (env := env') ha.givenIns ha.insHold
    ha.givenOuts ha.outsHold ha.givenGrads ha.gradsHold ha.nodup ha.disjoint
  rw [hk.kept, hk.keptBase] at r7
  refine ⟨w', b', bk, pk, G, r1, r2.backend, r3, ⟨b', r2, hk.states r4, fun env' v' he => ?_⟩, hA, r5, r6, r7, r8, r9⟩
  obtain ⟨rfl, rfl⟩ := Prod.mk.inj (Option.some.inj he)
  exact ⟨hv, bk, pk, r4⟩

end

/-- Compiling. -/
theorem live_compile (B : Built topo e ins outs m real tensors L θ₀) {R : States L} {K : Contracts L}
    (hs : Starts m real tensors R θ₀) (junk : Nat → ℝ) (w : World) :
    ∃ w' b, m.compile e real junk tensors w = (.ok (), w') ∧ w'.backend = some b ∧ Live m R K θ₀ none w' ∧
      (∀ h < w.store.length, w'.store[h]? = w.store[h]? ∧ h ∉ privates m b) := by
  have P := plan B
  obtain ⟨w', b, h1, h2, h3, h4, h5⟩ := compile_run P (fun y hy hst => B.shapes y hy fun ho => hst ((storage_output P).2 ho))
    (R := fun x l => R x (θ₀ x) l) (fun x hx c hc => (hs.layer x hx c hc).create) junk w
  refine ⟨w', b, h1, h2.backend, ⟨b, h2, h3, fun _ _ h => by cases h⟩, fun h hh => ⟨h4 h hh, fun hp => ?_⟩⟩
  exact absurd (h5 h hp) (Nat.not_le.2 hh)

theorem live_change {R : States L} {K : Contracts L} {θ : L.Params} {last : Option ((Nat → Env) × Vals e)} {w : World}
    {b b' : Backend} (hs : Starts m real tensors R θ₀) (hl : Live m R K θ last w) (hb : w.backend = some b)
    {tensors' : Nat → InfoTensors} {L' : Layers e} {θ' : L'.Params} {R' : States L'} {K' : Contracts L'}
    (hs' : Starts m real tensors' R' θ') (h : ChangedLayers e m b b' (giveAt e tensors')) :
    Live m R' K' θ' none { w with backend := some b' } := by
  obtain ⟨b₁, hC, h1, h2⟩ := hl
  obtain rfl : b₁ = b := Option.some.inj (hC.backend.symm.trans hb)
  refine ⟨b', compiled_changed hC h, fun x hx hc => ?_, fun env v hl => by cases hl⟩
  obtain ⟨l, e1, e2⟩ := h1 x hx hc
  obtain ⟨c, hc⟩ := Option.isSome_iff_exists.1 hc
  refine ⟨_, h.layer x hx l e1, ?_⟩
  unfold giveAt
  rw [hc]
  exact (hs'.layer x hx c hc).give l ((hs.layer x hx c hc).sane _ l e2)

/-- Every history leads to a live state. -/
theorem live (B : Built topo e ins outs m real tensors L θ₀) {R : States L} {K : Contracts L} (hk : Kit m R K)
    (hs : Starts m real tensors R θ₀) {θ : L.Params} {last : Option ((Nat → Env) × Vals e)} {w : World}
    (h : History e ins outs m real tensors L θ₀ θ last w) : Live m R K θ last w := by
  induction h generalizing topo with
  | compile junk w =>
    obtain ⟨w', b, h1, -, h2, -⟩ := live_compile (K := K) B hs junk w
    rw [h1]
    exact h2
  | alloc t _ ih =>
    have ih := ih B hk hs
    refine live_store ih fun b hb h hh => ?_
    obtain ⟨b', hC, -⟩ := ih
    obtain rfl : b' = b := Option.some.inj (hC.backend.symm.trans hb)
    exact List.getElem?_append_left (compiled_lt hC h hh)
  | write h t _ hb hp ih =>
    refine live_store (ih B hk hs) fun b' hb' h' hh => ?_
    obtain rfl := Option.some.inj (hb.symm.trans hb')
    exact List.getElem?_set_ne fun he : h = h' => hp (by rw [he]; exact hh)
  | setGrads g _ hb hg hc ih => exact live_setGrads hk (ih B hk hs) hb hg hc
  | setParams θ' _ hb hc ih => exact live_setParams hk (ih B hk hs) hb hc
  | change B₁ _ hb hc ih =>
    obtain ⟨R₁, K₁, hk₁, hs₁⟩ := kit_exists B₁
    exact live_change hs₁ (ih B₁ hk₁ hs₁) hb hs hc
  | forward env it ot v _ ha hp hv hc ih =>
    obtain ⟨w', b', r1, -, -, r4, -⟩ := live_forward (plan B) B.sound hk (ih B hk hs) ha hp hv hc
    rw [r1]
    exact r4
  | backward env' it ot gt gout _ ha ih =>
    obtain ⟨w', b', bk, pk, G, r1, -, -, r4, -⟩ := live_backward (plan B) B.sound hk (ih B hk hs) (env' := env') ha
    rw [r1]
    exact r4

end

end DW.HistL
