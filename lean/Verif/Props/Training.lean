import Mathlib.Analysis.Calculus.Deriv.Prod
import Verif.Lemmas.Training
import Verif.Lemmas.Chain
import Verif.Lemmas.Total
import Verif.Lemmas.Joint
import Verif.Props.Loss
/-!
# One iteration of a training loop (C78)
-/

set_option autoImplicit false

namespace DW.Props.TrainP

open DW DW.Spec DW.HistL DW.BackendL DW.NetL DW.TrainL DW.MatL DW.Props.BackendP DW.Props.ContractP DW.Props.LossP DW.Optim

noncomputable section

variable {topo : Graph → List Node} {e : Expr} {ins outs : List Nat} {m : Model} {real : F32 → ℝ} {tensors : Nat → InfoTensors}
  {L : Layers e} {θ₀ : L.Params}

/-- `g` holds the gradient of the loss `φ` of the output `y` with respect to the parameters, at the parameters `θ` and the values
`v`: for each layer alone, and for all layers together. -/
structure LossGradient (L : Layers e) (m : Model) (env : Nat → Env) (ins : List Nat) (θ : L.Params) (v : Vals e) (y : Nat)
    (φ : Elems (phShape e y) → ℝ) (g : L.Params) : Prop where
  layer : ∀ x ∈ (L.net m env).made, ∀ W : (Fin (L.params x) → ℝ) → Vals e,
    (∀ t, (L.net m env).Evaluates (Function.update θ x t) (W t) ∧ ∀ z ∈ ins, W t z = v z) →
    IsGradient (fun t => φ (W t y)) (θ x) (g x)
  total : ∀ (u : L.Params) (W : ℝ → Vals e),
    (∀ t, (L.net m env).Evaluates (fun x i => θ x i + t * u x i) (W t) ∧ ∀ z ∈ ins, W t z = v z) →
    HasDerivAt (fun t => φ (W t y)) (∑ x ∈ (L.net m env).made, ∑ i, g x i * u x i) 0

/-- `backward` ends, and leaves gradients in the layers. If the layers are differentiable at the values and `grad_output` holds the
gradient of a loss of the output, they are the gradients of that loss. -/
theorem backward_chain {y : Nat} (B : Built topo e ins [y] m real tensors L θ₀) (ho : SoleConsumer e m [y])
    {θ : L.Params} {env : Nat → Env} {v : Vals e} {w : World}
    (h : History e ins [y] m real tensors L θ₀ θ (some (env, v)) w) {b : Backend} {env' : Nat → Env} {it ot gt : List Nat}
    {gout : Vals e} (ha : BwdArgs e m ins [y] w b it ot gt v gout) :
    ∃ (w' : World) (b' : Backend) (g : L.Params), m.backward env' it ot gt w = (.ok (), w') ∧ w'.backend = some b' ∧
      SameOwner m b b' ∧ Untouched m b w w' gt ∧
      ((∀ x ∈ (L.net m env).made, L.exact x) → NoKinks e m v → ∀ {φ : Elems (phShape e y) → ℝ}, IsGradient φ (v y) (gout y) →
        LossGradient L m env ins θ v y φ g) ∧ (∃ G, Carry e w' [y] gt G) ∧
      ∀ x ∈ (L.net m env).made, ∃ l, layerAt e m b' x = some l ∧ l.grads = List.ofFn (g x) := by
  obtain ⟨R, K, hkit, hcr⟩ := kit_exists B
  have P := plan B
  have hl := live B hkit hcr h
  have hD := P.closed (params := L.params) fun x => L.fn x (rngOf e env x)
  have hev : (L.net m env).Evaluates θ v := by obtain ⟨_, -, -, h⟩ := hl; exact (h env v rfl).1
  obtain ⟨w', b', bk, pk, G, h1, h2, h3, -, h5, -, h7, h8, h9, h10⟩ := live_backward P B.sound hkit hl (env' := env') ha
  have hbk : (∀ x ∈ (L.net m env).made, L.exact x) → NoKinks e m v → ∀ x ∈ (L.net m env).made, BackpropN (L.fn x (rngOf e env x) (θ x)) ((L.net m env).inputs v x) (bk x) ∧
      Backprop (fun t => L.fn x (rngOf e env x) t ((L.net m env).inputs v x)) (θ x) (pk x) := fun hx hk x hm => by
    have hdiff := differentiable_of_noKinks B hk env θ
    obtain ⟨hx1, hx2⟩ := mem_net.1 hm
    obtain ⟨l, -, hA⟩ := h5.layers x hx1 hx2
    exact hkit.exact env θ x hx1 hx2 (hx x hm) _ (hdiff x hm) _ _ _ hA
  have hbase : ∀ z ∈ (dataOf m).toFinset, (if z ∈ [y] then gout z else 0) = if z ∈ ({y} : Finset Nat) then gout z else 0 :=
    fun z _ => by simp
  have hG : ∀ z ∈ (dataOf m).toFinset, (L.net m env).Accumulates bk (fun z => if z ∈ [y] then gout z else 0) G z := fun z hz =>
    accumulates_sole ho (h8 z (List.mem_toFinset.1 hz))
  have hyD : y ∈ (dataOf m).toFinset := List.mem_toFinset.2 (P.outs_mem y (by simp))
  have hgiven : ∀ z ∈ (dataOf m).toFinset, z ∉ (L.net m env).made → z ∈ ins := fun z hz hn => by
    have hz := List.mem_toFinset.1 hz
    refine B.sound.listed z hz ?_
    cases hc : e.callOf z with
    | none => rfl
    | some c => exact absurd (mem_net.2 ⟨hz, by simp [hc]⟩) hn
  refine ⟨w', b', fun x => pk x (G x), h1, h2, h3, h10, fun hx hk φ hφ => ⟨fun x hm W hW => ?_, fun u W hW => ?_⟩, ⟨G, h7⟩, fun x hm => ?_⟩
  · have hbk := hbk hx hk
    exact reverse_mode_chain (N := L.net m env) (base := fun z => if z ∈ [y] then gout z else 0) hD hev (bk := bk)
      (fun x hx _ => (hbk x hx).1) hyD hφ hbase hG hm (hbk x hm).2 (fun t => (hW t).1) fun t z hz hn => (hW t).2 z (hgiven z hz hn)
  · have hbk := hbk hx hk
    have hjoint : ∀ x ∈ (L.net m env).made, DifferentiableAt ℝ (Net.joint (L.net m env) x) (θ x, (L.net m env).inputs v x) := by
      intro x hx
      obtain ⟨hx1, hx2⟩ := mem_net.1 hx
      obtain ⟨c, hc⟩ := Option.isSome_iff_exists.1 hx2
      exact SmoothP.layer_joint (B.layers x hx1 c hc) _ _ (hk x hx1 c hc)
    have hcurve : ∀ x ∈ (L.net m env).made, HasFDerivAt (fun t : ℝ => fun i => θ x i + t * u x i)
        (ContinuousLinearMap.toSpanSingleton ℝ (u x)) (0 : ℝ) := fun x _ => by
      rw [← hasDerivAt_iff_hasFDerivAt, hasDerivAt_pi]
      intro i
      simpa using ((hasDerivAt_id (0 : ℝ)).mul_const (u x i)).const_add (θ x i)
    obtain ⟨J, hJ, hsum⟩ := reverse_mode_all (N := L.net m env) hD hev (fun x hx => (hbk x hx).1) (fun x hx => (hbk x hx).2) hjoint
      (Finset.singleton_subset_iff.2 hyD) hbase hG (t₀ := (0 : ℝ)) (ϑ := fun t x i => θ x i + t * u x i)
      (by funext x i; simp) hcurve (fun t => (hW t).1) fun t z hz hn => (hW t).2 z (hgiven z hz hn)
    obtain ⟨Jφ, hJφ, hadj⟩ := hφ
    have h0 : W 0 y = v y := by
      refine evaluates_unique hD (θ := θ) ?_ hev (fun z hz hm => (hW 0).2 z (hgiven z hz hm)) y hyD
      have := (hW 0).1
      simpa using this
    rw [← h0] at hJφ
    have h1 := (hJφ.comp (0 : ℝ) (hJ y hyD)).hasDerivAt
    have h2 := hsum 1
    simp only [Finset.sum_singleton, ContinuousLinearMap.toSpanSingleton_apply, one_smul] at h2
    rw [ContinuousLinearMap.comp_apply, hadj, h2] at h1
    exact h1
  · obtain ⟨hx1, hx2⟩ := mem_net.1 hm
    exact h9 x hx1 hx2

/-- An output of shape `{B, n}` as predictions. -/
def predOf {Bt n : Nat} {s : Shape} (h : s = [(Bt : Int), n]) (u : Elems s) (i : Fin Bt) (j : Fin n) : ℝ :=
  arr (matE (show size s = Bt * n by rw [h]; exact size_mat Bt n)) u (i, j)

theorem predOf_holds {Bt n : Nat} {s : Shape} (h : s = [(Bt : Int), n]) (u : Elems s) :
    (⟨s, List.ofFn u⟩ : Buf) = predTensor (predOf h u) := by
  subst h
  unfold predTensor
  rw [ofFn_arr (size_mat Bt n)]
  rfl

theorem predOf_elems {Bt n : Nat} {s : Shape} (h : s = [(Bt : Int), n]) (y : Fin Bt → Fin n → ℝ) :
    ∃ u : Elems s, predOf h u = y := by
  subst h
  refine ⟨elems (matE (size_mat Bt n)) (Function.uncurry y), ?_⟩
  funext i j
  simp [predOf, arr, elems]

theorem predOf_gradient {Bt n : Nat} {s : Shape} (h : s = [(Bt : Int), n]) (u : Elems s) (Lb : Fin Bt → Fin n)
    (hP : ∀ i, predOf h u i (Lb i) ≠ 0) {g : Elems s} (hg : predOf h g = lossGrad (predOf h u) Lb) :
    IsGradient (fun u => crossEntropy (predOf h u) Lb) u g := by
  subst h
  obtain ⟨J, h1, h2⟩ := loss_gradient (predOf rfl u) Lb hP
  let E := matE (size_mat Bt n)
  let A : Elems [(Bt : Int), (n : Int)] →L[ℝ] (Fin Bt × Fin n → ℝ) := ContinuousLinearMap.pi fun q => ContinuousLinearMap.proj (E.symm q)
  refine ⟨J.comp A, ?_, fun v => ?_⟩
  · have : (fun q : Fin Bt × Fin n => predOf rfl u q.1 q.2) = A u := rfl
    rw [this] at h1
    exact h1.comp u A.hasFDerivAt
  · rw [ContinuousLinearMap.comp_apply, h2, ← Equiv.sum_comp E]
    refine Finset.sum_congr rfl fun k _ => ?_
    have h3 : g k = predOf rfl g (E k).1 (E k).2 := by
      show g k = g (E.symm ((E k).1, (E k).2))
      simp
    have h4 : A v (E k) = v k := by
      show v (E.symm (E k)) = v k
      simp
    rw [h3, h4, hg]

/-- The tensors one iteration works on: the inputs `it`, the output `p`, the labels `y` and the gradient `g` of the output. -/
structure BatchArgs (e : Expr) (m : Model) (ins : List Nat) (yo : Nat) {Bt n : Nat} (w : World) (b : Backend) (it : List Nat)
    (p y g : Nat) (Lb : Fin Bt → Fin n) : Prop where
  fwd : FwdArgs e m ins [yo] w b it [p]
  labels : w.store[y]? = some (labelTensor Lb)
  labelsOutside : y ∉ privates m b
  grad : Given e m w b [yo] [g]
  distinct : g ∉ it ∧ g ≠ p ∧ y ≠ p ∧ y ≠ g

section

variable {yo Bt n : Nat} {θ : L.Params} {last : Option ((Nat → Env) × Vals e)} {w : World} {b : Backend} {env env' : Nat → Env}
  {it : List Nat} {p y g : Nat} {v : Vals e} {Lb : Fin Bt → Fin n}

/-- Other layer objects do not matter. -/
theorem BatchArgs.layers (ha : BatchArgs e m ins yo w b it p y g Lb) {b' : Backend} (hs : SameOwner m b b') :
    BatchArgs e m ins yo { w with backend := some b' } b' it p y g Lb :=
  have given : ∀ {phs hs' : List Nat}, Given e m w b phs hs' → Given e m { w with backend := some b' } b' phs hs' :=
    fun h => ⟨h.length, h.room, fun k hk => by rw [hs]; exact h.outside k hk⟩
  ⟨⟨rfl, given ha.fwd.givenIns, given ha.fwd.givenOuts, ha.fwd.nodup, ha.fwd.disjoint⟩, ha.labels, by rw [hs]; exact ha.labelsOutside,
    given ha.grad, ha.distinct⟩

/-- Afterwards the same tensors may be used again. -/
theorem BatchArgs.again (ha : BatchArgs e m ins yo w b it p y g Lb) (hc : Carry e w ins it v) {w' : World} {b' : Backend}
    (hb : w'.backend = some b') (hs : SameOwner m b b') (hu : Untouched m b w w' [p, g]) {v' G : Vals e} (hp : Carry e w' [yo] [p] v')
    (hg : Carry e w' [yo] [g] G) : BatchArgs e m ins yo w' b' it p y g Lb ∧ Carry e w' ins it v := by
  have hsame : ∀ a ∈ it, w'.store[a]? = w.store[a]? := fun a hi => hu a (ha.fwd.givenIns.outside a hi) fun h => by
    rcases List.mem_cons.1 h with rfl | h
    · exact ha.fwd.disjoint a (by simp) hi
    · exact ha.distinct.1 (List.mem_singleton.1 h ▸ hi)
  have hr : ∀ {u : Vals e} {a : Nat}, Carry e w' [yo] [a] u → ∀ i z k : Nat, [yo][i]? = some z → [a][i]? = some k →
      Room w'.store (phShape e z) k := fun h i z k hz hk => ⟨_, h i z k hz hk, by simp⟩
  refine ⟨⟨⟨hb, ⟨ha.fwd.givenIns.length, fun i z k hz hk => ?_, fun k hk => by rw [hs]; exact ha.fwd.givenIns.outside k hk⟩,
    ⟨rfl, hr hp, fun k hk => by rw [hs]; exact ha.fwd.givenOuts.outside k hk⟩, ha.fwd.nodup, ha.fwd.disjoint⟩, ?_,
    by rw [hs]; exact ha.labelsOutside, ⟨rfl, hr hg, fun k hk => by rw [hs]; exact ha.grad.outside k hk⟩, ha.distinct⟩, fun i z k hz hk => ?_⟩
  · unfold Room
    rw [hsame k (List.mem_of_getElem? hk)]
    exact ha.fwd.givenIns.room i z k hz hk
  · rw [hu y ha.labelsOutside (by simpa using ha.distinct.2.2)]
    exact ha.labels
  · unfold Holds
    rw [hsame k (List.mem_of_getElem? hk)]
    exact hc i z k hz hk

/-- An iteration up to the step of the optimizer. -/
theorem batch_pass (B : Built topo e ins [yo] m real tensors L θ₀) (ho : SoleConsumer e m [yo])
    (h : History e ins [yo] m real tensors L θ₀ θ last w) (hs : phShape e yo = [(Bt : Int), n]) (hsz : Bt * n ≤ 2147483647)
    (ha : BatchArgs e m ins yo w b it p y g Lb) (hp : ∀ c, IsPick (env c).pick) (hv : (L.net m env).Evaluates θ v)
    (hc : Carry e w ins it v) :
    ∃ (w' : World) (b' : Backend) (gr : L.Params), History e ins [yo] m real tensors L θ₀ θ (some (env, v)) w' ∧
      w'.backend = some b' ∧ SameOwner m b b' ∧ Untouched m b w w' [p, g] ∧ Carry e w' [yo] [p] v ∧
      BatchArgs e m ins yo w' b' it p y g Lb ∧ Carry e w' ins it v ∧
      ((∀ x ∈ (L.net m env).made, L.exact x) → NoKinks e m v → (∀ i, 0 < predOf hs (v yo) i (Lb i)) →
        LossGradient L m env ins θ v yo (fun u => crossEntropy (predOf hs u) Lb) gr) ∧
      (∀ x ∈ (L.net m env).made, ∃ l, layerAt e m b' x = some l ∧ l.grads = List.ofFn (gr x)) ∧
      ∀ {σ : Type} (step : ParamMap → M (Opt σ) Unit) (mode : Bool) (a : σ),
        iteration step e m mode env env' it p y g (w, a) =
          (do optimizerStep step e m mode; pure (crossEntropy (predOf hs (v yo)) Lb) : M (World × σ) ℝ) (w', a) := by
  classical
  obtain ⟨hgi, hgp, hyp, hyg⟩ := ha.distinct
  obtain ⟨w₁, b₁, f1, f2, f3, f4, f5, f6⟩ := forward_evaluates_partial B h ha.fwd hp hv hc
  have h₁ : History e ins [yo] m real tensors L θ₀ θ (some (env, v)) w₁ := by
    have := History.forward env it [p] v h ha.fwd hp hv hc
    rwa [f1] at this
  have hpred : w₁.store[p]? = some (predTensor (predOf hs (v yo))) := by
    rw [← predOf_holds]
    exact f4 0 yo p rfl rfl
  have hgout := ha.grad.outside g (by simp)
  have hlab : w₁.store[y]? = some (labelTensor Lb) := by rw [f5 y ha.labelsOutside (by simpa using hyp)]; exact ha.labels
  have hgst : w₁.store[g]? = w.store[g]? := f5 g hgout (by simpa using hgp)
  obtain ⟨old, hold, hlen⟩ := ha.grad.room 0 yo g rfl rfl
  have hsize : size (phShape e yo) = Bt * n := by rw [hs]; exact size_mat Bt n
  rw [hs] at hold
  obtain ⟨u, hu⟩ := predOf_elems hs (lossGrad (predOf hs (v yo)) Lb)
  obtain ⟨log, hloss⟩ := loss_forward hsz (predOf hs (v yo)) Lb
  have hback := loss_backward hsz (predOf hs (v yo)) Lb old (by rw [hlen, hsize])
  have e1 : lossForward p y w₁ = (.ok (crossEntropy (predOf hs (v yo)) Lb), w₁) := by
    unfold lossForward
    simp [Out.idx, hpred, hlab, hloss]
  let w₂ : World := { w₁ with store := w₁.store.set g (predTensor (lossGrad (predOf hs (v yo)) Lb)) }
  have e2 : lossBackward p y g w₁ = (.ok (), w₂) := by
    unfold lossBackward
    have hne : ¬ (g = p ∨ g = y) := by rintro (rfl | rfl) <;> simp_all
    simp [Out.idx, hpred, hlab, hgst, hold, hne, hback, w₂]
  have h₂ : History e ins [yo] m real tensors L θ₀ θ (some (env, v)) w₂ := .write g _ h₁ f2 (by rw [f3]; exact hgout)
  have hset : ∀ a, a ≠ g → w₂.store[a]? = w₁.store[a]? := fun a ha => List.getElem?_set_ne (Ne.symm ha)
  have hglt : g < w₁.store.length := by
    rw [hold] at hgst
    exact (List.getElem?_eq_some_iff.1 hgst).1
  have hgw : w₂.store[g]? = some ⟨phShape e yo, List.ofFn u⟩ := by
    rw [predOf_holds hs u, hu]
    exact List.getElem?_set_self hglt
  let gout : Vals e := Function.update 0 yo u
  have hgy : gout yo = u := Function.update_self ..
  have single : ∀ {Q : Nat → Nat → Prop} {a : Nat}, Q yo a → ∀ (i z k : Nat), [yo][i]? = some z → [a][i]? = some k → Q z k := by
    intro Q a hq i z k hz hk
    cases i with
    | zero => simp at hz hk; subst hz hk; exact hq
    | succ i => simp at hz
  have hpst : w₂.store[p]? = some ⟨phShape e yo, List.ofFn (v yo)⟩ := by
    rw [hset p (Ne.symm hgp), hpred, predOf_holds hs]
  have hins : ∀ a ∈ it, w₂.store[a]? = w.store[a]? := fun a hi => by
    rw [hset a fun h => hgi (h ▸ hi), f6 a hi]
  have hbwd : BwdArgs e m ins [yo] w₂ b₁ it [p] [g] v gout := by
    refine ⟨f2, ⟨ha.fwd.givenIns.length, fun i z k hz hk => ?_, fun k hk => by rw [f3]; exact ha.fwd.givenIns.outside k hk⟩,
      fun i z k hz hk => ?_, ⟨rfl, ?_, fun k hk => by rw [f3]; exact ha.fwd.givenOuts.outside k hk⟩, ?_,
      ⟨rfl, ?_, fun k hk => by rw [f3]; exact ha.grad.outside k hk⟩, ?_, by simp, fun k hk => ?_⟩
    · unfold Room
      rw [hins k (List.mem_of_getElem? hk)]
      exact ha.fwd.givenIns.room i z k hz hk
    · unfold Holds
      rw [hins k (List.mem_of_getElem? hk)]
      exact hc i z k hz hk
    · exact single (Q := fun z k => Room w₂.store (phShape e z) k) ⟨_, hpst, by simp⟩
    · exact single (Q := fun z k => Holds w₂.store (v z) k) hpst
    · exact single (Q := fun z k => Room w₂.store (phShape e z) k) ⟨_, hgw, by simp⟩
    · exact single (Q := fun z k => Holds w₂.store (gout z) k) (by unfold Holds; rw [hgy]; exact hgw)
    · obtain rfl : k = g := by simpa using hk
      exact ⟨hgi, by simpa using hgp⟩
  have hφ (hP : ∀ i, 0 < predOf hs (v yo) i (Lb i)) : IsGradient (fun u => crossEntropy (predOf hs u) Lb) (v yo) (gout yo) := by
    rw [hgy]
    exact predOf_gradient hs (v yo) Lb (fun i => (hP i).ne') hu
  obtain ⟨w₃, b₃, gr, r1, r2, r3, r4, r5, ⟨G, r7⟩, r6⟩ := backward_chain B ho h₂ (env' := env') hbwd
  have h₃ : History e ins [yo] m real tensors L θ₀ θ (some (env, v)) w₃ := by
    have := History.backward env' it [p] [g] gout h₂ hbwd
    rwa [r1] at this
  have hun : Untouched m b w w₃ [p, g] := fun a hpriv hn => by
    simp only [List.mem_cons, List.not_mem_nil, or_false, not_or] at hn
    rw [r4 a (by rw [f3]; exact hpriv) (by simpa using hn.2), hset a hn.2, f5 a hpriv (by simpa using hn.1)]
  have hpc : Carry e w₃ [yo] [p] v := by
    refine single (Q := fun z k => Holds w₃.store (v z) k) ?_
    unfold Holds
    rw [r4 p (by rw [f3]; exact ha.fwd.givenOuts.outside p (by simp)) (by simpa using Ne.symm hgp)]
    exact hpst
  obtain ⟨ha', hc'⟩ := ha.again hc r2 (r3.trans f3) hun hpc r7
  refine ⟨w₃, b₃, gr, h₃, r2, r3.trans f3, hun, hpc, ha', hc', fun hx hk hP => r5 hx hk (hφ hP), r6, fun step mode a => ?_⟩
  · have on : ∀ {α : Type} {x : M World α} {u u' : World} {r : α}, x u = (.ok r, u') → onWorld x (u, a) = (.ok r, u', a) :=
      fun hx => by unfold onWorld; simp only [hx]
    unfold iteration
    rw [M.bind_ok (on f1), M.bind_ok (on e1), M.bind_ok (on e2), M.bind_ok (on r1)]

/-- **C78.** One iteration of a training loop with `SGD` is one step of gradient descent on the loss of the batch: it returns the
cross-entropy of the model's predictions, and then every parameter `u` is `u - lr*g`, where `g` is the derivative of that loss with
respect to the parameter. Of the tensors of the caller only the predictions and their gradient have changed, and they may be used
for the next iteration. -/
theorem sgd_iteration (B : Built topo e ins [yo] m real tensors L θ₀) (ho : SoleConsumer e m [yo])
    (h : History e ins [yo] m real tensors L θ₀ θ last w) (hs : phShape e yo = [(Bt : Int), n]) (hsz : Bt * n ≤ 2147483647)
    (ha : BatchArgs e m ins yo w b it p y g Lb) (hp : ∀ c, IsPick (env c).pick) (hv : (L.net m env).Evaluates θ v)
    (hc : Carry e w ins it v) (hx : ∀ x ∈ (L.net m env).made, L.exact x) (hk : NoKinks e m v)
    (hP : ∀ i, 0 < predOf hs (v yo) i (Lb i)) :
    ∃ gr : L.Params, LossGradient L m env ins θ v yo (fun u => crossEntropy (predOf hs u) Lb) gr ∧
    ∀ lr : ℝ, ∃ (w' : World) (b' : Backend),
      iteration sgdStep e m true env env' it p y g (w, lr) = (.ok (crossEntropy (predOf hs (v yo)) Lb), w', lr) ∧
      History e ins [yo] m real tensors L θ₀ (fun x i => θ x i - lr * gr x i) none w' ∧
      w'.backend = some b' ∧ SameOwner m b b' ∧ Untouched m b w w' [p, g] ∧ Carry e w' [yo] [p] v ∧
      BatchArgs e m ins yo w' b' it p y g Lb ∧ Carry e w' ins it v := by
  obtain ⟨w₃, b₃, gr, h1, h2, h3, h4, h5, hb, hcw, h6, h7, h8⟩ := batch_pass B ho h hs hsz ha hp hv hc (env' := env')
  refine ⟨gr, h6 hx hk hP, fun lr => ?_⟩
  obtain ⟨b₄, s1, s2⟩ := sgd_layers B h1 h2 lr
  have hs2 := changed_privates s2
  refine ⟨{ w₃ with backend := some b₄ }, b₄, ?_, ?_, rfl, hs2.trans h3, h4, h5, hb.layers hs2, hcw⟩
  · rw [h8, M.bind_ok s1]
    rfl
  · refine .setParams _ h1 h2 ⟨s2.mem, s2.grad, s2.length, fun x hx' l hl => ?_⟩
    rw [s2.layer x hx' l hl]
    cases hcx : e.callOf x with
    | none => unfold layerAt at hl; rw [hcx] at hl; cases hl
    | some c =>
      obtain ⟨l₁, e1, e2, -⟩ := (layer_facts B h1 h2).2 x hx' c hcx
      obtain rfl := Option.some.inj (hl.symm.trans e1)
      obtain ⟨l₂, e3, e4⟩ := h7 x (mem_net.2 ⟨hx', by simp [hcx]⟩)
      obtain rfl := Option.some.inj (hl.symm.trans e3)
      rw [e2, e4]
      congr 2
      exact List.ext_getElem (by simp) fun k k1 k2 => by simp

end

/-- In every model with one output of shape `{B, n}`, with any inputs and labels, a program can come to the point of an iteration. -/
theorem batch_session {yo Bt n : Nat} (B : Built topo e ins [yo] m real tensors L θ₀) (env : Nat → Env) (inp : Vals e)
    (Lb : Fin Bt → Fin n) :
    ∃ (v : Vals e) (w : World) (b : Backend) (it : List Nat) (p y g : Nat), (L.net m env).Evaluates θ₀ v ∧ (∀ y ∈ ins, v y = inp y) ∧
      History e ins [yo] m real tensors L θ₀ θ₀ none w ∧ BatchArgs e m ins yo w b it p y g Lb ∧ Carry e w ins it v ∧
      (p :: g :: y :: it).Nodup := by
  let S : List Buf := ins.map fun y => ⟨phShape e y, List.ofFn (inp y)⟩
  let z : Buf := ⟨phShape e yo, List.ofFn (0 : Elems (phShape e yo))⟩
  let w₀ : World := ⟨S ++ [z, labelTensor Lb, z], none⟩
  have hS : S.length = ins.length := by simp [S]
  have hlen : w₀.store.length = ins.length + 3 := by simp [w₀, hS]
  obtain ⟨v, ⟨hv, hi⟩, -⟩ := values_exist B env θ₀ inp
  obtain ⟨w, b, c1, c2, c3⟩ := compile_succeeds B (fun _ => 0) w₀
  have hist : History e ins [yo] m real tensors L θ₀ θ₀ none w := by
    have := History.compile (e := e) (ins := ins) (outs := [yo]) (m := m) (real := real) (tensors := tensors) (L := L) (θ₀ := θ₀)
      (fun _ => 0) w₀
    rw [c1] at this
    exact this
  have last : ∀ (k : Nat) (t : Buf), [z, labelTensor Lb, z][k]? = some t → w.store[ins.length + k]? = some t := fun k t h => by
    have hk : k < 3 := (List.getElem?_eq_some_iff.1 h).1
    rw [(c3 _ (by omega)).1]
    show (S ++ [z, labelTensor Lb, z])[ins.length + k]? = _
    rw [List.getElem?_append_right (by omega), hS, Nat.add_sub_cancel_left]
    exact h
  have first : ∀ i y h : Nat, ins[i]? = some y → (List.range ins.length)[i]? = some h → Holds w.store (inp y) h := fun i y h hy hh => by
    obtain ⟨h1, h2⟩ := List.getElem?_eq_some_iff.1 hh
    rw [List.getElem_range] at h2
    subst h2
    have hlt : i < ins.length := by simpa using h1
    unfold Holds
    rw [(c3 _ (by omega)).1]
    show (S ++ [z, labelTensor Lb, z])[i]? = _
    rw [List.getElem?_append_left (by omega), List.getElem?_map, hy]
    rfl
  have out : ∀ a, a < ins.length + 3 → a ∉ privates m b := fun a ha => (c3 a (by omega)).2
  have one : ∀ k, w.store[k]? = some z → ∀ i y h : Nat, [yo][i]? = some y → [k][i]? = some h → Room w.store (phShape e y) h := by
    intro k hk i y h hy hh
    cases i with
    | zero => simp at hy hh; subst hy hh; exact ⟨_, hk, by simp⟩
    | succ i => simp at hy
  have rng : ∀ a ∈ List.range ins.length, a < ins.length := fun a ha => List.mem_range.1 ha
  refine ⟨v, w, b, List.range ins.length, ins.length + 0, ins.length + 1, ins.length + 2, hv, hi, hist, ⟨⟨c2, ⟨by simp, fun i y h hy hh =>
      ⟨_, first i y h hy hh, by simp⟩, fun a ha => out a (by have := rng a ha; omega)⟩, ⟨rfl, one _ (last 0 z rfl), fun a ha => out a ?_⟩,
      by simp, fun a ha hb => ?_⟩, last 1 _ rfl, out _ (by omega), ⟨rfl, one _ (last 2 z rfl), fun a ha => out a ?_⟩, ?_⟩,
      fun i y h hy hh => ?_, ?_⟩
  · have := List.mem_singleton.1 ha
    omega
  · have h1 := List.mem_singleton.1 ha
    have h2 := rng a hb
    omega
  · have := List.mem_singleton.1 ha
    omega
  · refine ⟨fun h => ?_, by omega, by omega, by omega⟩
    have := rng _ h
    omega
  · rw [hi y (List.mem_of_getElem? hy)]
    exact first i y h hy hh
  · simp [List.nodup_range]

/-! ### A classifier -/

/-- `y = Softmax(Linear(x, 2))` for a batch of two rows of three numbers. -/
def classifier : M Expr Nat := do
  let x ← Expr.placeholder [2, 3]
  let a ← Expr.makeLayer "Linear" "" [("units", .int 2)] [x]
  Expr.makeLayer "Softmax" "" [] [a]

def classE : Expr := (classifier {}).2

theorem class_reachable : Reachable classE :=
  GraphP.reachable_bind (.placeholder _ .empty) fun _ _ _ h => GraphP.reachable_bind (.makeLayer _ _ _ _ h) fun _ _ _ h => .makeLayer _ _ _ _ h

theorem classE_eq : classE =
    { phs := [⟨[2, 3], none⟩, ⟨[2, 2], some 0⟩, ⟨[2, 2], some 1⟩]
      calls := [⟨0, [0]⟩, ⟨1, [1]⟩]
      infos := [⟨"", .linear 2, [("weight", ⟨[2, 3], true⟩), ("bias", ⟨[2], true⟩)], []⟩, ⟨"", .softmax, [], []⟩] } := by
  decide +kernel

/-- Tensors for its `Linear` layer. -/
def classTensors : InfoTensors where
  params := [("weight", ⟨⟨[2, 3], [1, 0, 0, 0, 1, 0]⟩, ⟨[2, 3], [0, 0, 0, 0, 0, 0]⟩, true⟩), ("bias", ⟨⟨[2], [0, 0]⟩, ⟨[2], [0, 0]⟩, true⟩)]
  buffers := []

theorem class_built_of (real : F32 → ℝ) : ∃ (m : Model) (L : Layers classE) (θ₀ : L.Params),
    Built (creationOrder classE) classE [0] [2] m real (fun _ => classTensors) L θ₀ ∧ dataOf m = [0, 1, 2] := by
  have ht : SortsCorrectly (creationOrder classE) classE [0] [2] := GraphP.topological_order_exists class_reachable (by decide +kernel)
  obtain ⟨m, hm, hd⟩ := look (f := fun m => sortedData m.sorted)
    (show GraphP.observe (modelCtor (creationOrder classE) [0] [2] classE) _ = some [0, 1, 2] by decide +kernel)
  have hd' : dataOf m = [0, 1, 2] := hd
  have ho : Orderly classE [2] := orderly_of_desc class_reachable (by decide) fun x => by
    rw [classE_eq]
    match x with
    | 0 | 1 | 2 => decide +kernel
    | x + 3 => exact List.Pairwise.nil
  have hsound : Sound classE m [0] [2] :=
    ⟨by rw [classE_eq]; decide, by rw [classE_eq, hd']; decide, by rw [classE_eq]; decide, by decide, by decide⟩
  have hcf : ∀ s : Shape, s = [2, 3] ∨ s = [2, 2] ∨ s = [3] → Static s ∧ CountFits s := by
    rintro s (rfl | rfl | rfl)
    · refine ⟨by decide, fun k => ?_⟩
      rcases k with _ | _ | _ | k <;> simp
    · refine ⟨by decide, fun k => ?_⟩
      rcases k with _ | _ | _ | k <;> simp
    · refine ⟨by decide, fun k => ?_⟩
      rcases k with _ | _ | k <;> simp
  have hsh : ∀ y ∈ dataOf m, phShape classE y = [2, 3] ∨ phShape classE y = [2, 2] ∨ phShape classE y = [3] := by
    rw [hd', classE_eq]; decide
  have hfit : AllFit classE m real (fun _ => classTensors) := by
    refine ⟨fun x hx c hc => ?_, fun x hx c hc => ?_⟩ <;> rw [hd'] at hx <;> simp only [List.mem_cons, List.not_mem_nil, or_false] at hx <;>
      rw [classE_eq] at hc ⊢ <;> rcases hx with rfl | rfl | rfl <;> first | (obtain rfl := Option.some.inj hc) | exact absurd hc (by simp [Expr.callOf])
    · exact ⟨by decide, 2, [3], rfl, by decide, hcf [3] (by simp)⟩
    · exact ⟨2, 2, rfl, by decide⟩
    · refine ⟨true, fun ps bs hb => ?_⟩
      obtain ⟨rfl, rfl⟩ : [("weight", [2, 3]), ("bias", [2])] = ps ∧ [] = bs := Prod.mk.inj (Out.ok.inj hb)
      simp only [List.forall_mem_cons, List.not_mem_nil, false_imp_iff, implies_true, and_true]
      exact ⟨⟨[1, 0, 0, 0, 1, 0], ⟨_, rfl, rfl⟩, rfl⟩, ⟨[0, 0], ⟨_, rfl, rfl⟩, rfl⟩⟩
    · exact tensorsFit_nil rfl
  obtain ⟨L, θ₀, B⟩ := built_exists class_reachable ht hm ho hsound (fun y hy _ => hcf _ (hsh y hy)) hfit
  exact ⟨m, L, θ₀, B, hd'⟩

theorem class_built : ∃ (m : Model) (L : Layers classE) (θ₀ : L.Params),
    Built (creationOrder classE) classE [0] [2] m (fun _ => 1) (fun _ => classTensors) L θ₀ ∧ dataOf m = [0, 1, 2] := class_built_of _

theorem computes_linear {t : InfoTensors} {op : Op} {n : Nat} {ishape : Fin n → Shape} {o : Shape} {P : Nat}
    {fn : (Nat → ℝ) → (Fin P → ℝ) → Args ishape → Elems o} {θ : Fin P → ℝ} {ex : Prop} (h : Computes real t op ishape o P fn θ ex)
    {u : Int} (hop : op = .linear u) : ex := by
  cases h with
  | one hn hs ho h => subst hop; cases h; trivial
  | add hn h₀ h₁ => cases hop

theorem computes_softmax {t : InfoTensors} {op : Op} {n : Nat} {ishape : Fin n → Shape} {o : Shape} {P : Nat}
    {fn : (Nat → ℝ) → (Fin P → ℝ) → Args ishape → Elems o} {θ : Fin P → ℝ} {ex : Prop} (h : Computes real t op ishape o P fn θ ex)
    (hop : op = .softmax) : ex ∧ ∀ r t X i, 0 < fn r t X i := by
  cases h with
  | one hn hs ho h =>
    subst hop
    cases h with
    | softmax hn θ =>
      refine ⟨trivial, fun r t X i => ?_⟩
      simp only [recast, softmaxFn, elems, Function.uncurry, softmax]
      exact div_pos (Real.exp_pos _) (DerivL.softmax_pos _ _ ⟨0, hn⟩)
  | add hn h₀ h₁ => cases hop

/-- What `sgd_iteration` assumes holds for the classifier at any inputs and labels. -/
theorem class_ready : ∃ (m : Model) (L : Layers classE) (θ₀ : L.Params), dataOf m = [0, 1, 2] ∧
    Built (creationOrder classE) classE [0] [2] m (fun _ => 1) (fun _ => classTensors) L θ₀ ∧ SoleConsumer classE m [2] ∧
    ∃ hs : phShape classE 2 = [((2 : Nat) : Int), (2 : Nat)], ∀ (env : Nat → Env) (θ : L.Params) (v : Vals classE) (Lb : Fin 2 → Fin 2),
      (L.net m env).Evaluates θ v →
      (∀ x ∈ (L.net m env).made, L.exact x) ∧ NoKinks classE m v ∧ ∀ i, 0 < predOf hs (v 2) i (Lb i) := by
  obtain ⟨m, L, θ₀, B, hd⟩ := class_built
  have hcall : ∀ x ∈ dataOf m, ∀ c, classE.callOf x = some c → x = 1 ∧ c = 0 ∨ x = 2 ∧ c = 1 := fun x hx c hc => by
    rw [hd] at hx
    simp only [List.mem_cons, List.not_mem_nil, or_false] at hx
    rw [classE_eq] at hc
    rcases hx with rfl | rfl | rfl
    · exact absurd hc (by simp [Expr.callOf])
    · exact .inl ⟨rfl, (Option.some.inj hc).symm⟩
    · exact .inr ⟨rfl, (Option.some.inj hc).symm⟩
  have hop0 : (infoOf classE (classE.callInfo 0)).op = .linear 2 := by rw [classE_eq]; rfl
  have hop1 : (infoOf classE (classE.callInfo 1)).op = .softmax := by rw [classE_eq]; rfl
  have h1 := computes_linear (B.layers 1 (by rw [hd]; decide) 0 (by rw [classE_eq]; rfl)) hop0
  have h2 := computes_softmax (B.layers 2 (by rw [hd]; decide) 1 (by rw [classE_eq]; rfl)) hop1
  refine ⟨m, L, θ₀, hd, B, fun x y h => ?_, by rw [classE_eq]; rfl, fun env θ v Lb hv => ⟨fun x hx => ?_, fun x hx c hc => ?_, fun i => ?_⟩⟩
  · obtain ⟨hx, -, ⟨c, hc, ho⟩, -⟩ := h
    rcases hcall x hx c hc with ⟨rfl, rfl⟩ | ⟨rfl, rfl⟩
    · rw [hop0] at ho; cases ho
    · rw [hop1] at ho; cases ho
  · obtain ⟨hx, hc⟩ := mem_net.1 hx
    obtain ⟨c, hc⟩ := Option.isSome_iff_exists.1 hc
    rcases hcall x hx c hc with ⟨rfl, rfl⟩ | ⟨rfl, rfl⟩
    · exact h1
    · exact h2.1
  · rcases hcall x hx c hc with ⟨rfl, rfl⟩ | ⟨rfl, rfl⟩
    · rw [hop0]; trivial
    · rw [hop1]; trivial
  · have := hv 2 (mem_net.2 ⟨by rw [hd]; decide, by rw [classE_eq]; rfl⟩)
    unfold predOf arr
    rw [this]
    exact h2.2 _ _ _ _

/-- An iteration on the classifier. -/
example : ∃ (m : Model) (L : Layers classE) (θ₀ θ' : L.Params) (w w' : World) (env : Nat → Env) (it : List Nat) (p y g : Nat) (loss : ℝ),
    Built (creationOrder classE) classE [0] [2] m (fun _ => 1) (fun _ => classTensors) L θ₀ ∧
    History classE [0] [2] m (fun _ => 1) (fun _ => classTensors) L θ₀ θ₀ none w ∧
    iteration sgdStep classE m true env env it p y g (w, 1) = (.ok loss, w', 1) ∧
    History classE [0] [2] m (fun _ => 1) (fun _ => classTensors) L θ₀ θ' none w' := by
  obtain ⟨m, L, θ₀, hd, B, ho, hs, hall⟩ := class_ready
  obtain ⟨pick, hpick⟩ := Props.MaxPoolP.exists_pick
  let env : Nat → Env := fun _ => ⟨fun _ => 0, fun _ => 0, pick⟩
  obtain ⟨v, w, b, it, p, y, g, hv, -, hist, ha, hc, -⟩ := batch_session B env (fun _ _ => 1) (![0, 1] : Fin 2 → Fin 2)
  obtain ⟨hx, hk, hP⟩ := hall env θ₀ v ![0, 1] hv
  obtain ⟨gr, -, hlr⟩ := sgd_iteration B ho hist hs (by norm_num) ha (fun _ => hpick) hv hc hx hk hP (env' := env)
  obtain ⟨w', b', h1, h2, -⟩ := hlr 1
  exact ⟨m, L, θ₀, _, w, w', env, it, p, y, g, _, B, hist, h1, h2⟩

end

end DW.Props.TrainP
