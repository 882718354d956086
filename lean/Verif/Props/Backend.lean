import Verif.Lemmas.Passes
/-!
# Running a compiled model

The theorems speak of a model constructed with the public API (`Spec.Built`) in a state reached by any history of
calls since `compile` (`Spec.History`).
-/

set_option autoImplicit false

namespace DW.Props.BackendP

open DW DW.Spec DW.HistL DW.BackendL DW.NetL

noncomputable section

variable {topo : Graph → List Node} {e : Expr} {ins outs : List Nat} {m : Model} {real : F32 → ℝ} {tensors : Nat → InfoTensors}
  {L : Layers e} {θ₀ : L.Params}

theorem mem_net {env : Nat → Env} {x : Nat} : x ∈ (L.net m env).made ↔ x ∈ dataOf m ∧ (e.callOf x).isSome := by
  simp [Layers.net, netOf, dataOf]

/-- `compile` succeeds, whatever the state before, and leaves the caller's tensors alone. -/
theorem compile_succeeds (B : Built topo e ins outs m real tensors L θ₀) (junk : Nat → ℝ) (w : World) :
    ∃ w' b, m.compile e real junk tensors w = (.ok (), w') ∧ w'.backend = some b ∧
      ∀ h < w.store.length, w'.store[h]? = w.store[h]? ∧ h ∉ privates m b := by
  obtain ⟨R, K, -, hc⟩ := kit_exists B
  obtain ⟨w', b, h1, h2, -, h3⟩ := live_compile (K := K) B hc junk w
  exact ⟨w', b, h1, h2, h3⟩

/-- For all inputs and parameters the expressions have exactly one value. -/
theorem values_exist (B : Built topo e ins outs m real tensors L θ₀) (env : Nat → Env) (θ : L.Params) (inp : Vals e) :
    ∃ v : Vals e, ((L.net m env).Evaluates θ v ∧ ∀ y ∈ ins, v y = inp y) ∧
      ∀ v' : Vals e, (L.net m env).Evaluates θ v' → (∀ y ∈ ins, v' y = inp y) → ∀ y ∈ dataOf m, v' y = v y := by
  have P := plan B
  have hD := P.closed (params := L.params) fun x => L.fn x (rngOf e env x)
  have hin : ∀ y ∈ ins, y ∉ (L.net m env).made := fun y hy h => by
    have := (mem_net.1 h).2
    rw [B.sound.given y hy] at this
    cases this
  refine ⟨eval (L.net m env) θ inp, ⟨eval_made hD inp, fun y hy => eval_given inp (hin y hy)⟩, fun v' hv' hi y hy => ?_⟩
  refine evaluates_unique (N := L.net m env) hD hv' (eval_made hD inp) (fun z hz hn => ?_) y (List.mem_toFinset.2 hy)
  have hz := List.mem_toFinset.1 hz
  have : z ∈ ins := B.sound.listed z hz (by
    cases hc : e.callOf z with
    | none => rfl
    | some c => exact absurd (mem_net.2 ⟨hz, by simp [hc]⟩) hn)
  rw [hi z this, eval_given inp hn]

/-- **C19.** After any history, `forward` returns normally and leaves in the output tensors the values of the output
expressions; nothing else the caller can see changes, in particular no input. Restricted to models with orderly wiring, all of
whose sources are listed as inputs and all of whose outputs are computed by layers. -/
theorem forward_evaluates_partial (B : Built topo e ins outs m real tensors L θ₀) {θ : L.Params} {last : Option ((Nat → Env) × Vals e)}
    {w : World} (h : History e ins outs m real tensors L θ₀ θ last w) {b : Backend} {env : Nat → Env} {it ot : List Nat} {v : Vals e}
    (ha : FwdArgs e m ins outs w b it ot) (hp : ∀ c, IsPick (env c).pick) (hv : (L.net m env).Evaluates θ v)
    (hc : Carry e w ins it v) :
    ∃ w' b', m.forward env it ot w = (.ok (), w') ∧ w'.backend = some b' ∧ SameOwner m b b' ∧ Carry e w' outs ot v ∧
      Untouched m b w w' ot ∧ ∀ h ∈ it, w'.store[h]? = w.store[h]? := by
  obtain ⟨R, K, hk, hcr⟩ := kit_exists B
  obtain ⟨w', b', h1, h2, h3, -, h4, h5⟩ := live_forward (plan B) B.sound hk (live B hk hcr h) ha hp hv hc
  exact ⟨w', b', h1, h2, h3, h4, h5, fun a hi => h5 a (ha.givenIns.outside a hi) fun ho => ha.disjoint a ho hi⟩

/-- The values before `forward` may be taken from the input tensors. -/
theorem values_of_inputs (B : Built topo e ins outs m real tensors L θ₀) {w : World} {b : Backend} {it ot : List Nat}
    (ha : FwdArgs e m ins outs w b it ot) (env : Nat → Env) (θ : L.Params) :
    ∃ v : Vals e, (L.net m env).Evaluates θ v ∧ Carry e w ins it v := by
  classical
  have hroom : ∀ y, ∃ u : Elems (phShape e y), ∀ i h : Nat, ins[i]? = some y → it[i]? = some h → Holds w.store u h := fun y => by
    by_cases hy : ∃ i h : Nat, ins[i]? = some y ∧ it[i]? = some h
    · obtain ⟨i, h, hi, hh⟩ := hy
      obtain ⟨vals, hv, hl⟩ := ha.givenIns.room i y h hi hh
      refine ⟨fun k => vals[k]'(by rw [hl]; exact k.isLt), fun i' h' hi' hh' => ?_⟩
      have : i' = i := by
        obtain ⟨l1, e1⟩ := List.getElem?_eq_some_iff.1 hi
        obtain ⟨l2, e2⟩ := List.getElem?_eq_some_iff.1 hi'
        exact (List.Nodup.getElem_inj_iff B.sound.nodupIns).1 (e2.trans e1.symm)
      subst this
      obtain rfl := Option.some.inj (hh.symm.trans hh')
      unfold Holds
      rw [hv]
      congr 2
      exact List.ext_getElem (by simp [hl]) fun k h1 h2 => by simp
    · exact ⟨0, fun i h hi hh => absurd ⟨i, h, hi, hh⟩ hy⟩
  choose inp hinp using hroom
  obtain ⟨v, ⟨hv, hi⟩, -⟩ := values_exist B env θ inp
  refine ⟨v, hv, fun i y h hy hh => ?_⟩
  rw [hi y (List.mem_of_getElem? hy)]
  exact hinp y i h hy hh

theorem rngOf_same {env₁ env₂ : Nat → Env} (hr : ∀ c, (env₁ c).rng = (env₂ c).rng) : rngOf e env₁ = rngOf e env₂ := by
  funext x
  unfold rngOf
  cases e.callOf x with
  | none => rfl
  | some c => exact hr c

/-- Two forward passes with the same inputs. -/
theorem values_same (B : Built topo e ins outs m real tensors L θ₀) {env₁ env₂ : Nat → Env} {θ : L.Params} {v₁ v₂ : Vals e}
    (hr : ∀ x ∈ dataOf m, (e.callOf x).isSome → L.fn x (rngOf e env₁ x) = L.fn x (rngOf e env₂ x))
    (h₁ : (L.net m env₁).Evaluates θ v₁) (h₂ : (L.net m env₂).Evaluates θ v₂) (hi : ∀ y ∈ ins, v₁ y = v₂ y) :
    ∀ y ∈ dataOf m, v₁ y = v₂ y := by
  have h₁' : (L.net m env₂).Evaluates θ v₁ := fun x hx => by
    have hx' := mem_net.1 hx
    have := h₁ x (mem_net.2 hx')
    simp only [Layers.net, netOf] at this ⊢
    rw [hr x hx'.1 hx'.2] at this
    exact this
  obtain ⟨v, -, hu⟩ := values_exist B env₂ θ v₂
  intro y hy
  rw [hu v₁ h₁' hi y hy, hu v₂ h₂ (fun _ _ => rfl) y hy]

/-- Two calls of `forward` with the same inputs. -/
theorem forward_same (B : Built topo e ins outs m real tensors L θ₀) {θ : L.Params}
    {last₁ last₂ : Option ((Nat → Env) × Vals e)} {w₁ w₂ : World} (h₁ : History e ins outs m real tensors L θ₀ θ last₁ w₁)
    (h₂ : History e ins outs m real tensors L θ₀ θ last₂ w₂) {b₁ b₂ : Backend} {env₁ env₂ : Nat → Env} {it₁ it₂ ot₁ ot₂ : List Nat}
    (ha₁ : FwdArgs e m ins outs w₁ b₁ it₁ ot₁) (ha₂ : FwdArgs e m ins outs w₂ b₂ it₂ ot₂)
    (hp₁ : ∀ c, IsPick (env₁ c).pick) (hp₂ : ∀ c, IsPick (env₂ c).pick)
    (hr : ∀ x ∈ dataOf m, (e.callOf x).isSome → L.fn x (rngOf e env₁ x) = L.fn x (rngOf e env₂ x))
    (hi : ∀ i k₁ k₂ : Nat, it₁[i]? = some k₁ → it₂[i]? = some k₂ → w₁.store[k₁]? = w₂.store[k₂]?) :
    ∃ w₁' w₂', m.forward env₁ it₁ ot₁ w₁ = (.ok (), w₁') ∧ m.forward env₂ it₂ ot₂ w₂ = (.ok (), w₂') ∧
      ∀ i k₁ k₂ : Nat, ot₁[i]? = some k₁ → ot₂[i]? = some k₂ → w₁'.store[k₁]? = w₂'.store[k₂]? := by
  obtain ⟨v₁, hv₁, hc₁⟩ := values_of_inputs B ha₁ env₁ θ
  obtain ⟨v₂, hv₂, hc₂⟩ := values_of_inputs B ha₂ env₂ θ
  obtain ⟨w₁', -, r₁, -, -, o₁, -⟩ := forward_evaluates_partial B h₁ ha₁ hp₁ hv₁ hc₁
  obtain ⟨w₂', -, r₂, -, -, o₂, -⟩ := forward_evaluates_partial B h₂ ha₂ hp₂ hv₂ hc₂
  have hsame := values_same B hr hv₁ hv₂ fun y hy => by
    obtain ⟨i, hi', rfl⟩ := List.getElem_of_mem hy
    have l₁ : i < it₁.length := by rw [ha₁.givenIns.length]; exact hi'
    have l₂ : i < it₂.length := by rw [ha₂.givenIns.length]; exact hi'
    have e₁ := hc₁ i _ _ (List.getElem?_eq_getElem hi') (List.getElem?_eq_getElem l₁)
    have e₂ := hc₂ i _ _ (List.getElem?_eq_getElem hi') (List.getElem?_eq_getElem l₂)
    unfold Holds at e₁ e₂
    rw [hi i _ _ (List.getElem?_eq_getElem l₁) (List.getElem?_eq_getElem l₂), e₂] at e₁
    have := (Buf.mk.inj (Option.some.inj e₁)).2
    exact (List.ofFn_injective this).symm
  refine ⟨w₁', w₂', r₁, r₂, fun i k₁ k₂ hk₁ hk₂ => ?_⟩
  have hlt : i < outs.length := by
    rw [← ha₁.givenOuts.length]
    exact (List.getElem?_eq_some_iff.1 hk₁).1
  have e₁ := o₁ i _ _ (List.getElem?_eq_getElem hlt) hk₁
  have e₂ := o₂ i _ _ (List.getElem?_eq_getElem hlt) hk₂
  unfold Holds at e₁ e₂
  rw [e₁, e₂, hsame outs[i] ((plan B).outs_mem _ (List.getElem_mem hlt))]

/-- **C20.** The outputs of `forward` depend on the parameters, the inputs and the random numbers only: not on the history, the
tensors used, or their previous contents. -/
theorem forward_repeatable (B : Built topo e ins outs m real tensors L θ₀) {θ : L.Params}
    {last₁ last₂ : Option ((Nat → Env) × Vals e)} {w₁ w₂ : World} (h₁ : History e ins outs m real tensors L θ₀ θ last₁ w₁)
    (h₂ : History e ins outs m real tensors L θ₀ θ last₂ w₂) {b₁ b₂ : Backend} {env₁ env₂ : Nat → Env} {it₁ it₂ ot₁ ot₂ : List Nat}
    (ha₁ : FwdArgs e m ins outs w₁ b₁ it₁ ot₁) (ha₂ : FwdArgs e m ins outs w₂ b₂ it₂ ot₂)
    (hp₁ : ∀ c, IsPick (env₁ c).pick) (hp₂ : ∀ c, IsPick (env₂ c).pick) (hr : ∀ c, (env₁ c).rng = (env₂ c).rng)
    (hi : ∀ i k₁ k₂ : Nat, it₁[i]? = some k₁ → it₂[i]? = some k₂ → w₁.store[k₁]? = w₂.store[k₂]?) :
    ∃ w₁' w₂', m.forward env₁ it₁ ot₁ w₁ = (.ok (), w₁') ∧ m.forward env₂ it₂ ot₂ w₂ = (.ok (), w₂') ∧
      ∀ i k₁ k₂ : Nat, ot₁[i]? = some k₁ → ot₂[i]? = some k₂ → w₁'.store[k₁]? = w₂'.store[k₂]? :=
  forward_same B h₁ h₂ ha₁ ha₂ hp₁ hp₂ (fun x _ _ => by rw [rngOf_same hr]) hi

/-- **C20.** Without `compile`, `forward` throws and changes nothing. -/
theorem forward_needs_compile (m : Model) (env : Nat → Env) (it ot : List Nat) {w : World} (hw : w.backend = none) :
    m.forward env it ot w = (.throw .dw, w) := by
  have h : needBackend w = (.throw .dw, w) := by simp only [needBackend, hw]
  unfold Model.forward
  exact M.bind_throw h

/-- **C20.** Without `compile`, `backward` throws and changes nothing. -/
theorem backward_needs_compile (m : Model) (env : Nat → Env) (it ot gt : List Nat) {w : World} (hw : w.backend = none) :
    m.backward env it ot gt w = (.throw .dw, w) := by
  have h : needBackend w = (.throw .dw, w) := by simp only [needBackend, hw]
  unfold Model.backward
  exact M.bind_throw h

/-- What `backward` does in any model: the gradient of each placeholder is the sum of its own gradient and of what each
layer that uses it passes back, when run alone with the gradient of its result; only that a layer that replaces the gradient of
its argument discards what was there before. -/
theorem backward_general (B : Built topo e ins outs m real tensors L θ₀) {θ : L.Params} {env : Nat → Env} {v : Vals e} {w : World}
    (h : History e ins outs m real tensors L θ₀ θ (some (env, v)) w) {b : Backend} {env' : Nat → Env} {it ot gt : List Nat}
    {gout : Vals e} (ha : BwdArgs e m ins outs w b it ot gt v gout) :
    ∃ (w' : World) (b' : Backend) (bk : Backs e) (pk : L.ParamBacks) (G : Vals e), m.backward env' it ot gt w = (.ok (), w') ∧ w'.backend = some b' ∧ SameOwner m b b' ∧
      (∀ x ∈ (L.net m env).made, ∃ l, layerAt e m b x = some l ∧ PassesBack l ((L.net m env).inputs v x) (v x) (bk x) ∧
        StoresGrads l ((L.net m env).inputs v x) (pk x) ∧
        (L.exact x → DifferentiableAt ℝ (L.fn x (rngOf e env x) (θ x)) ((L.net m env).inputs v x) →
          BackpropN (L.fn x (rngOf e env x) (θ x)) ((L.net m env).inputs v x) (bk x))) ∧
      Gradients m w' b' G ∧ Carry e w' outs gt G ∧ ParamGradients e m b' pk G ∧
      (∀ y ∈ dataOf m, (L.net m env).Accumulates (kept (writesOver e) e m bk)
        (keptBase (writesOver e) e m fun y => if y ∈ outs then gout y else 0) G y) ∧
      Untouched m b w w' gt := by
  obtain ⟨R, K, hk, hcr⟩ := kit_exists B
  have hl := live B hk hcr h
  obtain ⟨w', b', bk, pk, G, h1, h2, h3, -, h5, h6, h7, h8, h9, h10⟩ := live_backward (plan B) B.sound hk hl (env' := env') ha
  have hev : (L.net m env).Evaluates θ v := by
    obtain ⟨b₁, -, -, h2⟩ := hl
    exact (h2 env v rfl).1
  refine ⟨w', b', bk, pk, G, h1, h2, h3, fun x hx => ?_, h6, h7, h9, h8, h10⟩
  obtain ⟨hx1, hx2⟩ := mem_net.1 hx
  obtain ⟨l, e1, e2⟩ := h5.layers x hx1 hx2
  refine ⟨l, e1, ?_, storesGrads _ e2, fun he hd => (hk.exact env θ x hx1 hx2 he _ hd _ _ _ e2).1⟩
  have := passesBack _ e2
  rw [hev x hx]
  exact this

theorem getElem?_block {α : Type} {a c l : List α} {i : Nat} {x : α} (h : l[i]? = some x) : (a ++ l ++ c)[a.length + i]? = some x := by
  have hi := (List.getElem?_eq_some_iff.1 h).1
  rw [List.append_assoc, List.getElem?_append_right (by omega), List.getElem?_append_left (by omega)]
  rw [show a.length + i - a.length = i by omega]
  exact h

theorem shifted {k n i h : Nat} (hi : ((List.range n).map fun j => k + j)[i]? = some h) : h = k + i ∧ i < n := by
  rw [List.getElem?_map] at hi
  obtain ⟨j, hj, rfl⟩ := Option.map_eq_some_iff.1 hi
  obtain ⟨h1, h2⟩ := List.getElem?_eq_some_iff.1 hj
  simp only [List.getElem_range] at h2
  rw [← h2]
  exact ⟨rfl, by simpa using h1⟩

/-- The theorems about `forward` and `backward` are not about nothing: in every model, with any inputs and output gradients, a
program can come to the point of calling `backward`. -/
theorem session (B : Built topo e ins outs m real tensors L θ₀) (env : Nat → Env) (hp : ∀ c, IsPick (env c).pick) (inp gout : Vals e) :
    ∃ (v : Vals e) (w : World) (b : Backend) (it ot gt : List Nat), (L.net m env).Evaluates θ₀ v ∧ (∀ y ∈ ins, v y = inp y) ∧
      History e ins outs m real tensors L θ₀ θ₀ (some (env, v)) w ∧ BwdArgs e m ins outs w b it ot gt v gout := by
  let S1 : List Buf := ins.map fun y => ⟨phShape e y, List.ofFn (inp y)⟩
  let S2 : List Buf := outs.map fun y => ⟨phShape e y, List.ofFn (0 : Elems (phShape e y))⟩
  let S3 : List Buf := outs.map fun y => ⟨phShape e y, List.ofFn (gout y)⟩
  let it := (List.range ins.length).map fun j => 0 + j
  let ot := (List.range outs.length).map fun j => S1.length + j
  let gt := (List.range outs.length).map fun j => (S1 ++ S2).length + j
  have l1 : S1.length = ins.length := by simp [S1]
  have l2 : S2.length = outs.length := by simp [S2]
  have l3 : S3.length = outs.length := by simp [S3]
  obtain ⟨v, ⟨hv, hi⟩, -⟩ := values_exist B env θ₀ inp
  let w₀ : World := ⟨S1 ++ S2 ++ S3, none⟩
  have hlen : w₀.store.length = ins.length + outs.length + outs.length := by
    show (S1 ++ S2 ++ S3).length = _
    simp only [List.length_append, l1, l2, l3]
  obtain ⟨w₁, b₁, c1, c2, c3⟩ := compile_succeeds B (fun _ => 0) w₀
  have hist₁ : History e ins outs m real tensors L θ₀ θ₀ none w₁ := by
    have := History.compile (e := e) (ins := ins) (outs := outs) (m := m) (real := real) (tensors := tensors) (L := L) (θ₀ := θ₀)
      (fun _ => 0) w₀
    rw [c1] at this
    exact this
  have r1 : ∀ i y h : Nat, ins[i]? = some y → it[i]? = some h → Holds w₁.store (inp y) h := fun i y h hy hh => by
    obtain ⟨rfl, hlt⟩ := shifted hh
    have h0 : (([] : List Buf) ++ S1 ++ (S2 ++ S3))[0 + i]? = some ⟨phShape e y, List.ofFn (inp y)⟩ :=
      getElem?_block (a := []) (by rw [List.getElem?_map, hy]; rfl)
    rw [List.nil_append, ← List.append_assoc] at h0
    unfold Holds
    rw [(c3 _ (by omega)).1]
    exact h0
  have r2 : ∀ i y h : Nat, outs[i]? = some y → ot[i]? = some h → Holds w₁.store (0 : Elems (phShape e y)) h := fun i y h hy hh => by
    obtain ⟨rfl, hlt⟩ := shifted hh
    have h0 : (S1 ++ S2 ++ S3)[S1.length + i]? = some ⟨phShape e y, List.ofFn (0 : Elems (phShape e y))⟩ :=
      getElem?_block (by rw [List.getElem?_map, hy]; rfl)
    unfold Holds
    rw [(c3 _ (by omega)).1]
    exact h0
  have r3 : ∀ i y h : Nat, outs[i]? = some y → gt[i]? = some h → Holds w₁.store (gout y) h := fun i y h hy hh => by
    obtain ⟨rfl, hlt⟩ := shifted hh
    have h0 : ((S1 ++ S2) ++ S3 ++ [])[(S1 ++ S2).length + i]? = some ⟨phShape e y, List.ofFn (gout y)⟩ :=
      getElem?_block (by rw [List.getElem?_map, hy]; rfl)
    rw [List.append_nil] at h0
    unfold Holds
    rw [(c3 _ (by rw [hlen, List.length_append, l1, l2]; omega)).1]
    exact h0
  have room : ∀ {store : List Buf} {s : Shape} {u : Elems s} {h : Nat}, Holds store u h → Room store s h := fun {_ _ u _} h =>
    ⟨List.ofFn u, h, by simp⟩
  have far : ∀ {k n a : Nat}, a ∈ (List.range n).map (fun j => k + j) → k ≤ a ∧ a < k + n := fun {k n a} h => by
    obtain ⟨j, hj, rfl⟩ := List.mem_map.1 h
    have := List.mem_range.1 hj
    exact ⟨by omega, by omega⟩
  have nd : ∀ k n : Nat, ((List.range n).map fun j => k + j).Nodup := fun k n =>
    List.nodup_range.map fun _ _ h => Nat.add_left_cancel h
  have hl12 : (S1 ++ S2).length = ins.length + outs.length := by rw [List.length_append, l1, l2]
  have out1 : ∀ a ∈ it, a ∉ privates m b₁ := fun a ha => (c3 a (by have := far ha; omega)).2
  have out2 : ∀ a ∈ ot, a ∉ privates m b₁ := fun a ha => (c3 a (by have := far ha; omega)).2
  have out3 : ∀ a ∈ gt, a ∉ privates m b₁ := fun a ha => (c3 a (by have := far ha; omega)).2
  have hargs : FwdArgs e m ins outs w₁ b₁ it ot := ⟨c2, ⟨by simp [it], fun i y h hy hh => room (r1 i y h hy hh), out1⟩,
    ⟨by simp [ot], fun i y h hy hh => room (r2 i y h hy hh), out2⟩, nd _ _, fun a ha hb => by
      have h1 := far ha
      have h2 := far hb
      omega⟩
  have hcar : Carry e w₁ ins it v := fun i y h hy hh => by
    rw [hi y (List.mem_of_getElem? hy)]
    exact r1 i y h hy hh
  obtain ⟨w₂, b₂, f1, f2, f3, f4, f5, f6⟩ := forward_evaluates_partial B hist₁ hargs hp hv hcar
  have hist₂ := History.forward env it ot v hist₁ hargs hp hv hcar
  rw [f1] at hist₂
  have keep : ∀ a, a ∉ privates m b₁ → a ∉ ot → w₂.store[a]? = w₁.store[a]? := fun a h1 h2 => f5 a h1 h2
  have hgo : ∀ a ∈ gt, a ∉ ot := fun a ha hb => by
    have h1 := far ha
    have h2 := far hb
    omega
  have s1 : Carry e w₂ ins it v := fun i y h hy hh => (f6 h (List.mem_of_getElem? hh)).trans (hcar i y h hy hh)
  have s3 : Carry e w₂ outs gt gout := fun i y h hy hh =>
    (keep h (out3 h (List.mem_of_getElem? hh)) (hgo h (List.mem_of_getElem? hh))).trans (r3 i y h hy hh)
  refine ⟨v, w₂, b₂, it, ot, gt, hv, hi, hist₂, f2, ⟨by simp [it], fun i y h hy hh => room (s1 i y h hy hh), ?_⟩, s1,
    ⟨by simp [ot], fun i y h hy hh => room (f4 i y h hy hh), ?_⟩, f4, ⟨by simp [gt], fun i y h hy hh => room (s3 i y h hy hh), ?_⟩, s3,
    nd _ _, fun a ha => ⟨fun hb => ?_, hgo a ha⟩⟩
  · rw [f3]; exact out1
  · rw [f3]; exact out2
  · rw [f3]; exact out3
  · have h1 := far ha
    have h2 := far hb
    omega

/-- **C21.** After `backward`, the gradient of every placeholder is the sum, over all its uses as an argument of a layer, of
the gradient that the layer passes back, when run alone with the complete gradient of its result; plus `grad_output` if
the placeholder is an output. Restricted to models in which the argument of a `BatchNorm2D` is not used elsewhere, see
`backward_sums_refuted`. -/
theorem backward_sums_partial (B : Built topo e ins outs m real tensors L θ₀) (ho : SoleConsumer e m outs)
    {θ : L.Params} {env : Nat → Env} {v : Vals e} {w : World}
    (h : History e ins outs m real tensors L θ₀ θ (some (env, v)) w) {b : Backend} {env' : Nat → Env} {it ot gt : List Nat}
    {gout : Vals e} (ha : BwdArgs e m ins outs w b it ot gt v gout) :
    ∃ (w' : World) (b' : Backend) (bk : Backs e) (G : Vals e), m.backward env' it ot gt w = (.ok (), w') ∧ w'.backend = some b' ∧
      (∀ x ∈ (L.net m env).made, ∃ l, layerAt e m b x = some l ∧ PassesBack l ((L.net m env).inputs v x) (v x) (bk x)) ∧
      Gradients m w' b' G ∧ Carry e w' outs gt G ∧
      ∀ y ∈ dataOf m, (L.net m env).Accumulates bk (fun y => if y ∈ outs then gout y else 0) G y := by
  obtain ⟨w', b', bk, pk, G, h1, h2, -, h4, h5, h6, -, h8, -⟩ := backward_general B h (env' := env') ha
  exact ⟨w', b', bk, G, h1, h2, fun x hx => (h4 x hx).imp fun l hl => ⟨hl.1, hl.2.1⟩, h5, h6,
    fun y hy => accumulates_sole ho (h8 y hy)⟩

/-- **C22.** After `backward`, the gradients of all parameters (and all other gradients) are determined by the parameters, the
inputs and circumstances of the last `forward`, and `grad_output`: in two histories that agree in these, they are the same,
whatever happened before. -/
theorem param_gradients_of_last_pass (B : Built topo e ins outs m real tensors L θ₀) {θ : L.Params} {env : Nat → Env}
    {v₁ v₂ gout₁ gout₂ : Vals e} {w₁ w₂ : World} (h₁ : History e ins outs m real tensors L θ₀ θ (some (env, v₁)) w₁)
    (h₂ : History e ins outs m real tensors L θ₀ θ (some (env, v₂)) w₂) {b₁ b₂ : Backend} {env₁ env₂ : Nat → Env}
    {it₁ it₂ ot₁ ot₂ gt₁ gt₂ : List Nat} (ha₁ : BwdArgs e m ins outs w₁ b₁ it₁ ot₁ gt₁ v₁ gout₁)
    (ha₂ : BwdArgs e m ins outs w₂ b₂ it₂ ot₂ gt₂ v₂ gout₂) (hi : ∀ y ∈ ins, v₁ y = v₂ y) (hg : ∀ y ∈ outs, gout₁ y = gout₂ y) :
    ∃ w₁' w₂' b₁' b₂', m.backward env₁ it₁ ot₁ gt₁ w₁ = (.ok (), w₁') ∧ m.backward env₂ it₂ ot₂ gt₂ w₂ = (.ok (), w₂') ∧
      w₁'.backend = some b₁' ∧ w₂'.backend = some b₂' ∧
      (∀ x ∈ dataOf m, ∀ l₁ l₂, layerAt e m b₁' x = some l₁ → layerAt e m b₂' x = some l₂ → l₁.grads = l₂.grads) ∧
      ∀ y ∈ nonOutputs m, w₁'.store[gradOf m b₁' y]? = w₂'.store[gradOf m b₂' y]? := by
  obtain ⟨R, K, hk, hcr⟩ := kit_exists B
  have P := plan B
  have hl₁ := live B hk hcr h₁
  have hl₂ := live B hk hcr h₂
  have hev₁ : (L.net m env).Evaluates θ v₁ := by obtain ⟨_, -, -, h⟩ := hl₁; exact (h env v₁ rfl).1
  have hev₂ : (L.net m env).Evaluates θ v₂ := by obtain ⟨_, -, -, h⟩ := hl₂; exact (h env v₂ rfl).1
  have hv := values_same B (fun _ _ _ => rfl) hev₁ hev₂ hi
  obtain ⟨w₁', b₁', bk₁, pk₁, G₁, r₁, s₁, -, -, A₁, g₁, -, acc₁, p₁, -⟩ := live_backward P B.sound hk hl₁ (env' := env₁) ha₁
  obtain ⟨w₂', b₂', bk₂, pk₂, G₂, r₂, s₂, -, -, A₂, g₂, -, acc₂, p₂, -⟩ := live_backward P B.sound hk hl₂ (env' := env₂) ha₂
  have hD := P.closed (params := L.params) fun x => L.fn x (rngOf e env x)
  have hbk : ∀ x ∈ (L.net m env).made, bk₁ x = bk₂ x ∧ pk₁ x = pk₂ x := fun x hx => by
    obtain ⟨hx1, hx2⟩ := mem_net.1 hx
    obtain ⟨l₁, -, e₁⟩ := A₁.layers x hx1 hx2
    obtain ⟨l₂, -, e₂⟩ := A₂.layers x hx1 hx2
    have : (fun j : Fin (e.argsOf x).length => v₁ (e.argsOf x)[j]) = fun j => v₂ (e.argsOf x)[j] := by
      funext j
      exact hv _ (List.mem_toFinset.1 (hD.args x hx _ (List.getElem_mem j.isLt)))
    rw [this] at e₁
    exact (K env θ x).det e₁ e₂
  have hG : ∀ y ∈ dataOf m, G₁ y = G₂ y := fun y hy => by
    refine accumulates_unique (N := L.net m env) hD (base := keptBase (writesOver e) e m fun y => if y ∈ outs then gout₁ y else 0)
      (bk := kept (writesOver e) e m bk₁) (fun y hy => acc₁ y (List.mem_toFinset.1 hy)) (fun y hy => ?_) y (List.mem_toFinset.2 hy)
    refine accumulates_congr (N := L.net m env) (fun x hx => ?_) ?_ rfl (fun _ _ => rfl) (acc₂ y (List.mem_toFinset.1 hy))
    · funext g j
      unfold kept
      rw [(hbk x hx).1]
    · unfold keptBase
      split
      · rfl
      · beta_reduce
        split
        next ho => exact (hg y ho).symm
        next => rfl
  refine ⟨w₁', w₂', b₁', b₂', r₁, r₂, s₁, s₂, fun x hx l₁ l₂ e₁ e₂ => ?_, fun y hy => ?_⟩
  · have hc : (e.callOf x).isSome := by
      cases h : e.callOf x with
      | none => rw [layerAt, h] at e₁; cases e₁
      | some c => rfl
    obtain ⟨_, f₁, q₁⟩ := p₁ x hx hc
    obtain ⟨_, f₂, q₂⟩ := p₂ x hx hc
    obtain rfl := Option.some.inj (f₁.symm.trans e₁)
    obtain rfl := Option.some.inj (f₂.symm.trans e₂)
    rw [q₁, q₂, (hbk x (mem_net.2 ⟨hx, hc⟩)).2, hG x hx]
  · have hy' : y ∈ dataOf m := (List.mem_filter.1 hy).1
    have e₁ := g₁ y hy
    have e₂ := g₂ y hy
    unfold Holds at e₁ e₂
    rw [e₁, e₂, hG y hy']

/-- **C22.** Running `backward` again with the same arguments gives the same gradients. -/
theorem backward_again (B : Built topo e ins outs m real tensors L θ₀) {θ : L.Params} {env : Nat → Env}
    {v gout : Vals e} {w w' : World} (h : History e ins outs m real tensors L θ₀ θ (some (env, v)) w) {b b' : Backend}
    {env₁ env₂ : Nat → Env} {it ot gt : List Nat} (ha : BwdArgs e m ins outs w b it ot gt v gout)
    (hw' : w' = (m.backward env₁ it ot gt w).2) (ha' : BwdArgs e m ins outs w' b' it ot gt v gout) :
    ∃ w'' b'', m.backward env₂ it ot gt w' = (.ok (), w'') ∧ w''.backend = some b'' ∧
      (∀ x ∈ dataOf m, ∀ l₁ l₂, layerAt e m b' x = some l₁ → layerAt e m b'' x = some l₂ → l₁.grads = l₂.grads) ∧
      ∀ y ∈ nonOutputs m, w'.store[gradOf m b' y]? = w''.store[gradOf m b'' y]? := by
  have h' : History e ins outs m real tensors L θ₀ θ (some (env, v)) w' := by
    rw [hw']; exact .backward env₁ it ot gt gout h ha
  obtain ⟨w₁, w₂, b₁, b₂, r₁, r₂, s₁, s₂, hl, hs⟩ := param_gradients_of_last_pass B h h' (env₁ := env₁) (env₂ := env₂) ha ha'
    (fun _ _ => rfl) fun _ _ => rfl
  obtain rfl : w' = w₁ := by rw [hw', r₁]
  obtain rfl := Option.some.inj (s₁.symm.trans ha'.backend)
  exact ⟨w₂, b₂, r₂, s₂, hl, hs⟩

/-- **C23.** If every layer computes exact gradients and its function is differentiable at the current values, `backward` computes
derivatives: the gradient left for a placeholder is that of `<grad_output, outputs>` as a function of the value of the
placeholder, and the gradient stored for the parameters of a layer is that of `<grad_output, outputs>` as a function of these
parameters. Restricted to models in which the argument of a `BatchNorm2D` is not used elsewhere. -/
theorem backward_derivative_partial (B : Built topo e ins outs m real tensors L θ₀) (ho : SoleConsumer e m outs)
    {θ : L.Params} {env : Nat → Env} {v : Vals e} {w : World}
    (h : History e ins outs m real tensors L θ₀ θ (some (env, v)) w) {b : Backend} {env' : Nat → Env} {it ot gt : List Nat}
    {gout : Vals e} (ha : BwdArgs e m ins outs w b it ot gt v gout)
    (hx : ∀ x ∈ (L.net m env).made, L.exact x ∧ DifferentiableAt ℝ (L.fn x (rngOf e env x) (θ x)) ((L.net m env).inputs v x)) :
    ∃ (w' : World) (b' : Backend) (G : Vals e), m.backward env' it ot gt w = (.ok (), w') ∧ w'.backend = some b' ∧
      Gradients m w' b' G ∧ Carry e w' outs gt G ∧
      (∀ y ∈ dataOf m, (∃ W, (L.net m env).Varies θ v y (fun t => t) W) ∧ ∀ W, (L.net m env).Varies θ v y (fun t => t) W →
        IsGradient (fun t => (L.net m env).loss outs.toFinset gout (W t)) (v y) (G y)) ∧
      ∀ x ∈ (L.net m env).made, ∃ l g, layerAt e m b' x = some l ∧ l.grads = List.ofFn g ∧
        ∀ W : (Fin (L.params x) → ℝ) → Vals e,
          (∀ t, (L.net m env).Evaluates (Function.update θ x t) (W t) ∧ ∀ y ∈ ins, W t y = v y) →
          IsGradient (fun t => (L.net m env).loss outs.toFinset gout (W t)) (θ x) g := by
  obtain ⟨R, K, hk, hcr⟩ := kit_exists B
  have P := plan B
  have hl := live B hk hcr h
  have hD := P.closed (params := L.params) fun x => L.fn x (rngOf e env x)
  have hev : (L.net m env).Evaluates θ v := by obtain ⟨_, -, -, h⟩ := hl; exact (h env v rfl).1
  obtain ⟨w', b', bk, pk, G, h1, h2, -, -, h5, h6, h7, h8, h9, -⟩ := live_backward P B.sound hk hl (env' := env') ha
  have hbk : ∀ x ∈ (L.net m env).made, BackpropN (L.fn x (rngOf e env x) (θ x)) ((L.net m env).inputs v x) (bk x) ∧
      Backprop (fun t => L.fn x (rngOf e env x) t ((L.net m env).inputs v x)) (θ x) (pk x) := fun x hm => by
    obtain ⟨hx1, hx2⟩ := mem_net.1 hm
    obtain ⟨l, -, hA⟩ := h5.layers x hx1 hx2
    exact hk.exact env θ x hx1 hx2 (hx x hm).1 _ (hx x hm).2 _ _ _ hA
  have hout : outs.toFinset ⊆ (dataOf m).toFinset := fun y hy => List.mem_toFinset.2 (P.outs_mem y (List.mem_toFinset.1 hy))
  have hbase : ∀ y ∈ (dataOf m).toFinset, (if y ∈ outs then gout y else 0) = if y ∈ outs.toFinset then gout y else 0 := fun y _ => by
    simp only [List.mem_toFinset]
  have hacc : ∀ y ∈ (dataOf m).toFinset, (L.net m env).Accumulates bk (fun y => if y ∈ outs then gout y else 0) G y := fun y hy =>
    accumulates_sole ho (h8 y (List.mem_toFinset.1 hy))
  refine ⟨w', b', G, h1, h2, h6, h7, fun y hy => ⟨varies_exists (N := L.net m env) hD _, fun W hW => ?_⟩, fun x hm => ?_⟩
  · obtain ⟨J, e1, e2⟩ := reverse_mode (N := L.net m env) hD hev (bk := bk) (fun x hx _ => (hbk x hx).1) hout hbase hacc
      (List.mem_toFinset.2 hy) (hasFDerivAt_id (v y)) rfl hW
    exact ⟨J, e1, fun u => (e2 u)⟩
  · obtain ⟨hx1, hx2⟩ := mem_net.1 hm
    obtain ⟨l, e1, e2⟩ := h9 x hx1 hx2
    refine ⟨l, pk x (G x), e1, e2, fun W hW => ?_⟩
    refine reverse_mode_param (N := L.net m env) hD hev (bk := bk) (fun x hx _ => (hbk x hx).1) hout hbase hacc hm (hbk x hm).2
      (fun t => (hW t).1) fun t y hy hn => (hW t).2 y ?_
    have hy := List.mem_toFinset.1 hy
    refine B.sound.listed y hy ?_
    cases hc : e.callOf y with
    | none => rfl
    | some c => exact absurd (mem_net.2 ⟨hy, by simp [hc]⟩) hn

/-- **C69.** `backward` does not change the caller's tensors other than `grad_output`, and it does not change `grad_output` of an
output that no layer uses. Otherwise it does, see `backward_changes_gradOutput`. -/
theorem backward_untouched_partial (B : Built topo e ins outs m real tensors L θ₀) {θ : L.Params} {env : Nat → Env} {v : Vals e} {w : World}
    (h : History e ins outs m real tensors L θ₀ θ (some (env, v)) w) {b : Backend} {env' : Nat → Env} {it ot gt : List Nat}
    {gout : Vals e} (ha : BwdArgs e m ins outs w b it ot gt v gout) :
    ∃ w' b', m.backward env' it ot gt w = (.ok (), w') ∧ w'.backend = some b' ∧ SameOwner m b b' ∧ Untouched m b w w' gt ∧
      (∀ h ∈ it, w'.store[h]? = w.store[h]?) ∧ (∀ h ∈ ot, w'.store[h]? = w.store[h]?) ∧
      ∀ i y h : Nat, outs[i]? = some y → gt[i]? = some h → (∀ x ∈ dataOf m, y ∉ e.argsOf x) → w'.store[h]? = w.store[h]? := by
  obtain ⟨w', b', bk, pk, G, h1, h2, h3, -, -, h6, -, h8, h9⟩ := backward_general B h (env' := env') ha
  refine ⟨w', b', h1, h2, h3, h9, fun a hi => h9 a (ha.givenIns.outside a hi) fun hg => (ha.disjoint a hg).1 hi,
    fun a hi => h9 a (ha.givenOuts.outside a hi) fun hg => (ha.disjoint a hg).2 hi, fun i y a hy hh hno => ?_⟩
  have e1 := h6 i y a hy hh
  have e2 := ha.gradsHold i y a hy hh
  unfold Holds at e1 e2
  rw [e1, e2]
  congr 3
  have hyo := List.mem_of_getElem? hy
  funext k
  rw [h8 y ((plan B).outs_mem y hyo) k]
  have hb : keptBase (writesOver e) e m (fun y => if y ∈ outs then gout y else 0) y = gout y := by
    unfold keptBase
    rw [if_neg fun ⟨x, hx⟩ => hno x hx.1 hx.2.2.2]
    exact if_pos hyo
  rw [hb, Net.received, Finset.sum_eq_zero fun x hx => Finset.sum_eq_zero fun j _ => if_neg fun hj => ?_, add_zero]
  exact hno x (mem_net.1 hx).1 (hj ▸ List.getElem_mem j.isLt)

end

end DW.Props.BackendP
