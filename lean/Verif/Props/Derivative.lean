import Verif.Props.BackendRefute
import Verif.Props.Smooth
/-!
# When `backward` computes the derivative of the network (C23)
-/

set_option autoImplicit false

namespace DW.Props.BackendP

open DW DW.Spec DW.HistL DW.BackendL DW.NetL DW.GraphL DW.Props.GraphP

noncomputable section

variable {topo : Graph → List Node} {e : Expr} {ins outs : List Nat} {m : Model} {real : F32 → ℝ} {tensors : Nat → InfoTensors}
  {L : Layers e} {θ₀ : L.Params}

/-- The value of no placeholder is at a kink of a layer that uses it. -/
def NoKinks (e : Expr) (m : Model) (v : Vals e) : Prop :=
  ∀ x ∈ dataOf m, ∀ c, e.callOf x = some c → AvoidsKinks (infoOf e (e.callInfo c)).op
    fun j : Fin (e.argsOf x).length => v (e.argsOf x)[j]

theorem differentiable_of_noKinks (B : Built topo e ins outs m real tensors L θ₀) {v : Vals e} (hk : NoKinks e m v) (env : Nat → Env)
    (θ : L.Params) : ∀ x ∈ (L.net m env).made, DifferentiableAt ℝ (L.fn x (rngOf e env x) (θ x)) ((L.net m env).inputs v x) := by
  intro x hx
  obtain ⟨hx1, hx2⟩ := mem_net.1 hx
  obtain ⟨c, hc⟩ := Option.isSome_iff_exists.1 hx2
  exact SmoothP.layer_differentiable (B.layers x hx1 c hc) _ _ (hk x hx1 c hc)

/-- **C23 (proved part)**, with a condition on values instead of differentiability: if no value is at a kink (no argument of ReLU,
LeakyReLU or ELU has a zero element, the elements a pooling window can cover are different), `backward` computes derivatives.
Restricted to models without dropout and `BatchNorm` in evaluation mode, in which the argument of a `BatchNorm2D` is not used
elsewhere. -/
theorem backward_derivative_smooth_partial (B : Built topo e ins outs m real tensors L θ₀) (ho : SoleConsumer e m outs)
    {θ : L.Params} {env : Nat → Env} {v : Vals e} {w : World}
    (h : History e ins outs m real tensors L θ₀ θ (some (env, v)) w) {b : Backend} {env' : Nat → Env} {it ot gt : List Nat}
    {gout : Vals e} (ha : BwdArgs e m ins outs w b it ot gt v gout) (hx : ∀ x ∈ dataOf m, (e.callOf x).isSome → L.exact x)
    (hk : NoKinks e m v) :
    ∃ (w' : World) (b' : Backend) (G : Vals e), m.backward env' it ot gt w = (.ok (), w') ∧ w'.backend = some b' ∧
      Gradients m w' b' G ∧ Carry e w' outs gt G ∧
      (∀ y ∈ dataOf m, (∃ W, (L.net m env).Varies θ v y (fun t => t) W) ∧ ∀ W, (L.net m env).Varies θ v y (fun t => t) W →
        IsGradient (fun t => (L.net m env).loss outs.toFinset gout (W t)) (v y) (G y)) ∧
      ∀ x ∈ (L.net m env).made, ∃ l g, layerAt e m b' x = some l ∧ l.grads = List.ofFn g ∧
        ∀ W : (Fin (L.params x) → ℝ) → Vals e,
          (∀ t, (L.net m env).Evaluates (Function.update θ x t) (W t) ∧ ∀ y ∈ ins, W t y = v y) →
          IsGradient (fun t => (L.net m env).loss outs.toFinset gout (W t)) (θ x) g :=
  backward_derivative_partial B ho h ha fun x hm => ⟨hx x (mem_net.1 hm).1 (mem_net.1 hm).2, differentiable_of_noKinks B hk env θ x hm⟩

/-- **C23** for all models of differentiable layers: the gradient left for each placeholder is the derivative of
`<grad_output, outputs>` with respect to that placeholder. -/
def BackwardDerivative : Prop :=
  ∀ (topo : Graph → List Node) (e : Expr) (ins outs : List Nat) (m : Model) (real : F32 → ℝ) (tensors : Nat → InfoTensors)
    (L : Layers e) (θ₀ : L.Params), Built topo e ins outs m real tensors L θ₀ →
    ∀ (θ : L.Params) (env : Nat → Env) (v : Vals e) (w : World), History e ins outs m real tensors L θ₀ θ (some (env, v)) w →
    ∀ (b : Backend) (env' : Nat → Env) (it ot gt : List Nat) (gout : Vals e), BwdArgs e m ins outs w b it ot gt v gout →
    (∀ x ∈ (L.net m env).made, L.exact x ∧ DifferentiableAt ℝ (L.fn x (rngOf e env x) (θ x)) ((L.net m env).inputs v x)) →
    ∃ (w' : World) (b' : Backend) (G : Vals e), m.backward env' it ot gt w = (.ok (), w') ∧ w'.backend = some b' ∧
      Gradients m w' b' G ∧ Carry e w' outs gt G ∧
      ∀ y ∈ dataOf m, ∀ W, (L.net m env).Varies θ v y (fun t => t) W →
        IsGradient (fun t => (L.net m env).loss outs.toFinset gout (W t)) (v y) (G y)

theorem isGradient_unique {ι : Type} [Fintype ι] {f : (ι → ℝ) → ℝ} {x g g' : ι → ℝ} (h : IsGradient f x g) (h' : IsGradient f x g') :
    g = g' := by
  classical
  obtain ⟨J, hJ, e⟩ := h
  obtain ⟨J', hJ', e'⟩ := h'
  obtain rfl := hJ.unique hJ'
  funext i
  have := (e (Pi.single i 1)).symm.trans (e' (Pi.single i 1))
  simpa [Pi.single_apply] using this

/-- The accumulation equations have a solution. -/
theorem accumulates_exists {N : Net} {D : Finset Nat} (hD : Closed N D)
    (bk : (x : Nat) → Elems (N.shape x) → Args (fun j : Fin (N.args x).length => N.shape (N.args x)[j])) (base : N.Val) :
    ∃ G : N.Val, ∀ y ∈ D, N.Accumulates bk base G y := by
  obtain ⟨B, hB⟩ : ∃ B, ∀ y ∈ D, y < B := ⟨D.sup id + 1, fun y hy => Nat.lt_succ_of_le (Finset.le_sup (f := id) hy)⟩
  have key : ∀ d, ∃ G : N.Val, ∀ y, B - d ≤ y → y < B → N.Accumulates bk base G y := by
    intro d
    induction d with
    | zero => exact ⟨base, fun y h1 h2 => by omega⟩
    | succ d ih =>
      obtain ⟨G, hG⟩ := ih
      by_cases hd : B ≤ d
      · exact ⟨G, fun y h1 h2 => hG y (by omega) h2⟩
      · let y₀ := B - (d + 1)
        refine ⟨Function.update G y₀ fun i => base y₀ i + N.received bk G y₀ i, fun y h1 h2 i => ?_⟩
        have hr : N.received bk (Function.update G y₀ fun i => base y₀ i + N.received bk G y₀ i) y i = N.received bk G y i := by
          refine Finset.sum_congr rfl fun x hx => Finset.sum_congr rfl fun j _ => ?_
          by_cases hj : (N.args x)[j] = y
          · have hlt : y < x := hj ▸ hD.lt x hx _ (List.getElem_mem _)
            rw [Function.update_of_ne (f := G) (by omega)]
          · rw [if_neg hj, if_neg hj]
        rw [hr]
        by_cases hy : y = y₀
        · subst hy
          rw [Function.update_self]
        · rw [Function.update_of_ne (f := G) hy]
          exact hG y (by omega) h2 i
  obtain ⟨G, hG⟩ := key B
  exact ⟨G, fun y hy => hG y (by omega) (hB y hy)⟩

theorem computes_relu {t : InfoTensors} {op : Op} {n : Nat} {ishape : Fin n → Shape} {o : Shape} {P : Nat}
    {fn : (Nat → ℝ) → (Fin P → ℝ) → Args ishape → Elems o} {θ : Fin P → ℝ} {ex : Prop} (h : Computes real t op ishape o P fn θ ex)
    (hop : op = .relu) : ex := by
  cases h with
  | one hn hs ho h => subst hop; cases h; trivial
  | add hn h₀ h₁ => cases hop

theorem computes_batchNorm2D {t : InfoTensors} {op : Op} {n : Nat} {ishape : Fin n → Shape} {o : Shape} {P : Nat}
    {fn : (Nat → ℝ) → (Fin P → ℝ) → Args ishape → Elems o} {θ : Fin P → ℝ} {ex : Prop} (h : Computes real t op ishape o P fn θ ex)
    {eps alpha : F32} (hop : op = .batchNorm2D eps alpha) {p : Parameter} (hg : t.params.lookup "gamma" = some p) (hp : p.trainable = true) :
    ex := by
  cases h with
  | one hn hs ho h =>
    subst hop
    cases h with
    | batchNorm2D => trivial
    | batchNorm2DEval _ _ _ _ _ _ _ _ _ _ hg' =>
      obtain ⟨g, hg', -⟩ := hg'
      rw [hg] at hg'
      obtain rfl := Option.some.inj hg'
      cases hp
  | add hn h₀ h₁ => cases hop

/-- The hypotheses of `backward_derivative_smooth_partial` are met by `a = ReLU(x); y = Add(a, x)` with outputs `y` and `a`, at
`x = 1`, where `x` and `a` are used twice. -/
example : ∃ (m : Model) (L : Layers skipE) (θ₀ : L.Params) (env : Nat → Env) (v : Vals skipE) (w : World) (b : Backend) (it ot gt : List Nat),
    Built (creationOrder skipE) skipE [0] [2, 1] m (fun _ => 1) (fun _ => ⟨[], []⟩) L θ₀ ∧ SoleConsumer skipE m [2, 1] ∧
    History skipE [0] [2, 1] m (fun _ => 1) (fun _ => ⟨[], []⟩) L θ₀ θ₀ (some (env, v)) w ∧
    BwdArgs skipE m [0] [2, 1] w b it ot gt v (fun _ _ => 1) ∧ (∀ x ∈ dataOf m, (skipE.callOf x).isSome → L.exact x) ∧ NoKinks skipE m v := by
  obtain ⟨m, L, θ₀, B, hd⟩ := skip_built
  obtain ⟨pick, hpick⟩ := Props.MaxPoolP.exists_pick
  let env : Nat → Env := fun _ => ⟨fun _ => 0, fun _ => 0, pick⟩
  obtain ⟨v, w, b, it, ot, gt, hv, hv0, hist, ha⟩ := session B env (fun _ => hpick) (fun _ _ => 1) fun _ _ => 1
  refine ⟨m, L, θ₀, env, v, w, b, it, ot, gt, B, fun x y h => ?_, hist, ha, fun x hx hc => ?_, fun x hx c hc => ?_⟩
  · unfold Replaces writesOver at h
    rw [hd, skipE_eq] at h
    obtain ⟨h, -, ⟨c, hc, ho⟩, -⟩ := h
    simp only [List.mem_cons, List.not_mem_nil, or_false] at h
    rcases h with rfl | rfl | rfl <;> first | (obtain rfl := Option.some.inj hc; exact absurd ho (by decide)) | exact absurd hc (by simp [Expr.callOf])
  · rw [hd] at hx
    simp only [List.mem_cons, List.not_mem_nil, or_false] at hx
    rcases hx with rfl | rfl | rfl
    · rw [skipE_eq] at hc; exact absurd hc (by decide)
    · exact computes_relu (B.layers 1 (by rw [hd]; decide) 0 (by rw [skipE_eq]; rfl)) (by rw [skipE_eq]; rfl)
    · exact (computes_add (B.layers 2 (by rw [hd]; decide) 1 (by rw [skipE_eq]; rfl)) (by rw [skipE_eq]; rfl)).1
  · have hop : ∀ y, y ∈ [1, 2] → skipE.callOf y = some (y - 1) := by rw [skipE_eq]; decide
    rw [hd] at hx
    simp only [List.mem_cons, List.not_mem_nil, or_false] at hx
    rcases hx with rfl | rfl | rfl
    · rw [skipE_eq] at hc; exact absurd hc (by simp [Expr.callOf])
    · obtain rfl := Option.some.inj (hc.symm.trans (hop 1 (by decide)))
      have : (infoOf skipE (skipE.callInfo (1 - 1))).op = .relu := by rw [skipE_eq]; rfl
      rw [this]
      intro j i
      have hj : (skipE.argsOf 1)[j] = 0 := by
        have ha : skipE.argsOf 1 = [0] := by rw [skipE_eq]; rfl
        have hlt : j.val < 1 := j.isLt.trans_eq (by rw [ha]; rfl)
        have : j.val = 0 := by omega
        simp [ha, this]
      have hone : ∀ y, y = 0 → ∀ i, v y i ≠ 0 := fun y hy i => by
        rw [hv0 y (by simp [hy])]
        exact one_ne_zero
      exact hone _ hj i
    · obtain rfl := Option.some.inj (hc.symm.trans (hop 2 (by decide)))
      have : (infoOf skipE (skipE.callInfo (2 - 1))).op = .add := by rw [skipE_eq]; rfl
      rw [this]
      trivial

/-- **C23** is false: in a residual block, the gradient left for the input of `BatchNorm2D` is not the derivative. -/
theorem backward_derivative_refuted : ¬ BackwardDerivative := by
  intro claim
  obtain ⟨m, L, θ₀, B, hd, hs⟩ := resid_built
  have hd' : dataOf m = [0, 1, 2, 3] := hd
  obtain ⟨pick, hpick⟩ := Props.MaxPoolP.exists_pick
  let env : Nat → Env := fun _ => ⟨fun _ => 0, fun _ => 0, pick⟩
  let one : Vals residE := fun _ _ => 1
  obtain ⟨v, w, b, it, ot, gt, hv, hv0, hist, ha⟩ := session B env (fun _ => hpick) one one
  have hex : ∀ x ∈ (L.net m env).made, L.exact x := fun x hx => by
    obtain ⟨hx1, hx2⟩ := mem_net.1 hx
    rw [hd'] at hx1
    simp only [List.mem_cons, List.not_mem_nil, or_false] at hx1
    rcases hx1 with rfl | rfl | rfl | rfl
    · rw [residE_eq] at hx2; exact absurd hx2 (by decide)
    · exact computes_relu (B.layers 1 (by rw [hd']; decide) 0 (by rw [residE_eq]; rfl)) (by rw [residE_eq]; rfl)
    · exact computes_batchNorm2D (B.layers 2 (by rw [hd']; decide) 1 (by rw [residE_eq]; rfl)) (eps := 1) (alpha := 0)
        (by rw [residE_eq]; rfl) rfl rfl
    · exact (computes_add (B.layers 3 (by rw [hd']; decide) 2 (by rw [residE_eq]; rfl)) (by rw [residE_eq]; rfl)).1
  have hkink : NoKinks residE m v := fun x hx c hc => by
    rw [hd'] at hx
    simp only [List.mem_cons, List.not_mem_nil, or_false] at hx
    have hop : ∀ y, y ∈ [1, 2, 3] → residE.callOf y = some (y - 1) := by rw [residE_eq]; decide
    rcases hx with rfl | rfl | rfl | rfl
    · rw [residE_eq] at hc; exact absurd hc (by simp [Expr.callOf])
    · obtain rfl := Option.some.inj (hc.symm.trans (hop 1 (by decide)))
      have : (infoOf residE (residE.callInfo (1 - 1))).op = .relu := by rw [residE_eq]; rfl
      rw [this]
      intro j i
      have hj : (residE.argsOf 1)[j] = 0 := by
        have ha : residE.argsOf 1 = [0] := by rw [residE_eq]; rfl
        have hlt : j.val < 1 := j.isLt.trans_eq (by rw [ha]; rfl)
        have : j.val = 0 := by omega
        simp [ha, this]
      have hone : ∀ y, y = 0 → ∀ i, v y i ≠ 0 := fun y hy i => by
        rw [hv0 y (by simp [hy])]
        exact one_ne_zero
      exact hone _ hj i
    · obtain rfl := Option.some.inj (hc.symm.trans (hop 2 (by decide)))
      have : (infoOf residE (residE.callInfo (2 - 1))).op = .batchNorm2D 1 0 := by rw [residE_eq]; rfl
      rw [this]
      trivial
    · obtain rfl := Option.some.inj (hc.symm.trans (hop 3 (by decide)))
      have : (infoOf residE (residE.callInfo (3 - 1))).op = .add := by rw [residE_eq]; rfl
      rw [this]
      trivial
  have hdiff := differentiable_of_noKinks B hkink env θ₀
  obtain ⟨w', b', G, h1, h2, h3, h4, h5⟩ := claim _ _ _ _ _ _ _ L θ₀ B θ₀ env v w hist b env it ot gt one ha
    fun x hx => ⟨hex x hx, hdiff x hx⟩
  obtain ⟨w'', b'', bk, pk, G', g1, g2, -, g4, g5, g6, -⟩ := backward_general B hist (env' := env) ha
  have hD := (plan B).closed (params := L.params) fun x => L.fn x (rngOf residE env x)
  obtain ⟨T, hT⟩ := accumulates_exists (N := L.net m env) hD bk fun y => if y ∈ [3] then one y else 0
  have hGT : ∀ y ∈ dataOf m, G y = T y := fun y hy => by
    obtain ⟨W, hW⟩ := varies_exists (N := L.net m env) (θ := θ₀) (v := v) hD (x₀ := y) fun t => t
    refine isGradient_unique (h5 y hy W hW) ?_
    obtain ⟨J, e1, e2⟩ := reverse_mode (N := L.net m env) hD hv (bk := bk) (outs := [3].toFinset) (gout := one)
      (fun x hx _ => by
        obtain ⟨l, -, -, -, hb⟩ := g4 x hx
        exact hb (hex x hx) (hdiff x hx))
      (fun z hz => List.mem_toFinset.2 ((plan B).outs_mem z (List.mem_toFinset.1 hz)))
      (fun z _ => by simp only [List.mem_toFinset]) hT (List.mem_toFinset.2 hy) (hasFDerivAt_id (v y)) rfl hW
    exact ⟨J, e1, fun u => e2 u⟩
  refine resid_lost (bk := bk) B hd hs hist ha h1 h2 (fun x hx => ?_) h3 h4 fun y hy => ?_
  · obtain ⟨l, l1, l2, -⟩ := g4 x hx
    exact ⟨l, l1, l2⟩
  · exact accumulates_congr (N := L.net m env) (fun _ _ => rfl) rfl (hGT y hy).symm
      (fun x hx => (hGT x (mem_net.1 hx).1).symm) (hT y (List.mem_toFinset.2 hy))

end

end DW.Props.BackendP
