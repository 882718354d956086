import Mathlib.Analysis.Calculus.Deriv.Slope
import Verif.Props.Training
/-!
# A small step of `SGD` lowers the loss (C80)
-/

set_option autoImplicit false

namespace DW.Props.DescentP

open DW DW.Spec DW.HistL DW.BackendL DW.NetL DW.TrainL DW.MatL DW.Props.BackendP DW.Props.ContractP DW.Props.LossP DW.Props.TrainP DW.Optim

noncomputable section

variable {topo : Graph → List Node} {e : Expr} {ins outs : List Nat} {m : Model} {real : F32 → ℝ} {tensors : Nat → InfoTensors}
  {L : Layers e} {θ₀ : L.Params}

/-- Without dropout nothing depends on the numbers drawn. -/
theorem computes_rng {t : InfoTensors} {op : Op} {n : Nat} {ishape : Fin n → Shape} {o : Shape} {P : Nat}
    {fn : (Nat → ℝ) → (Fin P → ℝ) → Args ishape → Elems o} {θ : Fin P → ℝ} {ex : Prop} (h : Computes real t op ishape o P fn θ ex)
    (hex : ex) {r r' : Nat → ℝ} (hr : ∀ k, 0 ≤ r k) (hr' : ∀ k, 0 ≤ r' k) : fn r = fn r' := by
  cases h with
  | one hn hs ho h =>
    cases h with
    | dropout p hp s m hm θ =>
      funext t X i
      simp only [recast, dropFn, dropped, hex, hr, hr', if_true]
    | _ => rfl
  | add hn h₀ h₁ => rfl

theorem evaluates_env (B : Built topo e ins outs m real tensors L θ₀) {env env₂ : Nat → Env} (hr : ∀ c k, 0 ≤ (env c).rng k)
    (hr₂ : ∀ c k, 0 ≤ (env₂ c).rng k) (hx : ∀ x ∈ (L.net m env).made, L.exact x) {θ : L.Params} {v : Vals e}
    (hv : (L.net m env).Evaluates θ v) : (L.net m env₂).Evaluates θ v := by
  intro x hm
  have hm' : x ∈ (L.net m env).made := hm
  obtain ⟨hx1, hx2⟩ := mem_net.1 hm
  obtain ⟨c, hc⟩ := Option.isSome_iff_exists.1 hx2
  have h1 : ∀ (en : Nat → Env), (∀ c k, 0 ≤ (en c).rng k) → ∀ k, 0 ≤ rngOf e en x k := fun en h k => by
    unfold rngOf
    rw [hc]
    exact h c k
  have h2 := computes_rng (B.layers x hx1 c hc) (hx x hm') (h1 env hr) (h1 env₂ hr₂)
  rw [hv x hm']
  exact congrFun (congrFun h2 _) _

theorem lower_of_deriv_neg {f : ℝ → ℝ} {d : ℝ} (h : HasDerivAt f d 0) (hd : d < 0) : ∀ᶠ s in nhdsWithin (0 : ℝ) (Set.Ioi 0), f s < f 0 := by
  have h1 := h.tendsto_slope_zero_right.eventually (gt_mem_nhds hd)
  filter_upwards [h1, self_mem_nhdsWithin] with s hs h0
  have h0 : 0 < s := h0
  simp only [zero_add, smul_eq_mul] at hs
  by_contra hn
  have : 0 ≤ s⁻¹ * (f s - f 0) := mul_nonneg (inv_nonneg.2 h0.le) (by linarith)
  linarith

variable {yo Bt n : Nat} {θ : L.Params} {last : Option ((Nat → Env) × Vals e)} {w : World} {b : Backend} {env env' : Nat → Env}
  {it : List Nat} {p y g : Nat} {v : Vals e} {Lb : Fin Bt → Fin n}

/-- **C80.** A small enough step of `SGD` lowers the loss of the batch: unless the derivatives of the loss with respect to all
parameters are zero, there is `δ > 0` such that with any learning rate between `0` and `δ`, after an iteration the predictions of
the model for the same inputs have a smaller loss than the one the iteration returned. -/
theorem sgd_lowers_loss (B : Built topo e ins [yo] m real tensors L θ₀) (ho : SoleConsumer e m [yo])
    (h : History e ins [yo] m real tensors L θ₀ θ last w) (hs : phShape e yo = [(Bt : Int), n]) (hsz : Bt * n ≤ 2147483647)
    (ha : BatchArgs e m ins yo w b it p y g Lb) (hp : ∀ c, IsPick (env c).pick) (hr : ∀ c k, 0 ≤ (env c).rng k)
    (hv : (L.net m env).Evaluates θ v) (hc : Carry e w ins it v) (hx : ∀ x ∈ (L.net m env).made, L.exact x) (hk : NoKinks e m v)
    (hP : ∀ i, 0 < predOf hs (v yo) i (Lb i))
    (hne : ¬ LossGradient L m env ins θ v yo (fun u => crossEntropy (predOf hs u) Lb) fun _ _ => 0) :
    ∃ δ > 0, ∀ lr : ℝ, 0 < lr → lr < δ → ∀ env₂ : Nat → Env, (∀ c, IsPick (env₂ c).pick) → (∀ c k, 0 ≤ (env₂ c).rng k) →
      ∃ (w' w'' : World) (loss loss' : ℝ) (P : Fin Bt → Fin n → ℝ),
        iteration sgdStep e m true env env' it p y g (w, lr) = (.ok loss, w', lr) ∧
        (do m.forward env₂ it [p]; lossForward p y : M World ℝ) w' = (.ok loss', w'') ∧
        w''.store[p]? = some (predTensor P) ∧ (∀ i, 0 < P i (Lb i)) ∧ loss' = crossEntropy P Lb ∧ loss' < loss := by
  classical
  obtain ⟨gr, hgr, hlr⟩ := sgd_iteration B ho h hs hsz ha hp hv hc hx hk hP (env' := env')
  have PL := plan B
  have hD := PL.closed (params := L.params) fun x => L.fn x (rngOf e env x)
  have hyD : yo ∈ dataOf m := PL.outs_mem yo (by simp)
  have hgiven : ∀ z ∈ (dataOf m).toFinset, z ∉ (L.net m env).made → z ∈ ins := fun z hz hn => by
    have hz := List.mem_toFinset.1 hz
    refine B.sound.listed z hz ?_
    cases hc : e.callOf z with
    | none => rfl
    | some c => exact absurd (mem_net.2 ⟨hz, by simp [hc]⟩) hn
  -- the values along the direction of the step
  choose W hW using fun s : ℝ => values_exist B env (fun x i => θ x i + s * (fun x i => -gr x i : L.Params) x i) v
  have hd := hgr.total (fun x i => -gr x i) W fun s => (hW s).1
  have h0 : W 0 yo = v yo := by
    refine evaluates_unique hD (θ := θ) ?_ hv (fun z hz hm => (hW 0).1.2 z (hgiven z hz hm)) yo (List.mem_toFinset.2 hyD)
    have := (hW 0).1.1
    simpa using this
  have hneg : ∑ x ∈ (L.net m env).made, ∑ i, gr x i * -gr x i < 0 := by
    have hle : ∀ x, ∑ i, gr x i * -gr x i ≤ 0 := fun x => Finset.sum_nonpos fun i _ => by nlinarith [mul_self_nonneg (gr x i)]
    refine lt_of_le_of_ne (Finset.sum_nonpos fun x _ => hle x) fun h => hne ?_
    have hz : ∀ x ∈ (L.net m env).made, gr x = fun _ => 0 := fun x hm => by
      have h1 := (Finset.sum_eq_zero_iff_of_nonpos fun x _ => hle x).1 h x hm
      have h2 := (Finset.sum_eq_zero_iff_of_nonpos fun i _ => by nlinarith [mul_self_nonneg (gr x i)]).1 h1
      funext i
      have := h2 i (Finset.mem_univ i)
      simpa using this
    refine ⟨fun x hm W hW => ?_, fun u W hW => ?_⟩
    · have := hgr.layer x hm W hW
      rwa [hz x hm] at this
    · have := hgr.total u W hW
      rwa [Finset.sum_congr rfl fun x hm => by rw [hz x hm]] at this
  -- the predictions move continuously
  have hcont : ∀ i, ContinuousAt (fun s => predOf hs (W s yo) i (Lb i)) 0 := by
    have hjoint : ∀ x ∈ (L.net m env).made, DifferentiableAt ℝ (Net.joint (L.net m env) x) (θ x, (L.net m env).inputs v x) := by
      intro x hx
      obtain ⟨hx1, hx2⟩ := mem_net.1 hx
      obtain ⟨c, hc⟩ := Option.isSome_iff_exists.1 hx2
      exact SmoothP.layer_joint (B.layers x hx1 c hc) _ _ (hk x hx1 c hc)
    have := (differentiable_all (N := L.net m env) hD hv hjoint (t₀ := (0 : ℝ)) (ϑ := fun s x i => θ x i + s * -gr x i)
      (by funext x i; simp) (fun x _ => differentiableAt_pi.2 fun i => (differentiableAt_id.mul_const _).const_add _)
      (fun s => (hW s).1.1) (fun s z hz hm => (hW s).1.2 z (hgiven z hz hm)) yo (List.mem_toFinset.2 hyD)).continuousAt
    intro i
    exact (continuousAt_pi.1 this) _
  have hpos : ∀ᶠ s in nhdsWithin (0 : ℝ) (Set.Ioi 0), ∀ i, 0 < predOf hs (W s yo) i (Lb i) := by
    refine Filter.Eventually.filter_mono nhdsWithin_le_nhds ?_
    rw [Filter.eventually_all]
    intro i
    refine (hcont i).eventually (lt_mem_nhds ?_)
    show 0 < predOf hs (W 0 yo) i (Lb i)
    rw [h0]
    exact hP i
  obtain ⟨δ, hδ, hall⟩ := mem_nhdsGT_iff_exists_Ioo_subset.1 ((lower_of_deriv_neg hd hneg).and hpos)
  refine ⟨δ, hδ, fun lr h1 h2 env₂ hp₂ hr₂ => ?_⟩
  obtain ⟨hlow, hpos⟩ := hall ⟨h1, h2⟩
  obtain ⟨w', b', r1, r2, r3, -, -, -, r7, r8⟩ := hlr lr
  have hev : (L.net m env₂).Evaluates (fun x i => θ x i - lr * gr x i) (W lr) := by
    refine evaluates_env B hr hr₂ hx ?_
    have := (hW lr).1.1
    simpa [sub_eq_add_neg] using this
  have hcar : Carry e w' ins it (W lr) := fun i z k hz hk => by
    have := r8 i z k hz hk
    rwa [← (hW lr).1.2 z (List.mem_of_getElem? hz)] at this
  obtain ⟨w₂, b₂, f1, -, f3, f4, f5, -⟩ := forward_evaluates_partial B r2 r7.fwd hp₂ hev hcar
  have hpred : w₂.store[p]? = some (predTensor (predOf hs (W lr yo))) := by
    rw [← predOf_holds]
    exact f4 0 yo p rfl rfl
  have hlab : w₂.store[y]? = some (labelTensor Lb) := by
    rw [f5 y r7.labelsOutside (by simpa using r7.distinct.2.2.1)]
    exact r7.labels
  obtain ⟨log, hloss⟩ := loss_forward hsz (predOf hs (W lr yo)) Lb
  refine ⟨w', w₂, _, crossEntropy (predOf hs (W lr yo)) Lb, _, r1, ?_, hpred, hpos, rfl, ?_⟩
  · rw [M.bind_ok f1]
    unfold lossForward
    simp [Out.idx, hpred, hlab, hloss]
  · have := hlow
    simp only [h0] at this
    exact this

/-! ### The classifier again -/

theorem softmax_pred {t : InfoTensors} {op : Op} {k : Nat} {ishape : Fin k → Shape} {o : Shape} {P : Nat}
    {fn : (Nat → ℝ) → (Fin P → ℝ) → Args ishape → Elems o} {θ : Fin P → ℝ} {ex : Prop} (h : Computes real t op ishape o P fn θ ex)
    (hop : op = .softmax) (ho : o = [(Bt : Int), n]) (h0 : 0 < k) (hi : ishape ⟨0, h0⟩ = [(Bt : Int), n]) (r : Nat → ℝ) (t : Fin P → ℝ)
    (X : Args ishape) : predOf ho (fn r t X) = softmax (predOf hi (X ⟨0, h0⟩)) := by
  cases h with
  | one hn hs ho' h =>
    subst hop
    cases h with
    | softmax hn θ =>
      subst ho'
      simp only [List.cons.injEq, Int.natCast_inj, and_true] at ho
      obtain ⟨rfl, rfl⟩ := ho
      funext i j
      simp [predOf, arr, recast, softmaxFn, elems, softmax, Function.uncurry, Function.curry]
      rfl
  | add hn h₀ h₁ => cases hop

theorem linear_shift {t : InfoTensors} {op : Op} {k : Nat} {ishape : Fin k → Shape} {o : Shape} {P : Nat}
    {fn : (Nat → ℝ) → (Fin P → ℝ) → Args ishape → Elems o} {θ : Fin P → ℝ} {ex : Prop} (h : Computes real t op ishape o P fn θ ex)
    {u : Int} (hop : op = .linear u) (ho : o = [(Bt : Int), n]) (c : Fin n) :
    ∃ d : Fin P → ℝ, ∀ r t X s i j, predOf ho (fn r (fun q => t q + s * d q) X) i j = predOf ho (fn r t X) i j + if j = c then s else 0 := by
  cases h with
  | one hn hs ho' h =>
    subst hop
    cases h with
    | linear hne hs hf hc θ hw hb =>
      subst ho'
      simp only [List.cons.injEq, Int.natCast_inj, and_true] at ho
      obtain ⟨rfl, rfl⟩ := ho
      refine ⟨fun q => match affineE _ _ q with
        | .inl _ => 0
        | .inr j => if j = c then 1 else 0, fun r t X s i j => ?_⟩
      simp [predOf, arr, recast, linearFn, elems, linear, Function.uncurry]
      ring
  | add hn h₀ h₁ => cases hop

/-- With all labels `0`, the loss of the classifier depends on its parameters, whatever the parameters and the inputs. -/
theorem class_not_stationary {m : Model} {L : Layers classE} {θ₀ : L.Params} (hd : dataOf m = [0, 1, 2])
    (B : Built (creationOrder classE) classE [0] [2] m (fun _ => 1) (fun _ => classTensors) L θ₀)
    (hs : phShape classE 2 = [((2 : Nat) : Int), (2 : Nat)]) (env : Nat → Env) (θ : L.Params) {v : Vals classE}
    (hv : (L.net m env).Evaluates θ v) :
    ¬ LossGradient L m env [0] θ v 2 (fun u => crossEntropy (predOf hs u) (fun _ : Fin 2 => (0 : Fin 2))) fun _ _ => 0 := by
  classical
  intro hgr
  have hop0 : (infoOf classE (classE.callInfo 0)).op = .linear 2 := by rw [classE_eq]; rfl
  have hop1 : (infoOf classE (classE.callInfo 1)).op = .softmax := by rw [classE_eq]; rfl
  have hs1 : phShape classE 1 = [((2 : Nat) : Int), (2 : Nat)] := by rw [classE_eq]; rfl
  have ha1 : classE.argsOf 1 = [0] := by rw [classE_eq]; rfl
  have ha2 : classE.argsOf 2 = [1] := by rw [classE_eq]; rfl
  have hlen : 0 < (classE.argsOf 2).length := by rw [ha2]; decide
  have harg : (classE.argsOf 2)[(⟨0, hlen⟩ : Fin _)] = 1 := by simp [ha2]
  have hm1 : (1 : Nat) ∈ (L.net m env).made := mem_net.2 ⟨by rw [hd]; decide, by rw [classE_eq]; rfl⟩
  have hm2 : (2 : Nat) ∈ (L.net m env).made := mem_net.2 ⟨by rw [hd]; decide, by rw [classE_eq]; rfl⟩
  obtain ⟨d, hdir⟩ := linear_shift (B.layers 1 (by rw [hd]; decide) 0 (by rw [classE_eq]; rfl)) hop0 hs1 (0 : Fin 2)
  have hsoft := softmax_pred (B.layers 2 (by rw [hd]; decide) 1 (by rw [classE_eq]; rfl)) hop1 hs hlen (by rw [harg]; exact hs1)
  let u : L.Params := Function.update (fun _ _ => 0) 1 d
  choose W hW using fun s : ℝ => values_exist B env (fun x i => θ x i + s * u x i) v
  have hder := hgr.total u W fun s => (hW s).1
  simp only [zero_mul, Finset.sum_const_zero] at hder
  let a : Fin 2 → Fin 2 → ℝ := predOf hs1 (v 1)
  have hw1 : ∀ s i j, predOf hs1 (W s 1) i j = a i j + if j = 0 then s else 0 := fun s i j => by
    have e1 := (hW s).1.1 1 hm1
    have e2 : (L.net m env).inputs (W s) 1 = (L.net m env).inputs v 1 := inputs_congr fun z hz => by
      have : z ∈ classE.argsOf 1 := hz
      rw [ha1] at this
      exact (hW s).1.2 z this
    have e3 := hdir (rngOf classE env 1) (θ 1) ((L.net m env).inputs v 1) s i j
    have e4 : v 1 = L.fn 1 (rngOf classE env 1) (θ 1) ((L.net m env).inputs v 1) := hv 1 hm1
    have e5 : W s 1 = L.fn 1 (rngOf classE env 1) (fun q => θ 1 q + s * d q) ((L.net m env).inputs v 1) := by
      rw [e1, e2]
      show L.fn 1 (rngOf classE env 1) (fun q => θ 1 q + s * u 1 q) _ = _
      simp only [u, Function.update_self]
    rw [e5, e3]
    show _ = predOf hs1 (v 1) i j + _
    rw [e4]
  have hw2 : ∀ s, predOf hs (W s 2) = softmax (predOf hs1 (W s 1)) := fun s => by
    have e1 : W s 2 = L.fn 2 (rngOf classE env 2) (fun i => θ 2 i + s * u 2 i) ((L.net m env).inputs (W s) 2) := (hW s).1.1 2 hm2
    rw [e1, hsoft]
    congr 1
  have hfun : (fun s => crossEntropy (predOf hs (W s 2)) fun _ : Fin 2 => (0 : Fin 2)) = fun s =>
      -(∑ i, (a i 0 + s - Real.log (Real.exp (a i 0 + s) + Real.exp (a i 1)))) / (2 : Nat) := by
    funext s
    unfold crossEntropy
    congr 2
    refine Finset.sum_congr rfl fun i _ => ?_
    rw [hw2, softmax, Real.log_div (Real.exp_ne_zero _) (by rw [Fin.sum_univ_two]; positivity), Real.log_exp, Fin.sum_univ_two]
    simp only [hw1]
    simp
  rw [hfun] at hder
  have hder' : HasDerivAt (fun s => -(∑ i, (a i 0 + s - Real.log (Real.exp (a i 0 + s) + Real.exp (a i 1)))) / (2 : Nat))
      (-(∑ i, (1 - Real.exp (a i 0) / (Real.exp (a i 0) + Real.exp (a i 1)))) / (2 : Nat)) 0 := by
    refine HasDerivAt.div_const (HasDerivAt.neg (HasDerivAt.fun_sum fun i _ => ?_)) _
    have h1 : HasDerivAt (fun s : ℝ => a i 0 + s) 1 0 := (hasDerivAt_id (0 : ℝ)).const_add _
    have h2 := (h1.exp.add_const (Real.exp (a i 1))).log (by positivity)
    have h3 := h1.fun_sub h2
    simpa using h3
  have hlt : ∀ i, 0 < 1 - Real.exp (a i 0) / (Real.exp (a i 0) + Real.exp (a i 1)) := fun i => by
    rw [sub_pos, div_lt_one (by positivity)]
    linarith [Real.exp_pos (a i 1)]
  have := hder.unique hder'
  rw [Fin.sum_univ_two] at this
  have h0 := hlt 0
  have h1 := hlt 1
  push_cast at this
  linarith

/-- A small step on the classifier lowers its loss. -/
example : ∃ (m : Model) (L : Layers classE) (θ₀ : L.Params) (w : World) (env : Nat → Env) (it : List Nat) (p y g : Nat) (δ : ℝ), 0 < δ ∧
    Built (creationOrder classE) classE [0] [2] m (fun _ => 1) (fun _ => classTensors) L θ₀ ∧
    History classE [0] [2] m (fun _ => 1) (fun _ => classTensors) L θ₀ θ₀ none w ∧
    ∀ lr, 0 < lr → lr < δ → ∃ (w' w'' : World) (loss loss' : ℝ),
      iteration sgdStep classE m true env env it p y g (w, lr) = (.ok loss, w', lr) ∧
      (do m.forward env it [p]; lossForward p y : M World ℝ) w' = (.ok loss', w'') ∧ loss' < loss := by
  obtain ⟨m, L, θ₀, hd, B, ho, hs, hall⟩ := class_ready
  obtain ⟨pick, hpick⟩ := Props.MaxPoolP.exists_pick
  let env : Nat → Env := fun _ => ⟨fun _ => 0, fun _ => 0, pick⟩
  obtain ⟨v, w, b, it, p, y, g, hv, -, hist, ha, hc, -⟩ := batch_session B env (fun _ _ => 1) (fun _ : Fin 2 => (0 : Fin 2))
  obtain ⟨hx, hk, hP⟩ := hall env θ₀ v (fun _ => 0) hv
  obtain ⟨δ, hδ, hlr⟩ := sgd_lowers_loss B ho hist hs (by norm_num) ha (fun _ => hpick) (fun _ _ => le_rfl) hv hc hx hk hP
    (class_not_stationary hd B hs env θ₀ hv) (env' := env)
  refine ⟨m, L, θ₀, w, env, it, p, y, g, δ, hδ, B, hist, fun lr h1 h2 => ?_⟩
  obtain ⟨w', w'', loss, loss', -, r1, r2, -, -, -, r3⟩ := hlr lr h1 h2 env (fun _ => hpick) fun _ _ => le_rfl
  exact ⟨w', w'', loss, loss', r1, r2, r3⟩

end

end DW.Props.DescentP
