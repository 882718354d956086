import Verif.Props.Epochs
/-!
# Epochs as gradient descent, wherever they lead (C85)
-/

set_option autoImplicit false

namespace DW.Props.EpochP

open DW DW.Spec DW.DL DW.DLL DW.ValL DW.HistL DW.NetL DW.BackendL DW.GraphL DW.BatchL DW.TrainL DW.AgainL DW.EpochL DW.Optim DW.OptL DW.RunL
  DW.Props.BackendP DW.Props.ValidationP DW.Props.LoopP DW.Props.TrainP DW.Props.LossP DW.MatL DW.Props.ContractP DW.Props.GraphP

noncomputable section

/-- An optimizer: its `step`, how it is made from the parameters, and how it moves a number with the gradients `g` from `w0` on: to
`rule g w0 r` in `r` steps. -/
structure Method (σ : Type) where
  step : ParamMap → M (Opt σ) Unit
  create : List Parameter → ParamMap → σ
  rule : (Nat → ℝ) → ℝ → Nat → ℝ

def momentumMethod (lr gamma : ℝ) : Method Momentum :=
  ⟨momentumStep, fun objs params => Momentum.create objs params lr gamma, fun g w0 r => (Spec.momentum gamma (fun _ => lr) g (fun _ => true) w0 r).1⟩

def adamMethod (lr beta0 beta1 eps : ℝ) (t0 : Nat) : Method Adam :=
  ⟨adamStep, fun objs params => Adam.create objs params lr beta0 beta1 eps t0,
    fun g w0 r => (Spec.adam beta0 beta1 eps t0 (fun _ => lr) g (fun _ => true) w0 r).1⟩

/-- `SGD` has no state but the learning rate. -/
def sgdMethod (lr : ℝ) : Method ℝ := ⟨sgdStep, fun _ _ => lr, fun g w0 r => Spec.sgd (fun _ => lr) g (fun _ => true) w0 r⟩

/-- Gradient descent over the batches of all epochs, one after the other. In round `r` the parameters are `Θ r`, the placeholders have
the values `v r` and the samples of the batch the classes `Lb r`; the parameters start at `θ` and move by the rule of the optimizer with
`gr`, and wherever the network is differentiable `gr r` is the gradient of the loss of the batch. -/
structure Descent {σ : Type} {e : Expr} {B n out : Nat} (L : Layers e) (m : Model) (inp : Nat) (hs : phShape e out = [(B : Int), n])
    (S : Setup σ) (rule : (Nat → ℝ) → ℝ → Nat → ℝ) (θ : L.Params) (Θ : Nat → L.Params) (v : Nat → Vals e) (Lb : Nat → Fin B → Fin n) (gr : Nat → L.Params) :
    Prop where
  moves : ∀ r x i, Θ r x i = rule (fun j => gr j x i) (θ x i) r
  values : ∀ r, (L.net m (S.env (r / batches S.train) (r % batches S.train))).Evaluates (Θ r) (v r)
  feeds : ∀ i k, k < batches S.train →
    Feeds S.train (samplesOf S i k) (v (i * batches S.train + k) inp) (Lb (i * batches S.train + k))
  gradient : ∀ r, NoKinks e m (v r) → LossGradient L m (S.env (r / batches S.train) (r % batches S.train)) [inp] (Θ r) (v r) out
    (fun u => crossEntropy (predOf hs u) (Lb r)) (gr r)

/-- A step depends on the gradients up to it only. -/
def Causal (rule : (Nat → ℝ) → ℝ → Nat → ℝ) : Prop := ∀ g g' w0 r, (∀ j < r, g j = g' j) → rule g w0 r = rule g' w0 r

theorem momentum_causal (lr gamma : ℝ) : Causal (momentumMethod lr gamma).rule := by
  intro g g' w0 r h
  refine congrArg Prod.fst ?_
  induction r with
  | zero => rfl
  | succ r ih =>
    simp only [Spec.momentum]
    rw [ih fun j hj => h j (by omega), h r (by omega)]

theorem adam_causal (lr beta0 beta1 eps : ℝ) (t0 : Nat) : Causal (adamMethod lr beta0 beta1 eps t0).rule := by
  intro g g' w0 r h
  refine congrArg Prod.fst ?_
  induction r with
  | zero => rfl
  | succ r ih =>
    simp only [Spec.adam]
    rw [ih fun j hj => h j (by omega), h r (by omega)]

theorem sgd_causal (lr : ℝ) : Causal (sgdMethod lr).rule := by
  intro g g' w0 r h
  show Spec.sgd _ _ _ _ _ = Spec.sgd _ _ _ _ _
  induction r with
  | zero => rfl
  | succ r ih =>
    simp only [Spec.sgd]
    rw [ih fun j hj => h j (by omega), h r (by omega)]

/-- Parameters that move by the rule, with gradients that depend on them. -/
theorem course_of_rule {ι : Type} {P : ι → Type} {rule : (Nat → ℝ) → ℝ → Nat → ℝ} (hr : Causal rule) (θ : (x : ι) → P x → ℝ)
    (G : Nat → ((x : ι) → P x → ℝ) → (x : ι) → P x → ℝ) :
    ∃ Θ : Nat → (x : ι) → P x → ℝ, ∀ r x i, Θ r x i = rule (fun j => G j (Θ j) x i) (θ x i) r := by
  let next : Nat → (Nat → (x : ι) → P x → ℝ) → (x : ι) → P x → ℝ := fun r H x i => rule (fun j => G j (H j) x i) (θ x i) r
  let H : Nat → Nat → (x : ι) → P x → ℝ := fun k => Nat.rec (fun _ => next 0 fun _ => θ) (fun k H j => if j ≤ k then H j else next (k + 1) H) k
  have hH : ∀ k j, j ≤ k → H k j = H j j := by
    intro k
    induction k with
    | zero => intro j hj; obtain rfl := Nat.le_zero.1 hj; rfl
    | succ k ih =>
      intro j hj
      rcases Nat.lt_or_ge k j with h | h
      · obtain rfl : j = k + 1 := by omega
        rfl
      · rw [← ih j h]
        show (if j ≤ k then H k j else _) = _
        rw [if_pos h]
  refine ⟨fun r => H r r, fun r x i => ?_⟩
  cases r with
  | zero => exact hr _ _ _ _ fun j hj => absurd hj (Nat.not_lt_zero _)
  | succ r =>
    show (if r + 1 ≤ r then H r (r + 1) else next (r + 1) (H r)) x i = _
    rw [if_neg (by omega)]
    refine hr _ _ _ _ fun j hj => ?_
    rw [hH r j (by omega)]

section

variable {topo : Graph → List Node} {e : Expr} {m : Model} {real : F32 → ℝ} {tensors : Nat → InfoTensors} {L : Layers e} {θ₀ : L.Params}
  {B n inp out : Nat}

/-- There is such a descent, from any parameters. -/
theorem descent_exists {σ : Type} {S : Setup σ} (Bt : Built topo e [inp] [out] m real tensors L θ₀) (ho : SoleConsumer e m [out])
    (fit : LoadersFit e inp out B n S) (pos : Possible B S) (hx : ∀ x ∈ dataOf m, (e.callOf x).isSome → L.exact x)
    (hlab : ∀ k : Int, 0 ≤ k → k < S.train.dataset.size → ∃ c : Fin n, S.train.dataset.y k 0 = c.val)
    (hpos : ∀ (env : Nat → Env) (θ : L.Params) (v : Vals e), (L.net m env).Evaluates θ v → ∀ i j, 0 < predOf fit.out (v out) i j)
    {rule : (Nat → ℝ) → ℝ → Nat → ℝ} (hr : Causal rule) (θ : L.Params) :
    ∃ (Θ : Nat → L.Params) (v : Nat → Vals e) (Lb : Nat → Fin B → Fin n) (gr : Nat → L.Params),
      Descent L m inp fit.out S rule θ Θ v Lb gr := by
  classical
  obtain ⟨u, Lb, hf⟩ := feeds_exist fit pos hlab
  let env := fun r => S.env (r / batches S.train) (r % batches S.train)
  choose V hV using fun k (θ : L.Params) => values_exist Bt (env k) θ (u k)
  have hG : ∀ k (θ : L.Params), ∃ g, NoKinks e m (V k θ) →
      LossGradient L m (env k) [inp] θ (V k θ) out (fun u => crossEntropy (predOf fit.out u) (Lb k)) g := fun k θ => by
    by_cases hk : NoKinks e m (V k θ)
    · obtain ⟨g, hg⟩ := gradient_exists (θ := θ) Bt ho fit.out fit.small (env := env k) (fun c => pos.picks _ _ c) (hV k θ).1.1
        (fun x hm => hx x (mem_net.1 hm).1 (mem_net.1 hm).2) hk (fun i => hpos _ _ _ (hV k θ).1.1 i (Lb k i))
      exact ⟨g, fun _ => hg⟩
    · exact ⟨fun _ _ => 0, fun h => absurd h hk⟩
  choose G hG using hG
  obtain ⟨Θ, hΘ⟩ := course_of_rule hr θ G
  refine ⟨Θ, fun k => V k (Θ k), Lb, fun k => G k (Θ k), ⟨hΘ, fun k => (hV k _).1.1, fun i k hk => ?_, fun k => hG k _⟩⟩
  rw [(hV _ _).1.2 inp (by simp)]
  exact hf i k hk

/-- The epochs with any of the optimizers follow a descent. -/
theorem rule_descends {σ A C E : Type} {S : Setup σ} {ru : Rule σ A C E} {cs : Nat → C} (hstep : S.step = ru.step) {F : C → C}
    (hF : ∀ s, ru.V.const (ru.pre s) = F (ru.V.const s)) (hcs : ∀ r, cs (r + 1) = F (cs r))
    {rule : (Nat → ℝ) → ℝ → Nat → ℝ} (hrule : ∀ g w0 r, rule g w0 r = (traj cs ru.el.ew ru.el.en g (fun _ => true) w0 ru.idle r).1)
    (Bt : Built topo e [inp] [out] m real tensors L θ₀)
    (htr : ∀ x ∈ dataOf m, ∀ c, e.callOf x = some c → Trainable (tensors (e.callInfo c))) (ho : SoleConsumer e m [out])
    (hd : ∀ x ∈ dataOf m, ∀ c, e.callOf x = some c → DropOk real (infoOf e (e.callInfo c)).op (phShape e x))
    (hg : ∀ x ∈ dataOf m, ∀ c, e.callOf x = some c → GoodVar real (tensors (e.callInfo c)) (infoOf e (e.callInfo c)).op)
    (fit : LoadersFit e inp out B n S) (pos : Possible B S) (hx : ∀ x ∈ dataOf m, (e.callOf x).isSome → L.exact x)
    (hlab : ∀ k : Int, 0 ≤ k → k < S.train.dataset.size → ∃ c : Fin n, S.train.dataset.y k 0 = c.val)
    (hpos : ∀ (env : Nat → Env) (θ : L.Params) (v : Vals e), (L.net m env).Evaluates θ v → ∀ i j, 0 < predOf fit.out (v out) i j)
    {θ : L.Params} {epochNo fuel : Nat} (hfuel : batches S.train < fuel) (hvfuel : batches S.val < fuel)
    {last : Option ((Nat → Env) × Vals e)} {w : World} {b : Backend} (h : History e [inp] [out] m real tensors L θ₀ θ last w)
    (ha : EpochArgs e m inp out B w b S.x S.p S.y S.g) {aux : σ}
    (hopt : OptState ru e m b aux fun x => List.ofFn fun _ : Fin (L.params x) => ru.idle) (hc0 : ru.V.const (ru.pre aux) = cs 0) :
    ∃ (Θ : Nat → L.Params) (v : Nat → Vals e) (Lb : Nat → Fin B → Fin n) (gr : Nat → L.Params),
      Descent L m inp fit.out S rule θ Θ v Lb gr ∧ Reports topo e inp out m real fit.out S v Lb Θ fuel epochNo w b aux := by
  classical
  obtain ⟨u, Lb, hf⟩ := feeds_exist fit pos hlab
  let env := fun r => S.env (r / batches S.train) (r % batches S.train)
  choose V hV using fun k (θ : L.Params) => values_exist Bt (env k) θ (u k)
  have hin : ∀ i k, k < batches S.train → ∀ θ,
      Feeds S.train (samplesOf S i k) (V (i * batches S.train + k) θ inp) (Lb (i * batches S.train + k)) := fun i k hk θ => by
    rw [(hV _ _).1.2 inp (by simp)]
    exact hf i k hk
  obtain ⟨g₀, hl, hrep⟩ := rule_reports_any (V := V) hstep hF hcs Bt htr ho hd hg fit pos hx (epochNo := epochNo) (fun r _ t => (hV r t).1.1)
    (fun i _ k hk t => hin i k hk t) (fun _ _ _ => 0) hfuel hvfuel h ha hopt hc0
  have hG : ∀ k (θ : L.Params), ∃ g, NoKinks e m (V k θ) →
      LossGradient L m (env k) [inp] θ (V k θ) out (fun u => crossEntropy (predOf fit.out u) (Lb k)) g := fun k θ => by
    by_cases hk : NoKinks e m (V k θ)
    · obtain ⟨g, hg⟩ := gradient_exists (θ := θ) Bt ho fit.out fit.small (env := env k) (fun c => pos.picks _ _ c) (hV k θ).1.1
        (fun x hm => hx x (mem_net.1 hm).1 (mem_net.1 hm).2) hk (fun i => hpos _ _ _ (hV k θ).1.1 i (Lb k i))
      exact ⟨g, fun _ => hg⟩
    · exact ⟨fun _ _ => 0, fun h => absurd h hk⟩
  choose G₀ hG using hG
  let G : Nat → L.Params → L.Params := fun r t => if r < epochNo * batches S.train then g₀ r else G₀ r t
  have hcau : Causal rule := fun g g' w0 r hgg => by
    rw [hrule, hrule]
    exact congrArg Prod.fst (traj_congr cs _ _ _ _ hgg)
  obtain ⟨Θ, hΘ⟩ := course_of_rule hcau θ G
  have hal : ∀ r ≤ epochNo * batches S.train, Θ r = along ru cs θ g₀ r := fun r hr => funext fun x => funext fun i => by
    rw [hΘ r x i, hrule]
    refine congrArg Prod.fst (traj_congr cs _ _ _ _ fun j hj => ?_)
    exact congrFun (congrFun (if_pos (by omega)) x) i
  refine ⟨Θ, fun k => V k (Θ k), Lb, fun k => G k (Θ k), ⟨hΘ, fun k => (hV k _).1.1, fun i k hk => hin i k hk _, fun k hk => ?_⟩,
    hrep.congr (fun r hr => by rw [hal r hr.le]) hal⟩
  by_cases hkr : k < epochNo * batches S.train
  · have hr := hl.right k (Nat.zero_le _) hkr
    rw [← hal k hkr.le] at hr
    rw [show G k (Θ k) = g₀ k from if_pos hkr]
    exact hr hk fun i => hpos _ _ _ (hV k _).1.1 i _
  · rw [show G k (Θ k) = G₀ k (Θ k) from if_neg hkr]
    exact hG k _ hk

/-- **C85**, whatever points the training meets: the program that makes the optimizer for `model.params()` and trains for `epochNo`
epochs follows a descent. For each epoch it prints the mean of the losses of the descent and the fraction of the validation samples that
the model classifies correctly in evaluation mode, and it leaves the parameters of the descent in the model. -/
def Descends {σ : Type} (M : Method σ) : Prop :=
  ∀ (topo : Graph → List Node) (e : Expr) (m : Model) (real : F32 → ℝ) (tensors : Nat → InfoTensors) (L : Layers e) (θ₀ : L.Params)
    (xi yo N n : Nat) (θ : L.Params) (S : Setup σ), S.step = M.step → Built topo e [xi] [yo] m real tensors L θ₀ →
    (∀ x ∈ dataOf m, ∀ c, e.callOf x = some c → Trainable (tensors (e.callInfo c))) → SoleConsumer e m [yo] →
    (∀ x ∈ dataOf m, ∀ c, e.callOf x = some c → DropOk real (infoOf e (e.callInfo c)).op (phShape e x)) →
    (∀ x ∈ dataOf m, ∀ c, e.callOf x = some c → GoodVar real (tensors (e.callInfo c)) (infoOf e (e.callInfo c)).op) →
    ∀ (fit : LoadersFit e xi yo N n S), Possible N S → (∀ x ∈ dataOf m, (e.callOf x).isSome → L.exact x) →
    (∀ k : Int, 0 ≤ k → k < S.train.dataset.size → ∃ c : Fin n, S.train.dataset.y k 0 = c.val) →
    (∀ (env : Nat → Env) (θ : L.Params) (v : Vals e), (L.net m env).Evaluates θ v → ∀ i j, 0 < predOf fit.out (v yo) i j) →
    ∀ epochNo fuel, batches S.train < fuel → batches S.val < fuel → ∀ last w b, History e [xi] [yo] m real tensors L θ₀ θ last w →
    EpochArgs e m xi yo N w b S.x S.p S.y S.g →
    ∃ (Θ : Nat → L.Params) (v : Nat → Vals e) (Lb : Nat → Fin N → Fin n) (gr : Nat → L.Params),
      Descent L m xi fit.out S M.rule θ Θ v Lb gr ∧
      Reports topo e xi yo m real fit.out S v Lb Θ fuel epochNo w b (M.create ((objects true b.layers).map Prod.snd) (paramMap e m true b.layers))

theorem momentum_descends (lr gamma : ℝ) : Descends (momentumMethod lr gamma) := by
  intro topo e m real tensors L θ₀ xi yo N n θ S hstep Bt htr ho hd hg fit pos hx hlab hpos epochNo fuel hf hvf last w b h ha
  have hok := paramMap_ok Bt h ha.backend true
  exact rule_descends (ru := momentumRule) (cs := fun _ => (lr, gamma)) hstep (F := id) (fun _ => rfl) (fun _ => rfl)
    (fun g w0 r => (congrArg Prod.fst (OptP.traj_momentum gamma (fun _ => lr) g (fun _ => true) w0 r)).symm) Bt htr ho hd hg fit pos hx hlab
    hpos hf hvf h ha (OptState.fresh Bt h ha.backend fun q hq p hp' => ⟨_, zerosTable_mem _ _ (fun _ => none) hok.names (fun _ _ => rfl) q hq p hp',
      by simp [momentumRule, momentumEl], fun i hi => by simp [momentumRule, momentumEl, List.getElem?_replicate, hi]⟩) rfl

theorem adam_descends (lr beta0 beta1 eps : ℝ) (t0 : Nat) : Descends (adamMethod lr beta0 beta1 eps t0) := by
  intro topo e m real tensors L θ₀ xi yo N n θ S hstep Bt htr ho hd hg fit pos hx hlab hpos epochNo fuel hf hvf last w b h ha
  have hok := paramMap_ok Bt h ha.backend true
  have hz : ∀ q ∈ paramMap e m true b.layers, ∀ p, ((objects true b.layers).map Prod.snd)[q.2]? = some p →
      adamView.look (Adam.create ((objects true b.layers).map Prod.snd) (paramMap e m true b.layers) lr beta0 beta1 eps t0) q.1 =
        some (List.replicate p.data.vals.length 0, List.replicate p.data.vals.length 0) := by
    intro q hq p hp'
    have := zerosTable_mem _ (paramMap e m true b.layers) (fun _ => none) hok.names (fun _ _ => rfl) q hq p hp'
    simp only [adamView, Adam.create, this]
  exact rule_descends (ru := adamRule) (cs := fun r => (lr, beta0, beta1, eps, t0 + r + 1)) hstep
    (F := fun c => (c.1, c.2.1, c.2.2.1, c.2.2.2.1, c.2.2.2.2 + 1)) (fun _ => rfl) (fun _ => rfl)
    (fun g w0 r => (congrArg Prod.fst (OptP.traj_adam beta0 beta1 eps t0 (fun _ => lr) g (fun _ => true) w0 r)).symm) Bt htr ho hd hg fit pos
    hx hlab hpos hf hvf h ha (OptState.fresh Bt h ha.backend fun q hq p hp' => ⟨_, hz q hq p hp', by simp [adamRule, adamEl],
      fun i hi => by simp [adamRule, adamEl, List.getElem?_replicate, hi]⟩) rfl

theorem sgd_descends (lr : ℝ) : Descends (sgdMethod lr) := by
  intro topo e m real tensors L θ₀ xi yo N n θ S hstep Bt htr ho hd hg fit pos hx hlab hpos epochNo fuel hf hvf last w b h ha
  exact rule_descends (ru := sgdRule) (cs := fun _ => lr) hstep (F := id) (fun _ => rfl) (fun _ => rfl)
    (fun g w0 r => (OptP.traj_sgd (fun _ => lr) g (fun _ => true) w0 () r).symm) Bt htr ho hd hg fit pos hx hlab hpos hf hvf h ha
    (OptState.fresh Bt h ha.backend fun q _ p _ => ⟨(), rfl, trivial, fun _ _ => rfl⟩) rfl

/-- The program that uses the optimizer prints and leaves behind what the rule says. -/
def Follows {σ : Type} (M : Method σ) : Prop :=
  ∀ (topo : Graph → List Node) (e : Expr) (m : Model) (real : F32 → ℝ) (tensors : Nat → InfoTensors) (L : Layers e) (θ₀ : L.Params)
    (xi yo N n : Nat) (θ : L.Params) (v : Nat → Vals e) (Lb : Nat → Fin N → Fin n) (Θ gr : Nat → L.Params) (S : Setup σ),
    S.step = M.step → Built topo e [xi] [yo] m real tensors L θ₀ →
    (∀ x ∈ dataOf m, ∀ c, e.callOf x = some c → Trainable (tensors (e.callInfo c))) → SoleConsumer e m [yo] →
    (∀ x ∈ dataOf m, ∀ c, e.callOf x = some c → DropOk real (infoOf e (e.callInfo c)).op (phShape e x)) →
    (∀ x ∈ dataOf m, ∀ c, e.callOf x = some c → GoodVar real (tensors (e.callInfo c)) (infoOf e (e.callInfo c)).op) →
    ∀ (fit : LoadersFit e xi yo N n S), Possible N S → (∀ x ∈ dataOf m, (e.callOf x).isSome → L.exact x) →
    ∀ epochNo, EpochCourse L m xi fit.out S v Lb epochNo Θ gr →
    (∀ r ≤ epochNo * batches S.train, ∀ x i, Θ r x i = M.rule (fun j => gr j x i) (θ x i) r) →
    ∀ fuel, batches S.train < fuel → batches S.val < fuel → ∀ last w b, History e [xi] [yo] m real tensors L θ₀ θ last w →
    EpochArgs e m xi yo N w b S.x S.p S.y S.g →
    Reports topo e xi yo m real fit.out S v Lb Θ fuel epochNo w b (M.create ((objects true b.layers).map Prod.snd) (paramMap e m true b.layers))

theorem momentum_follows (lr gamma : ℝ) : Follows (momentumMethod lr gamma) :=
  fun _ _ _ _ _ _ _ _ _ _ _ _ _ _ _ _ _ hstep B htr ho hd hg fit pos hx _ hC hΘ _ hf hvf _ _ _ h ha =>
    momentum_epochs hstep B htr ho hd hg fit pos hx hC lr gamma hΘ hf hvf h ha

theorem adam_follows (lr beta0 beta1 eps : ℝ) (t0 : Nat) : Follows (adamMethod lr beta0 beta1 eps t0) :=
  fun _ _ _ _ _ _ _ _ _ _ _ _ _ _ _ _ _ hstep B htr ho hd hg fit pos hx _ hC hΘ _ hf hvf _ _ _ h ha =>
    adam_epochs hstep B htr ho hd hg fit pos hx hC lr beta0 beta1 eps t0 hΘ hf hvf h ha

theorem sgd_follows (lr : ℝ) : Follows (sgdMethod lr) :=
  fun _ _ _ _ _ _ _ _ _ _ _ _ _ _ _ _ _ hstep B htr ho hd hg fit pos hx _ hC hΘ _ hf hvf _ _ _ h ha =>
    sgd_epochs hstep B htr ho hd hg fit pos hx hC lr hΘ hf hvf h ha

end

end

end DW.Props.EpochP
