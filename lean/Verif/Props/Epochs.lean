import Verif.Lemmas.Epochs
/-!
# Epochs of training and validation (C85)
-/

set_option autoImplicit false

namespace DW.Props.EpochP

open DW DW.Spec DW.DL DW.DLL DW.ValL DW.HistL DW.NetL DW.BackendL DW.GraphL DW.BatchL DW.TrainL DW.AgainL DW.EpochL DW.Optim DW.OptL DW.RunL
  DW.Props.BackendP DW.Props.ValidationP DW.Props.LoopP DW.Props.TrainP DW.Props.LossP DW.MatL DW.Props.ContractP DW.Props.GraphP

noncomputable section

variable {topo : Graph → List Node} {e : Expr} {m : Model} {real : F32 → ℝ} {tensors : Nat → InfoTensors} {L : Layers e} {θ₀ : L.Params}
  {σ A C E : Type}

/-- The number of full batches. -/
def batches (ld : Loader ℝ) : Nat := ld.dataset.size / ld.batch.toNat

/-- The loaders fit to a model with input `xi` and output `yo`: batches of `N` samples, one label each of `n` classes. -/
structure LoadersFit (e : Expr) (xi yo N n : Nat) (S : Setup σ) : Prop where
  pos : 0 < N
  classes : 0 < n
  out : phShape e yo = [(N : Int), n]
  small : N * n ≤ 2147483647
  batch : S.train.batch = N
  vbatch : S.val.batch = N
  sample : phShape e xi = (N : Int) :: S.train.dataset.shapeX
  vsample : phShape e xi = (N : Int) :: S.val.dataset.shapeX
  label : S.train.dataset.shapeY = [1]
  vlabel : S.val.dataset.shapeY = [1]
  fits : (S.train.dataset.size : Int) + N ≤ 2147483647
  vfits : (S.val.dataset.size : Int) + N ≤ 2147483647
  enough : N ≤ S.train.dataset.size
  venough : N ≤ S.val.dataset.size
  order : S.val.shuffle = false

/-- What comes from outside is possible: `randomIndices` returns as many numbers of samples as asked for. -/
structure Possible (N : Nat) (S : Setup σ) : Prop where
  rands : S.train.shuffle = true → ∀ i k, (S.rands i k).length = N ∧ ∀ v ∈ S.rands i k, 0 ≤ v ∧ v < S.train.dataset.size
  picks : ∀ i k c, IsPick (S.env i k c).pick
  vpicks : ∀ i k c, IsPick (S.venv i k c).pick

/-- The samples of round `k` of epoch `i`. -/
def samplesOf (S : Setup σ) (i k : Nat) : List Int := nextIdxs S.train (S.rands i k) (k * S.train.batch)

section

variable {xi yo N n : Nat} {S : Setup σ} {V : Nat → L.Params → Vals e} {gr gr' gr'' : Nat → L.Params} {Lb : Nat → Fin N → Fin n}
  {ru : Rule σ A C E} {cs : Nat → C} {θ : L.Params}

/-- The parameters after `r` rounds with the gradients `gr`. -/
def along (ru : Rule σ A C E) (cs : Nat → C) {L : Layers e} (θ : L.Params) (gr : Nat → L.Params) (r : Nat) : L.Params :=
  fun x i => (traj cs ru.el.ew ru.el.en (fun j => gr j x i) (fun _ => true) (θ x i) ru.idle r).1

theorem traj_congr {C E : Type} (cs : Nat → C) (ew : C → ℝ → E → ℝ → ℝ) (en : C → E → ℝ → E) {g g' : Nat → ℝ} (w0 : ℝ) (e0 : E) {r : Nat}
    (h : ∀ j < r, g j = g' j) : traj cs ew en g (fun _ => true) w0 e0 r = traj cs ew en g' (fun _ => true) w0 e0 r := by
  induction r with
  | zero => rfl
  | succ r ih =>
    simp only [traj]
    rw [ih fun j hj => h j (by omega), h r (by omega)]

theorem along_congr {r : Nat} (h : ∀ j < r, gr j = gr' j) : along ru cs θ gr r = along ru cs θ gr' r := by
  funext x i
  exact congrArg Prod.fst (traj_congr cs _ _ _ _ fun j hj => by rw [h j hj])

/-- The optimizer after `r` steps. -/
def OptAt (ru : Rule σ A C E) (e : Expr) (m : Model) (L : Layers e) (cs : Nat → C) (gr : Nat → L.Params) (θ : L.Params) (r : Nat)
    (b : Backend) (aux : σ) : Prop :=
  ru.V.const (ru.pre aux) = cs r ∧ OptState ru e m b aux fun x => List.ofFn fun i : Fin (L.params x) =>
    (traj cs ru.el.ew ru.el.en (fun j => gr j x i) (fun _ => true) (θ x i) ru.idle r).2

theorem OptAt.congr {r : Nat} {b : Backend} {aux : σ} (ho : OptAt ru e m L cs gr θ r b aux) (h : ∀ j < r, gr j = gr' j) :
    OptAt ru e m L cs gr' θ r b aux := by
  refine ⟨ho.1, ?_⟩
  have : (fun x => List.ofFn fun i : Fin (L.params x) => (traj cs ru.el.ew ru.el.en (fun j => gr' j x i) (fun _ => true) (θ x i) ru.idle r).2) =
      fun x => List.ofFn fun i : Fin (L.params x) => (traj cs ru.el.ew ru.el.en (fun j => gr j x i) (fun _ => true) (θ x i) ru.idle r).2 := by
    funext x
    congr 1
    funext i
    exact congrArg Prod.snd (traj_congr cs _ _ _ _ fun j hj => by rw [h j hj])
  rw [this]
  exact ho.2

/-- In the rounds from `a` to `b` the gradients are `gr'`, and these are right: wherever the network is differentiable and the predictions
are positive, the gradients of the loss of the round. In other rounds, and for what is not computed by a layer of the model, they are `gr`. -/
structure Learnt (ru : Rule σ A C E) (cs : Nat → C) {L : Layers e} (m : Model) (xi : Nat) (hs : phShape e yo = [(N : Int), n])
    (env : Nat → Nat → Env) (V : Nat → L.Params → Vals e) (Lb : Nat → Fin N → Fin n) (θ : L.Params) (a b : Nat) (gr gr' : Nat → L.Params) :
    Prop where
  others : ∀ j, j < a ∨ b ≤ j → gr' j = gr j
  unused : ∀ j x, ¬ (x ∈ dataOf m ∧ (e.callOf x).isSome) → gr' j x = gr j x
  right : ∀ j, a ≤ j → j < b → NoKinks e m (V j (along ru cs θ gr' j)) → (∀ i, 0 < predOf hs (V j (along ru cs θ gr' j) yo) i (Lb j i)) →
    LossGradient L m (env j) [xi] (along ru cs θ gr' j) (V j (along ru cs θ gr' j)) yo (fun u => crossEntropy (predOf hs u) (Lb j)) (gr' j)

theorem Learnt.refl {hs : phShape e yo = [(N : Int), n]} {env : Nat → Nat → Env} (a : Nat) : Learnt ru cs m xi hs env V Lb θ a a gr gr :=
  ⟨fun _ _ => rfl, fun _ _ _ => rfl, fun _ h1 h2 => absurd h1 (by omega)⟩

theorem Learnt.trans {hs : phShape e yo = [(N : Int), n]} {env : Nat → Nat → Env} {a b c : Nat}
    (h : Learnt ru cs m xi hs env V Lb θ a b gr gr') (h' : Learnt ru cs m xi hs env V Lb θ b c gr' gr'') (hab : a ≤ b) (hbc : b ≤ c) :
    Learnt ru cs m xi hs env V Lb θ a c gr gr'' := by
  refine ⟨fun j hj => ?_, fun j x hn => (h'.unused j x hn).trans (h.unused j x hn), fun j h1 h2 => ?_⟩
  · rw [h'.others j (by omega), h.others j (by omega)]
  · rcases Nat.lt_or_ge j b with hj | hj
    · rw [along_congr (gr := gr'') (gr' := gr') fun i hi => h'.others i (.inl (by omega)), h'.others j (.inl hj)]
      exact h.right j h1 hj
    · exact h'.right j hj h2

/-- The values of the earlier rounds stay. -/
theorem Learnt.earlier {hs : phShape e yo = [(N : Int), n]} {env : Nat → Nat → Env} {a b : Nat}
    (h : Learnt ru cs m xi hs env V Lb θ a b gr gr') {j : Nat} (hj : j ≤ a) : along ru cs θ gr' j = along ru cs θ gr j :=
  along_congr fun i hi => h.others i (.inl (by omega))

/-- The rounds of the training loop of epoch `i`, from round `k` on. -/
theorem training_rounds (hstep : S.step = ru.step) {F : C → C} (hF : ∀ s, ru.V.const (ru.pre s) = F (ru.V.const s))
    (hcs : ∀ r, cs (r + 1) = F (cs r)) (B : Built topo e [xi] [yo] m real tensors L θ₀)
    (htr : ∀ x ∈ dataOf m, ∀ c, e.callOf x = some c → Trainable (tensors (e.callInfo c))) (ho : SoleConsumer e m [yo])
    (fit : LoadersFit e xi yo N n S) (pos : Possible N S) (hx : ∀ x ∈ dataOf m, (e.callOf x).isSome → L.exact x) {i base : Nat}
    {env : Nat → Nat → Env} {R : Nat} (hR : base + batches S.train ≤ R) (henv : ∀ k < batches S.train, env (base + k) = S.env i k)
    (hV : ∀ r < R, ∀ θ, (L.net m (env r)).Evaluates θ (V r θ))
    (hfeed : ∀ k < batches S.train, ∀ θ, Feeds S.train (samplesOf S i k) (V (base + k) θ xi) (Lb (base + k))) :
    ∀ (d k fuel : Nat) (loss : ℝ) {gr : Nat → L.Params} {last : Option ((Nat → Env) × Vals e)} {w : World} {b : Backend} {aux : σ} {vp : Int},
      k + d = batches S.train → d < fuel → History e [xi] [yo] m real tensors L θ₀ (along ru cs θ gr (base + k)) last w →
      EpochArgs e m xi yo N w b S.x S.p S.y S.g → OptAt ru e m L cs gr θ (base + k) b aux →
      ∃ (gr' : Nat → L.Params) (w' : World) (b' : Backend) (aux' : σ) (last' : Option ((Nat → Env) × Vals e)),
        Learnt ru cs m xi fit.out env V Lb θ (base + k) (base + batches S.train) gr gr' ∧
        trainingLoop e m S i loss k fuel ⟨w, aux, ((k * N : Nat) : Int), vp⟩ =
          (.ok (some (loss + ∑ j ∈ Finset.range d, 
            crossEntropy (predOf fit.out (V (base + k + j) (along ru cs θ gr' (base + k + j)) yo)) (Lb (base + k + j)), k + d)),
            ⟨w', aux', 0, vp⟩) ∧
        History e [xi] [yo] m real tensors L θ₀ (along ru cs θ gr' (base + batches S.train)) last' w' ∧ EpochArgs e m xi yo N w' b' S.x S.p S.y S.g ∧
        OptAt ru e m L cs gr' θ (base + batches S.train) b' aux' ∧ SameOwner m b b' ∧ Untouched m b w w' [S.x, S.p, S.y, S.g] ∧
        Averaged e m real (fun j => V (base + k + j) (along ru cs θ gr' (base + k + j))) d w w'
  | _, _, 0, _, _, _, _, _, _, _, _, hlt, _, _, _ => absurd hlt (by omega)
  | 0, k, fuel + 1, loss, gr, last, w, b, aux, vp, hk, _, h, ha, hopt => by
    have hT : batches S.train = S.train.dataset.size / N := by unfold batches; rw [fit.batch]; rfl
    obtain ⟨hxp, hxy, hxg, hpy, hpg, hyg⟩ := ha.parts
    have hv := ha.val fit.batch fit.sample fit.label
    have hend : ¬ (((k * N : Nat) : Int) + S.train.batch ≤ S.train.dataset.size) := by
      have := Nat.lt_div_mul_add (a := S.train.dataset.size) fit.pos
      rw [← hT, ← hk, Nat.add_zero] at this
      have := fit.batch
      omega
    have hle : k * N ≤ S.train.dataset.size := by
      have := Nat.div_mul_le_self S.train.dataset.size N
      rwa [← hT, ← hk, Nat.add_zero] at this
    have hb := fit.batch
    have hf := fit.fits
    obtain ⟨w', q1, -, bx, by', q3, q4, q5⟩ := pullInto_spec (by omega) (by omega) S.junk (S.rands i k) hxy hv.acceptsX hv.acceptsY
      (pos := ((k * N : Nat) : Int)) (by omega) (by omega) fun _ h => absurd h hend
    rw [decide_eq_false hend, if_neg hend] at q1
    have hlx := let ⟨b, hb, _⟩ := ha.acceptsX; (List.getElem?_eq_some_iff.1 hb).1
    have hly := let ⟨b, hb, _⟩ := ha.acceptsY; (List.getElem?_eq_some_iff.1 hb).1
    have so : ∀ a, a ≠ S.x → a ≠ S.y → w'.store[a]? = w.store[a]? := fun a h1 h2 => by
      rw [q3, List.getElem?_set_ne (Ne.symm h2), List.getElem?_set_ne (Ne.symm h1)]
    refine ⟨gr, w', b, aux, last, by rw [← hk, Nat.add_zero]; exact .refl _, ?_, ?_, ⟨by rw [q3]; exact ha.backend, ⟨bx, ?_, .inr ?_⟩, ⟨by', ?_, .inr ?_⟩,
      given_of ha.preds (so _ hxp.symm hpy), given_of ha.grad (so _ hxg.symm hyg.symm), ha.outsideX, ha.outsideY, ha.nodup⟩, ?_, rfl,
      fun a _ h2 => ?_, averaged_zero (by rw [q3]; rfl) _⟩
    · unfold trainingLoop
      have : onTrain (pullInto S.train S.junk (S.rands i k) S.x S.y) (⟨w, aux, ((k * N : Nat) : Int), vp⟩ : Session σ) =
          (.ok false, ⟨w', aux, 0, vp⟩) := by
        unfold onTrain
        rw [q1]
      rw [M.bind_ok this]
      simp
    · rw [← hk, Nat.add_zero, q3]
      exact .write _ _ (.write _ _ h ha.backend ha.outsideX) ha.backend ha.outsideY
    · rw [q3, List.getElem?_set_ne hxy.symm, List.getElem?_set_self hlx]
    · rw [q4, fit.batch, fit.sample]
    · rw [q3, List.getElem?_set_self (by simpa using hly)]
    · rw [q5, fit.batch, fit.label]
    · rw [← hk, Nat.add_zero]
      exact hopt
    · simp only [List.mem_cons, List.not_mem_nil, or_false, not_or] at h2
      exact so a h2.1 h2.2.2.1
  | d + 1, k, fuel + 1, loss, gr, last, w, b, aux, vp, hk, hlt, h, ha, hopt => by
    have hT : batches S.train = S.train.dataset.size / N := by unfold batches; rw [fit.batch]; rfl
    obtain ⟨hxp, hxy, hxg, hpy, hpg, hyg⟩ := ha.parts
    have hv := ha.val fit.batch fit.sample fit.label
    have hle : k * N + N ≤ S.train.dataset.size := by
      calc k * N + N = (k + 1) * N := by ring
        _ ≤ S.train.dataset.size / N * N := Nat.mul_le_mul_right _ (by omega)
        _ ≤ S.train.dataset.size := Nat.div_mul_le_self _ _
    have hb := fit.batch
    have hf := fit.fits
    have hc : ((k * N : Nat) : Int) + S.train.batch ≤ S.train.dataset.size := by omega
    obtain ⟨w₁, q1, q2, -⟩ := pullInto_spec (by omega) (by omega) S.junk (S.rands i k) hxy hv.acceptsX hv.acceptsY
      (pos := ((k * N : Nat) : Int)) (by omega) (by omega) fun hsh _ => by
        obtain ⟨h1, h2⟩ := pos.rands hsh i k
        exact ⟨by rw [h1, hb], h2⟩
    have q2 := q2 hc
    rw [decide_eq_true hc, if_pos hc] at q1
    have hidx : nextIdxs S.train (S.rands i k) ((k * N : Nat) : Int) = samplesOf S i k := by
      unfold samplesOf
      rw [hb]
      push_cast
      rfl
    rw [hidx] at q2
    have hkT : k < batches S.train := by omega
    have hr : base + k < R := by omega
    obtain ⟨p1, p2, p3, p4⟩ := placed h ha fit.batch fit.sample fit.label (hfeed k hkT (along ru cs θ gr (base + k)))
    rw [← q2] at p1 p2 p3 p4
    obtain ⟨g, g1, g2, g3⟩ := rule_round_any ru B ho p1 fit.out fit.small p2
      (hopt.2.later B h ha.backend p1 p2.fwd.backend fun _ => rfl) (env := env (base + k)) (by rw [henv k hkT]; exact pos.picks i k) hx
      (hV _ hr _) p3 (gr (base + k)) (env' := S.env' i k)
    let gr₁ : Nat → L.Params := fun j => if j = base + k then g else gr j
    have e0 : gr₁ (base + k) = g := if_pos rfl
    have e1 : ∀ j < base + k, gr₁ j = gr j := fun j hj => if_neg (by omega)
    have hl : Learnt ru cs m xi fit.out env V Lb θ (base + k) (base + (k + 1)) gr gr₁ := by
      refine ⟨fun j hj => if_neg (by omega), fun j x hn => ?_, fun j h1 h2 => ?_⟩
      · by_cases hj : j = base + k
        · subst hj
          rw [e0]
          exact g2 x hn
        · exact congrFun (if_neg hj) x
      · obtain rfl : j = base + k := by omega
        rw [along_congr e1, e0]
        exact g1
    have hopt' := hopt.congr fun j hj => (e1 j hj).symm
    have hΘx : ∀ r x, along ru cs θ gr₁ r x = fun i => (traj cs ru.el.ew ru.el.en (fun j => gr₁ j x i) (fun _ => true) (θ x i) ru.idle r).1 :=
      fun r x => rfl
    have hS : ∀ x, (List.ofFn fun i : Fin (L.params x) =>
        (traj cs ru.el.ew ru.el.en (fun j => gr j x i) (fun _ => true) (θ x i) ru.idle (base + k)).2) = List.ofFn fun i : Fin (L.params x) =>
        (traj cs ru.el.ew ru.el.en (fun j => gr₁ j x i) (fun _ => true) (θ x i) ru.idle (base + k)).2 := fun x => by
      congr 1
      funext i
      exact congrArg Prod.snd (traj_congr cs _ _ _ _ fun j hj => by rw [e1 j hj])
    obtain ⟨w₃, b₃, aux₃, r1, r2, r3, r4, r5, -, r6, r7⟩ := g3 (along ru cs θ gr₁ (base + k + 1)) fun x => by
      rw [hopt.1, ← along_congr e1, hS, ← e0]
      exact (traj_zip ru cs (fun j => gr₁ j x) (θ x) (base + k)).1
    rw [hopt.1] at r6 r7
    have heq : (fun x => List.zipWith (ru.el.en (cs (base + k))) (List.ofFn fun i : Fin (L.params x) =>
        (traj cs ru.el.ew ru.el.en (fun j => gr j x i) (fun _ => true) (θ x i) ru.idle (base + k)).2) (List.ofFn (g x))) =
        fun x => List.ofFn fun i : Fin (L.params x) =>
          (traj cs ru.el.ew ru.el.en (fun j => gr₁ j x i) (fun _ => true) (θ x i) ru.idle (base + k + 1)).2 :=
      funext fun x => by
        rw [hS, ← e0]
        exact (traj_zip ru cs (fun j => gr₁ j x) (θ x) (base + k)).2
    rw [heq] at r7
    obtain ⟨gr', w', b', aux', last', s0, s1, s2, s3, s4, s5, s6, s7⟩ := training_rounds hstep hF hcs B htr ho fit pos hx hR henv hV hfeed d
      (k + 1) fuel (loss + crossEntropy (predOf fit.out (V (base + k) (along ru cs θ gr (base + k)) yo)) (Lb (base + k))) (gr := gr₁) (aux := aux₃)
      (vp := vp) (by omega) (by omega) r2 (ha.of_batch r3) ⟨by rw [hF, r6, ← hcs]; rfl, r7⟩
    have hal : along ru cs θ gr' (base + k) = along ru cs θ gr (base + k) :=
      (s0.earlier (by omega)).trans (hl.earlier le_rfl)
    refine ⟨gr', w', b', aux', last', hl.trans s0 (by omega) (by omega), ?_, s2, s3, s4, s5.trans r4, fun a h1 h2 => ?_, ?_⟩
    · unfold trainingLoop
      have e1' : onTrain (pullInto S.train S.junk (S.rands i k) S.x S.y) (⟨w, aux, ((k * N : Nat) : Int), vp⟩ : Session σ) =
          (.ok true, ⟨w₁, aux, (((k + 1) * N : Nat) : Int), vp⟩) := by
        unfold onTrain
        rw [q1, hb, Nat.succ_mul]
        simp
      have e2 : onOpt (iteration S.step e m true (S.env i k) (S.env' i k) [S.x] S.p S.y S.g)
          (⟨w₁, aux, (((k + 1) * N : Nat) : Int), vp⟩ : Session σ) =
          (.ok (crossEntropy (predOf fit.out (V (base + k) (along ru cs θ gr (base + k)) yo)) (Lb (base + k))), ⟨w₃, aux₃, (((k + 1) * N : Nat) : Int), vp⟩) := by
        unfold onOpt
        simp only
        rw [hstep, ← henv k hkT, r1]
      rw [M.bind_ok e1', if_pos rfl, M.bind_ok e2, s1, Finset.sum_range_succ', show k + 1 + d = k + (d + 1) by omega]
      congr 4
      rw [add_assoc, add_comm (crossEntropy _ _), ← hal]
      congr 2
      refine Finset.sum_congr rfl fun j _ => ?_
      rw [show base + (k + 1) + j = base + k + (j + 1) by omega]
    · have h1' : a ∉ privates m b₃ := by rw [r4]; exact h1
      simp only [List.mem_cons, List.not_mem_nil, or_false, not_or] at h2
      rw [s6 a h1' (by simp [h2]), r5 a h1 (by simp [h2]), p4 a h1 (by simp [h2])]
    · have e3 := iteration_stats ru.step e m true (env (base + k)) (S.env' i k) [S.x] S.p S.y S.g (w₁, aux)
      rw [r1] at e3
      have av := ((forward_averages B htr p1 p2.fwd (by rw [henv k hkT]; exact pos.picks i k) (hV _ hr _) p3
        (fun j => V (base + k + j) (along ru cs θ gr' (base + k + j))) (by rw [Nat.add_zero, hal])).keep e3).from (w := w) (by rw [q2]; rfl)
      rw [Nat.add_comm d 1]
      refine av.trans ?_
      have : (fun j => V (base + k + (1 + j)) (along ru cs θ gr' (base + k + (1 + j)))) =
          fun j => V (base + (k + 1) + j) (along ru cs θ gr' (base + (k + 1) + j)) :=
        funext fun j => by rw [show base + k + (1 + j) = base + (k + 1) + j by omega]
      rw [this]
      exact s7

/-- A program has come to the state `w` with the model, and the parameters are now `θ`. -/
def HasParams (topo : Graph → List Node) (e : Expr) (xi yo : Nat) (m : Model) (real : F32 → ℝ) {L : Layers e} (θ : L.Params) (w : World) :
    Prop :=
  ∃ (tensors' : Nat → InfoTensors) (L' : Layers e) (θ₁ θ₂ : L'.Params) (last : Option ((Nat → Env) × Vals e)),
    Built topo e [xi] [yo] m real tensors' L' θ₁ ∧ History e [xi] [yo] m real tensors' L' θ₁ θ₂ last w ∧
    ∀ x, List.ofFn (θ₂ x) = List.ofFn (θ x)

/-- After `train(false)` in the state `w`, with the parameters `θ` and the running statistics of `w`, the model predicts `f`. -/
def PredictsAt (topo : Graph → List Node) (e : Expr) (xi yo : Nat) (m : Model) (real : F32 → ℝ) {L : Layers e} (θ : L.Params) (N : Nat)
    (w : World) (f : List ℝ → List ℝ) : Prop :=
  ∃ (tensors' : Nat → InfoTensors) (L' : Layers e) (θ' : L'.Params), Built topo e [xi] [yo] m real tensors' L' θ' ∧
    History e [xi] [yo] m real tensors' L' θ' θ' none (trained false w) ∧ (∀ x, List.ofFn (θ' x) = List.ofFn (θ x)) ∧
    (∀ x ∈ dataOf m, ∀ c, e.callOf x = some c → Frozen (tensors' (e.callInfo c)) ∧
      ∀ b l, w.backend = some b → layerAt e m b x = some l → l.Shows false (tensors' (e.callInfo c))) ∧
    Predicts e xi yo m real tensors' L' θ' θ' N f

/-- Between two epochs, after `r` rounds. -/
def Between (topo : Graph → List Node) (xi yo N : Nat) (m : Model) (real : F32 → ℝ) (S : Setup σ) (ru : Rule σ A C E) (cs : Nat → C)
    (gr : Nat → L.Params) (θ : L.Params) (r : Nat) (w : World) (b : Backend) (aux : σ) : Prop :=
  ∃ (tensors₁ : Nat → InfoTensors) (L₁ : Layers e) (θ₁ θ₂ : L₁.Params) (last : Option ((Nat → Env) × Vals e)),
    Built topo e [xi] [yo] m real tensors₁ L₁ θ₁ ∧ History e [xi] [yo] m real tensors₁ L₁ θ₁ θ₂ last w ∧
    (∀ x, List.ofFn (θ₂ x) = List.ofFn (along ru cs θ gr r x)) ∧
    (∀ x ∈ dataOf m, ∀ c, e.callOf x = some c → GoodVar real (tensors₁ (e.callInfo c)) (infoOf e (e.callInfo c)).op) ∧
    EpochArgs e m xi yo N w b S.x S.p S.y S.g ∧ OptAt ru e m L cs gr θ r b aux

open Classical in
/-- One epoch. -/
theorem one_epoch (hstep : S.step = ru.step) {F : C → C} (hF : ∀ s, ru.V.const (ru.pre s) = F (ru.V.const s))
    (hcs : ∀ r, cs (r + 1) = F (cs r)) (B : Built topo e [xi] [yo] m real tensors L θ₀)
    (htr : ∀ x ∈ dataOf m, ∀ c, e.callOf x = some c → Trainable (tensors (e.callInfo c))) (ho : SoleConsumer e m [yo])
    (hd : ∀ x ∈ dataOf m, ∀ c, e.callOf x = some c → DropOk real (infoOf e (e.callInfo c)).op (phShape e x))
    (fit : LoadersFit e xi yo N n S) (pos : Possible N S) (hx : ∀ x ∈ dataOf m, (e.callOf x).isSome → L.exact x) {i base : Nat}
    {env : Nat → Nat → Env} {R : Nat} (hR : base + batches S.train ≤ R) (henv : ∀ k < batches S.train, env (base + k) = S.env i k)
    (hV : ∀ r < R, ∀ θ, (L.net m (env r)).Evaluates θ (V r θ))
    (hfeed : ∀ k < batches S.train, ∀ θ, Feeds S.train (samplesOf S i k) (V (base + k) θ xi) (Lb (base + k)))
    {fuel : Nat} (hfuel : batches S.train < fuel) (hvfuel : batches S.val < fuel) {w : World} {b : Backend} {aux : σ}
    (hb : Between topo xi yo N m real S ru cs gr θ base w b aux) :
    ∃ (gr' : Nat → L.Params) (f : List ℝ → List ℝ) (w₁ w₂ : World) (b₂ : Backend) (aux₂ : σ),
      Learnt ru cs m xi fit.out env V Lb θ base (base + batches S.train) gr gr' ∧
      epochTraining e m S i fuel ⟨w, aux, 0, 0⟩ = (.ok (some ((∑ k ∈ Finset.range (batches S.train),
        crossEntropy (predOf fit.out (V (base + k) (along ru cs θ gr' (base + k)) yo)) (Lb (base + k))) / batches S.train)), ⟨w₁, aux₂, 0, 0⟩) ∧
      PredictsAt topo e xi yo m real (along ru cs θ gr' (base + batches S.train)) N w₁ f ∧
      epochValidation m S i fuel ⟨w₁, aux₂, 0, 0⟩ = (.ok (some ((Nat.count (Correct S.val.dataset f) (batches S.val * N) : ℝ) /
        (batches S.val * N : Nat))), ⟨w₂, aux₂, 0, 0⟩) ∧
      Between topo xi yo N m real S ru cs gr' θ (base + batches S.train) w₂ b₂ aux₂ ∧ SameOwner m b b₂ ∧
      Untouched m b w w₂ [S.x, S.p, S.y, S.g] ∧ Averaged e m real (fun j => V (base + j) (along ru cs θ gr' (base + j))) (batches S.train) w w₁ ∧
      Averaged e m real (fun j => V (base + j) (along ru cs θ gr' (base + j))) (batches S.train) w w₂ ∧
      PredictsAt topo e xi yo m real (along ru cs θ gr' (base + batches S.train)) N w₂ f := by
  obtain ⟨tensors₁, L₁, θ₁, θ₂, last, B₁, h₁, hθ, hg, ha, hopt⟩ := hb
  obtain ⟨t', B', h', htr', hg'⟩ := train_again B htr B₁ h₁ hg hd hθ
  obtain ⟨ha', ho', hst'⟩ := ha.trained true
  obtain ⟨gr', w₁, b₁, aux₁, last₁, r0, r1, r2, r3, r4, r5, r6, r7⟩ := training_rounds hstep hF hcs B' htr' ho fit pos hx hR henv hV hfeed
    (batches S.train) 0 fuel 0 (vp := 0) (Nat.zero_add _) hfuel h' ha' ⟨hopt.1, optState_trained hopt.2 true⟩
  obtain ⟨t₂, L₂, θ₃, B₂, h₂, hθ₂, hsh⟩ := train_switches B' r2 hg' hd false
  obtain ⟨ha₂, ho₂, hst₂⟩ := r3.trained false
  have hfr : ∀ x ∈ dataOf m, ∀ c, e.callOf x = some c → Frozen (t₂ (e.callInfo c)) := fun x hx c hc => (hsh x hx c hc).2.1
  obtain ⟨f, hp⟩ := predicts_exists (N := N) B₂ hfr ⟨_, fit.vsample⟩ θ₃
  have hT : batches S.val = S.val.dataset.size / N := by unfold batches; rw [fit.vbatch]; rfl
  obtain ⟨w₂, b₂, last₂, s1, s2, s3, s4, s5, s6⟩ := rounds B₂ hp fit.vbatch fit.pos fit.vsample (by rw [fit.vlabel]; rfl) fit.out fit.classes
    fit.order fit.vfits (env := S.venv i) (pos.vpicks i) S.junk (S.vrands i) (batches S.val) 0 fuel 0 (by rw [Nat.zero_add, hT]) hvfuel h₂
    (ha₂.val fit.vbatch fit.vsample fit.vlabel)
  have av : Averaged e m real (fun j => V (base + j) (along ru cs θ gr' (base + j))) (batches S.train) w w₁ := r7.from (stats_trained true w)
  have ha₃ := ha₂.of_val fit.vbatch fit.vsample fit.vlabel s3 s4 s5
  obtain ⟨t₃, ex₃, B₃, h₃, hsh₃⟩ := eval_again B₂ hfr s2 (fun x hx c hc => (hsh x hx c hc).2.2) hd
  refine ⟨gr', f, w₁, w₂, b₂, aux₁, r0, ?_, ⟨t₂, L₂, θ₃, B₂, h₂, hθ₂, fun x hx c hc => ⟨hfr x hx c hc, (hsh x hx c hc).1⟩, hp⟩, ?_,
    ⟨t₂, L₂, θ₃, θ₃, last₂, B₂, s2, hθ₂, fun x hx c hc => (hsh x hx c hc).2.2, ha₃, r4.1, ?_⟩, ?_, fun a h1 h2 => ?_, av,
    av.trans ((frozen_stats B₂ hfr h₂ s2 _).from (stats_trained false w₁)),
    ⟨t₃, ⟨L₂.params, L₂.fn, ex₃⟩, θ₃, B₃, h₃, hθ₂, hsh₃, predicts_fn B₂ B₃ hp⟩⟩
  · unfold epochTraining setMode
    rw [M.bind_ok (M.modify_apply _ _)]
    simp only [Nat.zero_mul, Nat.cast_zero] at r1
    rw [M.bind_ok r1]
    simp
  · unfold epochValidation setMode
    rw [M.bind_ok (M.modify_apply _ _)]
    simp only [Nat.zero_mul, Nat.cast_zero, Nat.zero_add, Nat.count_zero, sub_zero, zero_add] at s1
    have : onVal (validationLoop m S.val S.junk (S.vrands i) (S.venv i) S.x S.p S.y 0 0 fuel) (⟨trained false w₁, aux₁, 0, 0⟩ : Session σ) =
        (.ok (some ((Nat.count (Correct S.val.dataset f) (batches S.val * N) : ℝ) / N, batches S.val)), ⟨w₂, aux₁, 0, 0⟩) := by
      unfold onVal
      simp only
      rw [s1]
    rw [M.bind_ok this]
    simp only [Option.map_some]
    rw [div_div, Nat.cast_mul, mul_comm (N : ℝ)]
    rfl
  · exact (optState_trained r4.2 false).later B₂ h₂ ha₂.backend s2 ha₃.backend fun _ => rfl
  · exact s4.trans (ho₂.trans (r5.trans ho'))
  · have o1 : a ∉ privates m { b with layers := b.layers.map (Cpu.train true) } := by rw [ho']; exact h1
    have o2 : a ∉ privates m b₁ := by rw [r5]; exact o1
    have o3 : a ∉ privates m { b₁ with layers := b₁.layers.map (Cpu.train false) } := by rw [ho₂]; exact o2
    simp only [List.mem_cons, List.not_mem_nil, or_false, not_or] at h2
    rw [s5 a o3 (by simp [h2]), hst₂, r6 a o1 (by simp [h2]), hst']

open Classical in
/-- The epochs with any of the optimizers. -/
theorem rule_epochs (hstep : S.step = ru.step) {F : C → C} (hF : ∀ s, ru.V.const (ru.pre s) = F (ru.V.const s))
    (hcs : ∀ r, cs (r + 1) = F (cs r)) (B : Built topo e [xi] [yo] m real tensors L θ₀)
    (htr : ∀ x ∈ dataOf m, ∀ c, e.callOf x = some c → Trainable (tensors (e.callInfo c))) (ho : SoleConsumer e m [yo])
    (hd : ∀ x ∈ dataOf m, ∀ c, e.callOf x = some c → DropOk real (infoOf e (e.callInfo c)).op (phShape e x))
    (hg : ∀ x ∈ dataOf m, ∀ c, e.callOf x = some c → GoodVar real (tensors (e.callInfo c)) (infoOf e (e.callInfo c)).op)
    (fit : LoadersFit e xi yo N n S) (pos : Possible N S) (hx : ∀ x ∈ dataOf m, (e.callOf x).isSome → L.exact x) {epochNo : Nat}
    (hV : ∀ r < epochNo * batches S.train, ∀ θ, (L.net m (S.env (r / batches S.train) (r % batches S.train))).Evaluates θ (V r θ))
    (hfeed : ∀ i < epochNo, ∀ k < batches S.train, ∀ θ,
      Feeds S.train (samplesOf S i k) (V (i * batches S.train + k) θ xi) (Lb (i * batches S.train + k))) (gr : Nat → L.Params)
    {fuel : Nat} (hfuel : batches S.train < fuel) (hvfuel : batches S.val < fuel) {last : Option ((Nat → Env) × Vals e)} {w : World}
    {b : Backend} {aux : σ} (h : History e [xi] [yo] m real tensors L θ₀ θ last w) (ha : EpochArgs e m xi yo N w b S.x S.p S.y S.g)
    (hopt : OptState ru e m b aux fun x => List.ofFn fun _ : Fin (L.params x) => ru.idle) (hc0 : ru.V.const (ru.pre aux) = cs 0) :
    ∀ q ≤ epochNo, ∃ (gr' : Nat → L.Params) (f : Nat → List ℝ → List ℝ) (w' : World) (b' : Backend) (aux' : σ),
      Learnt ru cs m xi fit.out (fun r => S.env (r / batches S.train) (r % batches S.train)) V Lb θ 0 (q * batches S.train) gr gr' ∧
      epochs e m S fuel q ⟨w, aux, 0, 0⟩ = (.ok (some ((List.range q).map fun i =>
        ((∑ k ∈ Finset.range (batches S.train), crossEntropy (predOf fit.out
              (V (i * batches S.train + k) (along ru cs θ gr' (i * batches S.train + k)) yo))
            (Lb (i * batches S.train + k))) / batches S.train,
          (Nat.count (Correct S.val.dataset (f i)) (batches S.val * N) : ℝ) / (batches S.val * N : Nat)))), ⟨w', aux', 0, 0⟩) ∧
      Between topo xi yo N m real S ru cs gr' θ (q * batches S.train) w' b' aux' ∧ SameOwner m b b' ∧
      Untouched m b w w' [S.x, S.p, S.y, S.g] ∧ Averaged e m real (fun j => V j (along ru cs θ gr' j)) (q * batches S.train) w w' ∧
      (∀ i, i + 1 = q → PredictsAt topo e xi yo m real (along ru cs θ gr' (q * batches S.train)) N w' (f i)) ∧
      ∀ i < q, ∃ (r : List (ℝ × ℝ)) (l : ℝ) (s s₁ : Session σ), epochs e m S fuel i ⟨w, aux, 0, 0⟩ = (.ok (some r), s) ∧
        epochTraining e m S i fuel s = (.ok (some l), s₁) ∧
        PredictsAt topo e xi yo m real (along ru cs θ gr' ((i + 1) * batches S.train)) N s₁.world (f i) ∧
        Averaged e m real (fun j => V j (along ru cs θ gr' j)) ((i + 1) * batches S.train) w s₁.world
  | 0, _ => by
    refine ⟨gr, fun _ _ => [], w, b, aux, by rw [Nat.zero_mul]; exact .refl 0, rfl, ⟨tensors, L, θ₀, θ, last, B, h, fun x => ?_, hg, ha, ?_, ?_⟩, rfl, fun _ _ _ => rfl, ?_, by simp, by simp⟩
    rotate_right
    · rw [Nat.zero_mul]
      exact averaged_zero rfl _
    · congr 1
      funext i
      simp [along, traj]
    · rw [hc0, Nat.zero_mul]
    · rw [Nat.zero_mul]
      exact hopt
  | q + 1, hq => by
    obtain ⟨gr₁, f, w₁, b₁, aux₁, r0, r1, r2, r3, r4, r4', -, r5⟩ := rule_epochs hstep hF hcs B htr ho hd hg fit pos hx hV hfeed gr hfuel hvfuel
      h ha hopt hc0 q (by omega)
    have hT : 0 < batches S.train := by
      unfold batches
      rw [fit.batch]
      exact Nat.div_pos fit.enough fit.pos
    have hmul : q * batches S.train + batches S.train = (q + 1) * batches S.train := by ring
    obtain ⟨gr', f', w₂, w₃, b₃, aux₃, s0, s1, s2, s3, s4, s5, s6, s7, s8, s9⟩ := one_epoch hstep hF hcs B htr ho hd fit pos hx (i := q) (base := q * batches S.train)
      (env := fun r => S.env (r / batches S.train) (r % batches S.train)) (by rw [hmul]; exact Nat.mul_le_mul_right _ hq) (fun k hk => by
        rw [Nat.mul_comm q, Nat.mul_add_div hT, Nat.div_eq_of_lt hk, Nat.mul_add_mod, Nat.mod_eq_of_lt hk, Nat.add_zero]) hV
      (hfeed q (by omega)) hfuel hvfuel r2
    have hal : ∀ j ≤ q * batches S.train, along ru cs θ gr' j = along ru cs θ gr₁ j := fun j hj => s0.earlier hj
    have r4' := r4'.congr (v' := fun j => V j (along ru cs θ gr' j)) fun j hj => by rw [hal j hj.le]
    have hle : ∀ i < q, (i + 1) * batches S.train ≤ q * batches S.train := fun i hi => Nat.mul_le_mul_right _ hi
    rw [hmul] at s0 s2 s4 s9
    have av := r4'.trans s7
    have av' := r4'.trans s8
    rw [hmul] at av av'
    refine ⟨gr', fun i => if i < q then f i else f', w₃, b₃, aux₃, r0.trans s0 (by omega) (by rw [← hmul]; omega), ?_, s4, s5.trans r3, fun a h1 h2 => ?_, av', fun i hi => ?_, fun i hi => ?_⟩
    · unfold epochs
      rw [M.bind_ok r1]
      simp only
      rw [M.bind_ok s1]
      simp only
      rw [M.bind_ok s3]
      simp only
      rw [List.range_succ, List.map_append]
      refine Prod.ext (congrArg (fun l => Out.ok (some l)) (congrArg₂ (· ++ ·) (List.map_congr_left fun i hi => ?_) ?_)) rfl
      · have hi := List.mem_range.1 hi
        simp only [if_pos hi]
        congr 2
        refine Finset.sum_congr rfl fun k hk => ?_
        rw [hal]
        have := hle i hi
        have hk := Finset.mem_range.1 hk
        rw [Nat.succ_mul] at this
        omega
      · simp only [List.map_cons, List.map_nil, lt_irrefl, if_false]
    · rw [s6 a (by rw [r3]; exact h1) h2, r4 a h1 h2]
    · obtain rfl : i = q := by omega
      simp only [lt_irrefl, if_false]
      exact s9
    · by_cases hiq : i < q
      · simp only [if_pos hiq]
        obtain ⟨a1, a2, a3, a4, a5, a6, a7, a8⟩ := r5 i hiq
        refine ⟨a1, a2, a3, a4, a5, a6, by rw [hal _ (hle i hiq)]; exact a7, a8.congr fun j hj => ?_⟩
        have := hle i hiq
        rw [hal j (by omega)]
      · obtain rfl : i = q := by omega
        simp only [if_neg hiq]
        exact ⟨_, _, _, _, r1, s1, s2, av⟩

/-- The mathematical course of `epochNo` epochs: that of a training loop with the batches of all epochs one after the other. -/
structure EpochCourse (L : Layers e) (m : Model) (xi : Nat) (hs : phShape e yo = [(N : Int), n]) (S : Setup σ) (v : Nat → Vals e)
    (Lb : Nat → Fin N → Fin n) (epochNo : Nat) (Θ : Nat → L.Params) (gr : Nat → L.Params) : Prop where
  course : Course L m [xi] hs (fun r => S.env (r / batches S.train) (r % batches S.train)) v Lb (epochNo * batches S.train) Θ v gr
  feeds : ∀ i < epochNo, ∀ k < batches S.train,
    Feeds S.train (samplesOf S i k) (v (i * batches S.train + k) xi) (Lb (i * batches S.train + k))

open Classical in
/-- What the program reports and leaves behind. For each epoch: the mean of the losses of its rounds, and the fraction of the samples
of the validation set in full batches that are classified correctly by what the model predicts, in evaluation mode, with the
parameters after the last round of the epoch. In the end the parameters are those after the last round of all, and no tensor has
changed except those of the program. The running statistics are moving averages over the rounds of training: the validation neither
changes them nor counts. What the model predicts in the end, in evaluation mode, is what the last validation saw. -/
def Reports (topo : Graph → List Node) (e : Expr) (xi yo : Nat) (m : Model) (real : F32 → ℝ) (hs : phShape e yo = [(N : Int), n])
    (S : Setup σ) (v : Nat → Vals e) (Lb : Nat → Fin N → Fin n) {L : Layers e} (Θ : Nat → L.Params) (fuel epochNo : Nat) (w : World)
    (b : Backend) (aux : σ) : Prop :=
  ∃ (f : Nat → List ℝ → List ℝ) (w' : World) (b' : Backend) (aux' : σ),
    epochs e m S fuel epochNo ⟨w, aux, 0, 0⟩ = (.ok (some ((List.range epochNo).map fun i =>
      ((∑ k ∈ Finset.range (batches S.train), crossEntropy (predOf hs (v (i * batches S.train + k) yo))
          (Lb (i * batches S.train + k))) / batches S.train,
        (Nat.count (Correct S.val.dataset (f i)) (batches S.val * N) : ℝ) / (batches S.val * N : Nat)))), ⟨w', aux', 0, 0⟩) ∧
    HasParams topo e xi yo m real (Θ (epochNo * batches S.train)) w' ∧ EpochArgs e m xi yo N w' b' S.x S.p S.y S.g ∧ SameOwner m b b' ∧
    Untouched m b w w' [S.x, S.p, S.y, S.g] ∧ Averaged e m real v (epochNo * batches S.train) w w' ∧
    (∀ i, i + 1 = epochNo → PredictsAt topo e xi yo m real (Θ (epochNo * batches S.train)) N w' (f i)) ∧
    ∀ i < epochNo, ∃ (r : List (ℝ × ℝ)) (l : ℝ) (s s₁ : Session σ), epochs e m S fuel i ⟨w, aux, 0, 0⟩ = (.ok (some r), s) ∧
      epochTraining e m S i fuel s = (.ok (some l), s₁) ∧
      PredictsAt topo e xi yo m real (Θ ((i + 1) * batches S.train)) N s₁.world (f i) ∧
      Averaged e m real v ((i + 1) * batches S.train) w s₁.world

/-- With any gradients to begin with: there are gradients, right in all rounds, such that the program does what they say. -/
theorem rule_reports_any (hstep : S.step = ru.step) {F : C → C} (hF : ∀ s, ru.V.const (ru.pre s) = F (ru.V.const s))
    (hcs : ∀ r, cs (r + 1) = F (cs r)) (B : Built topo e [xi] [yo] m real tensors L θ₀)
    (htr : ∀ x ∈ dataOf m, ∀ c, e.callOf x = some c → Trainable (tensors (e.callInfo c))) (ho : SoleConsumer e m [yo])
    (hd : ∀ x ∈ dataOf m, ∀ c, e.callOf x = some c → DropOk real (infoOf e (e.callInfo c)).op (phShape e x))
    (hg : ∀ x ∈ dataOf m, ∀ c, e.callOf x = some c → GoodVar real (tensors (e.callInfo c)) (infoOf e (e.callInfo c)).op)
    (fit : LoadersFit e xi yo N n S) (pos : Possible N S) (hx : ∀ x ∈ dataOf m, (e.callOf x).isSome → L.exact x) {epochNo : Nat}
    (hV : ∀ r < epochNo * batches S.train, ∀ θ, (L.net m (S.env (r / batches S.train) (r % batches S.train))).Evaluates θ (V r θ))
    (hfeed : ∀ i < epochNo, ∀ k < batches S.train, ∀ θ,
      Feeds S.train (samplesOf S i k) (V (i * batches S.train + k) θ xi) (Lb (i * batches S.train + k))) (gr : Nat → L.Params)
    {fuel : Nat} (hfuel : batches S.train < fuel) (hvfuel : batches S.val < fuel) {last : Option ((Nat → Env) × Vals e)} {w : World}
    {b : Backend} (h : History e [xi] [yo] m real tensors L θ₀ θ last w) (ha : EpochArgs e m xi yo N w b S.x S.p S.y S.g) {aux : σ}
    (hopt : OptState ru e m b aux fun x => List.ofFn fun _ : Fin (L.params x) => ru.idle) (hc0 : ru.V.const (ru.pre aux) = cs 0) :
    ∃ gr' : Nat → L.Params,
      Learnt ru cs m xi fit.out (fun r => S.env (r / batches S.train) (r % batches S.train)) V Lb θ 0 (epochNo * batches S.train) gr gr' ∧
      Reports topo e xi yo m real fit.out S (fun j => V j (along ru cs θ gr' j)) Lb (along ru cs θ gr') fuel epochNo w b aux := by
  obtain ⟨gr', f, w', b', aux', h0, h1, ⟨t, L₁, θ₁, θ₂, last', b1, b2, b3, -, b4, -⟩, h3, h4, h5⟩ := rule_epochs hstep hF hcs B htr ho hd hg fit
    pos hx hV hfeed gr hfuel hvfuel h ha hopt hc0 epochNo le_rfl
  exact ⟨gr', h0, f, w', b', aux', h1, ⟨t, L₁, θ₁, θ₂, last', b1, b2, b3⟩, b4, h3, h4, h5⟩

/-- `Reports` speaks of the rounds of the epochs only. -/
theorem Reports.congr {hs : phShape e yo = [(N : Int), n]} {v v' : Nat → Vals e} {Θ Θ' : Nat → L.Params} {fuel epochNo : Nat} {w : World}
    {b : Backend} {aux : σ} (h : Reports topo e xi yo m real hs S v Lb Θ fuel epochNo w b aux)
    (hv : ∀ r < epochNo * batches S.train, v' r = v r) (hΘ : ∀ r ≤ epochNo * batches S.train, Θ' r = Θ r) :
    Reports topo e xi yo m real hs S v' Lb Θ' fuel epochNo w b aux := by
  obtain ⟨f, w', b', aux', h1, h2, h3, h4, h5, h6, h7, h8⟩ := h
  have hle : ∀ i < epochNo, (i + 1) * batches S.train ≤ epochNo * batches S.train := fun i hi => Nat.mul_le_mul_right _ hi
  refine ⟨f, w', b', aux', ?_, by rw [hΘ _ le_rfl]; exact h2, h3, h4, h5, h6.congr fun j hj => (hv j hj).symm, fun i hi => by
    rw [hΘ _ le_rfl]; exact h7 i hi, fun i hi => ?_⟩
  · rw [h1]
    refine Prod.ext (congrArg (fun l => Out.ok (some l)) (List.map_congr_left fun i hi => ?_)) rfl
    congr 2
    refine Finset.sum_congr rfl fun k hk => ?_
    have := hle i (List.mem_range.1 hi)
    have hk := Finset.mem_range.1 hk
    rw [Nat.succ_mul] at this
    rw [hv _ (by omega)]
  · obtain ⟨a1, a2, a3, a4, a5, a6, a7, a8⟩ := h8 i hi
    refine ⟨a1, a2, a3, a4, a5, a6, by rw [hΘ _ (hle i hi)]; exact a7, a8.congr fun j hj => (hv j ?_).symm⟩
    have := hle i hi
    omega

variable {v : Nat → Vals e} {Θ : Nat → L.Params}

/-- Where the network is differentiable the gradients are determined. -/
theorem rule_reports (hstep : S.step = ru.step) {F : C → C} (hF : ∀ s, ru.V.const (ru.pre s) = F (ru.V.const s))
    (hcs : ∀ r, cs (r + 1) = F (cs r)) (B : Built topo e [xi] [yo] m real tensors L θ₀)
    (htr : ∀ x ∈ dataOf m, ∀ c, e.callOf x = some c → Trainable (tensors (e.callInfo c))) (ho : SoleConsumer e m [yo])
    (hd : ∀ x ∈ dataOf m, ∀ c, e.callOf x = some c → DropOk real (infoOf e (e.callInfo c)).op (phShape e x))
    (hg : ∀ x ∈ dataOf m, ∀ c, e.callOf x = some c → GoodVar real (tensors (e.callInfo c)) (infoOf e (e.callInfo c)).op)
    (fit : LoadersFit e xi yo N n S) (pos : Possible N S) (hx : ∀ x ∈ dataOf m, (e.callOf x).isSome → L.exact x) {epochNo : Nat}
    (hC : EpochCourse L m xi fit.out S v Lb epochNo Θ gr)
    (hΘ : ∀ r ≤ epochNo * batches S.train, ∀ x i,
      Θ r x i = (traj cs ru.el.ew ru.el.en (fun j => gr j x i) (fun _ => true) (θ x i) ru.idle r).1)
    {fuel : Nat} (hfuel : batches S.train < fuel) (hvfuel : batches S.val < fuel) {last : Option ((Nat → Env) × Vals e)} {w : World}
    {b : Backend} (h : History e [xi] [yo] m real tensors L θ₀ θ last w) (ha : EpochArgs e m xi yo N w b S.x S.p S.y S.g) {aux : σ}
    (hopt : OptState ru e m b aux fun x => List.ofFn fun _ : Fin (L.params x) => ru.idle) (hc0 : ru.V.const (ru.pre aux) = cs 0) :
    Reports topo e xi yo m real fit.out S v Lb Θ fuel epochNo w b aux := by
  classical
  have hal : ∀ r ≤ epochNo * batches S.train, Θ r = along ru cs θ gr r := fun r hr => funext fun x => funext fun i => hΘ r hr x i
  choose V₀ hV₀ using fun r (t : L.Params) => values_exist B (S.env (r / batches S.train) (r % batches S.train)) t (v r)
  let V : Nat → L.Params → Vals e := fun r t => if t = along ru cs θ gr r then v r else V₀ r t
  have hin : ∀ r t, V r t xi = v r xi := fun r t => by
    unfold V
    split
    · rfl
    · exact (hV₀ r t).1.2 xi (by simp)
  have hVal : ∀ r, V r (along ru cs θ gr r) = v r := fun r => if_pos rfl
  obtain ⟨gr', hl, hrep⟩ := rule_reports_any (V := V) hstep hF hcs B htr ho hd hg fit pos hx (epochNo := epochNo) (fun r hr t => by
    unfold V
    split
    next h => rw [h, ← hal r hr.le]; exact (hC.course.values r hr).1
    next => exact (hV₀ r t).1.1) (fun i hi k hk t => by rw [hin]; exact hC.feeds i hi k hk) gr hfuel hvfuel h ha hopt hc0
  have heq : ∀ j, gr' j = gr j := fun j => by
    induction j using Nat.strong_induction_on with
    | _ j ih =>
      rcases Nat.lt_or_ge j (epochNo * batches S.train) with hj | hj
      · funext x
        by_cases hm : x ∈ dataOf m ∧ (e.callOf x).isSome
        · have := hl.right j (Nat.zero_le _) hj
          rw [along_congr ih, hVal, ← hal j hj.le] at this
          exact lossGradient_unique B (this (hC.course.smooth j hj).1 (hC.course.smooth j hj).2) (hC.course.gradient j hj) x (mem_net.2 hm)
        · exact hl.unused j x hm
      · exact hl.others j (.inr hj)
  obtain rfl : gr' = gr := funext heq
  exact hrep.congr (fun r _ => (hVal r).symm) hal

end

section

variable {xi yo N n : Nat} {θ : L.Params} {v : Nat → Vals e} {Lb : Nat → Fin N → Fin n} {Θ : Nat → L.Params} {gr : Nat → L.Params}

/-- **C85** for `SGDMomentum`, made with `model.params()`. -/
theorem momentum_epochs {S : Setup Momentum} (hstep : S.step = momentumStep) (B : Built topo e [xi] [yo] m real tensors L θ₀)
    (htr : ∀ x ∈ dataOf m, ∀ c, e.callOf x = some c → Trainable (tensors (e.callInfo c))) (ho : SoleConsumer e m [yo])
    (hd : ∀ x ∈ dataOf m, ∀ c, e.callOf x = some c → DropOk real (infoOf e (e.callInfo c)).op (phShape e x))
    (hg : ∀ x ∈ dataOf m, ∀ c, e.callOf x = some c → GoodVar real (tensors (e.callInfo c)) (infoOf e (e.callInfo c)).op)
    (fit : LoadersFit e xi yo N n S) (pos : Possible N S) (hx : ∀ x ∈ dataOf m, (e.callOf x).isSome → L.exact x) {epochNo : Nat}
    (hC : EpochCourse L m xi fit.out S v Lb epochNo Θ gr) (lr gamma : ℝ)
    (hΘ : ∀ r ≤ epochNo * batches S.train, ∀ x i,
      Θ r x i = (Spec.momentum gamma (fun _ => lr) (fun j => gr j x i) (fun _ => true) (θ x i) r).1)
    {fuel : Nat} (hfuel : batches S.train < fuel) (hvfuel : batches S.val < fuel) {last : Option ((Nat → Env) × Vals e)} {w : World}
    {b : Backend} (h : History e [xi] [yo] m real tensors L θ₀ θ last w) (ha : EpochArgs e m xi yo N w b S.x S.p S.y S.g) :
    Reports topo e xi yo m real fit.out S v Lb Θ fuel epochNo w b
      (Momentum.create ((objects true b.layers).map Prod.snd) (paramMap e m true b.layers) lr gamma) := by
  have hok := paramMap_ok B h ha.backend true
  exact rule_reports (ru := momentumRule) (cs := fun _ => (lr, gamma)) hstep (F := id) (fun _ => rfl) (fun _ => rfl) B htr ho hd hg fit pos hx hC
    (fun r hr x i => (hΘ r hr x i).trans (congrArg Prod.fst (OptP.traj_momentum gamma (fun _ => lr) _ _ _ r)).symm) hfuel hvfuel h ha
    (OptState.fresh B h ha.backend fun q hq p hp' => ⟨_, zerosTable_mem _ _ (fun _ => none) hok.names (fun _ _ => rfl) q hq p hp',
      by simp [momentumRule, momentumEl], fun i hi => by simp [momentumRule, momentumEl, List.getElem?_replicate, hi]⟩) rfl

/-- **C85** for `Adam`, made with `model.params()`. -/
theorem adam_epochs {S : Setup Adam} (hstep : S.step = adamStep) (B : Built topo e [xi] [yo] m real tensors L θ₀)
    (htr : ∀ x ∈ dataOf m, ∀ c, e.callOf x = some c → Trainable (tensors (e.callInfo c))) (ho : SoleConsumer e m [yo])
    (hd : ∀ x ∈ dataOf m, ∀ c, e.callOf x = some c → DropOk real (infoOf e (e.callInfo c)).op (phShape e x))
    (hg : ∀ x ∈ dataOf m, ∀ c, e.callOf x = some c → GoodVar real (tensors (e.callInfo c)) (infoOf e (e.callInfo c)).op)
    (fit : LoadersFit e xi yo N n S) (pos : Possible N S) (hx : ∀ x ∈ dataOf m, (e.callOf x).isSome → L.exact x) {epochNo : Nat}
    (hC : EpochCourse L m xi fit.out S v Lb epochNo Θ gr) (lr beta0 beta1 eps : ℝ)
    (t0 : Nat) (hΘ : ∀ r ≤ epochNo * batches S.train, ∀ x i,
      Θ r x i = (Spec.adam beta0 beta1 eps t0 (fun _ => lr) (fun j => gr j x i) (fun _ => true) (θ x i) r).1)
    {fuel : Nat} (hfuel : batches S.train < fuel) (hvfuel : batches S.val < fuel) {last : Option ((Nat → Env) × Vals e)} {w : World}
    {b : Backend} (h : History e [xi] [yo] m real tensors L θ₀ θ last w) (ha : EpochArgs e m xi yo N w b S.x S.p S.y S.g) :
    Reports topo e xi yo m real fit.out S v Lb Θ fuel epochNo w b
      (Adam.create ((objects true b.layers).map Prod.snd) (paramMap e m true b.layers) lr beta0 beta1 eps t0) := by
  have hok := paramMap_ok B h ha.backend true
  have hz : ∀ q ∈ paramMap e m true b.layers, ∀ p, ((objects true b.layers).map Prod.snd)[q.2]? = some p →
      adamView.look (Adam.create ((objects true b.layers).map Prod.snd) (paramMap e m true b.layers) lr beta0 beta1 eps t0) q.1 =
        some (List.replicate p.data.vals.length 0, List.replicate p.data.vals.length 0) := by
    intro q hq p hp'
    have := zerosTable_mem _ (paramMap e m true b.layers) (fun _ => none) hok.names (fun _ _ => rfl) q hq p hp'
    simp only [adamView, Adam.create, this]
  exact rule_reports (ru := adamRule) (cs := fun r => (lr, beta0, beta1, eps, t0 + r + 1)) hstep
    (F := fun c => (c.1, c.2.1, c.2.2.1, c.2.2.2.1, c.2.2.2.2 + 1)) (fun _ => rfl) (fun _ => rfl) B htr ho hd hg fit pos hx hC
    (fun r hr x i => (hΘ r hr x i).trans (congrArg Prod.fst (OptP.traj_adam beta0 beta1 eps t0 (fun _ => lr) _ _ _ r)).symm) hfuel hvfuel h ha
    (OptState.fresh B h ha.backend fun q hq p hp' => ⟨_, hz q hq p hp', by simp [adamRule, adamEl],
      fun i hi => by simp [adamRule, adamEl, List.getElem?_replicate, hi]⟩) rfl

/-- **C85** for `SGD`. -/
theorem sgd_epochs {S : Setup ℝ} (hstep : S.step = sgdStep) (B : Built topo e [xi] [yo] m real tensors L θ₀)
    (htr : ∀ x ∈ dataOf m, ∀ c, e.callOf x = some c → Trainable (tensors (e.callInfo c))) (ho : SoleConsumer e m [yo])
    (hd : ∀ x ∈ dataOf m, ∀ c, e.callOf x = some c → DropOk real (infoOf e (e.callInfo c)).op (phShape e x))
    (hg : ∀ x ∈ dataOf m, ∀ c, e.callOf x = some c → GoodVar real (tensors (e.callInfo c)) (infoOf e (e.callInfo c)).op)
    (fit : LoadersFit e xi yo N n S) (pos : Possible N S) (hx : ∀ x ∈ dataOf m, (e.callOf x).isSome → L.exact x) {epochNo : Nat}
    (hC : EpochCourse L m xi fit.out S v Lb epochNo Θ gr) (lr : ℝ)
    (hΘ : ∀ r ≤ epochNo * batches S.train, ∀ x i,
      Θ r x i = Spec.sgd (fun _ => lr) (fun j => gr j x i) (fun _ => true) (θ x i) r)
    {fuel : Nat} (hfuel : batches S.train < fuel) (hvfuel : batches S.val < fuel) {last : Option ((Nat → Env) × Vals e)} {w : World}
    {b : Backend} (h : History e [xi] [yo] m real tensors L θ₀ θ last w) (ha : EpochArgs e m xi yo N w b S.x S.p S.y S.g) :
    Reports topo e xi yo m real fit.out S v Lb Θ fuel epochNo w b lr :=
  rule_reports (ru := sgdRule) (cs := fun _ => lr) hstep (F := id) (fun _ => rfl) (fun _ => rfl) B htr ho hd hg fit pos hx hC
    (fun r hr x i => (hΘ r hr x i).trans (OptP.traj_sgd (fun _ => lr) _ _ _ () r).symm) hfuel hvfuel h ha
    (OptState.fresh B h ha.backend fun q _ p _ => ⟨(), rfl, trivial, fun _ _ => rfl⟩) rfl

end

/-! ## Such courses exist -/

section

variable {xi yo N n : Nat} {S : Setup σ}

theorem round_index {T i k : Nat} (hk : k < T) : (i * T + k) / T = i ∧ (i * T + k) % T = k := by
  have hT : 0 < T := by omega
  rw [Nat.mul_comm i, Nat.mul_add_div hT, Nat.div_eq_of_lt hk, Nat.mul_add_mod, Nat.mod_eq_of_lt hk, Nat.add_zero]
  exact ⟨rfl, rfl⟩

/-- A training set whose labels are classes has inputs and labels for every batch. -/
theorem feeds_exist (fit : LoadersFit e xi yo N n S) (pos : Possible N S)
    (hlab : ∀ k : Int, 0 ≤ k → k < S.train.dataset.size → ∃ c : Fin n, S.train.dataset.y k 0 = c.val) :
    ∃ (inp : Nat → Vals e) (Lb : Nat → Fin N → Fin n), ∀ i k, k < batches S.train →
      Feeds S.train (samplesOf S i k) (inp (i * batches S.train + k) xi) (Lb (i * batches S.train + k)) := by
  classical
  have key : ∀ i k, ∃ (u : Elems (phShape e xi)) (Lb : Fin N → Fin n), k < batches S.train → Feeds S.train (samplesOf S i k) u Lb := by
    intro i k
    by_cases hk : k < batches S.train
    · have hT : batches S.train = S.train.dataset.size / N := by unfold batches; rw [fit.batch]; rfl
      have hle : k * N + N ≤ S.train.dataset.size := by
        calc k * N + N = (k + 1) * N := by ring
          _ ≤ S.train.dataset.size / N * N := Nat.mul_le_mul_right _ (by omega)
          _ ≤ S.train.dataset.size := Nat.div_mul_le_self _ _
      have hidx : (samplesOf S i k).length = N ∧ ∀ v ∈ samplesOf S i k, 0 ≤ v ∧ v < S.train.dataset.size := by
        unfold samplesOf nextIdxs
        split
        next hs => exact pos.rands hs i k
        next =>
          rw [fit.batch]
          refine ⟨by simp, fun j hj => ?_⟩
          simp only [List.mem_map, List.mem_range] at hj
          obtain ⟨a, ha, rfl⟩ := hj
          have : ((k * N : Nat) : Int) = (k : Int) * (N : Int) := by push_cast; rfl
          have ha : a < N := by simpa using ha
          omega
      have hlen : ((samplesOf S i k).flatMap fun i => (List.range S.train.dataset.shapeX.prod.toNat).map (S.train.dataset.x i)).length =
          size (phShape e xi) := by
        rw [flatMap_length (k := S.train.dataset.shapeX.prod.toNat) fun a _ => by simp, hidx.1, fit.sample, size_batch]
        rfl
      choose c hc using fun a : Fin N => hlab ((samplesOf S i k)[a.val]'(by rw [hidx.1]; exact a.isLt))
        (hidx.2 _ (List.getElem_mem _)).1 (hidx.2 _ (List.getElem_mem _)).2
      refine ⟨fun a => ((samplesOf S i k).flatMap fun i => (List.range S.train.dataset.shapeX.prod.toNat).map (S.train.dataset.x i))[a.val]'(by
        rw [hlen]; exact a.isLt), c, fun _ => ⟨hidx.1, List.ext_getElem (by rw [List.length_ofFn, hlen]) fun a h1 h2 => by simp, fun a =>
          ⟨_, List.getElem?_eq_getElem (by rw [hidx.1]; exact a.isLt), hc a⟩⟩⟩
    · exact ⟨fun _ => 0, fun _ => ⟨0, fit.classes⟩, fun h => absurd h hk⟩
  choose u Lb hu using key
  refine ⟨fun r z => if h : z = xi then h ▸ u (r / batches S.train) (r % batches S.train) else fun _ => 0,
    fun r => Lb (r / batches S.train) (r % batches S.train), fun i k hk => ?_⟩
  obtain ⟨h1, h2⟩ := round_index (i := i) hk
  simp only [dif_pos]
  rw [h1, h2]
  exact hu i k hk

/-- In a model that is differentiable everywhere and whose predictions are positive, there is a course for any number of epochs, with
any update rule. -/
theorem epochCourse_exists (B : Built topo e [xi] [yo] m real tensors L θ₀) (ho : SoleConsumer e m [yo])
    (fit : LoadersFit e xi yo N n S) (pos : Possible N S) (hx : ∀ x ∈ dataOf m, (e.callOf x).isSome → L.exact x)
    (hlab : ∀ k : Int, 0 ≤ k → k < S.train.dataset.size → ∃ c : Fin n, S.train.dataset.y k 0 = c.val)
    (hall : ∀ (env : Nat → Env) (θ : L.Params) (v : Vals e) (Lb : Fin N → Fin n), (L.net m env).Evaluates θ v →
      NoKinks e m v ∧ ∀ i, 0 < predOf fit.out (v yo) i (Lb i))
    (θ : L.Params) (cs : Nat → C) (ew : C → ℝ → E → ℝ → ℝ) (en : C → E → ℝ → E) (s₀ : E) (epochNo : Nat) :
    ∃ (Θ : Nat → L.Params) (v : Nat → Vals e) (Lb : Nat → Fin N → Fin n) (gr : Nat → L.Params),
      EpochCourse L m xi fit.out S v Lb epochNo Θ gr ∧
      ∀ k x i, Θ k x i = (traj cs ew en (fun j => gr j x i) (fun _ => true) (θ x i) s₀ k).1 := by
  obtain ⟨inp, Lb, hf⟩ := feeds_exist fit pos hlab
  obtain ⟨Θ, v, gr, hC, hΘ⟩ := course_exists B ho fit.out fit.small (env := fun r => S.env (r / batches S.train) (r % batches S.train))
    (fun k c => pos.picks _ _ c) hx inp Lb (fun k θ v hv => hall _ θ v (Lb k) hv) θ cs ew en s₀
  have hC := hC (epochNo * batches S.train)
  refine ⟨Θ, v, Lb, gr, ⟨⟨fun k hk => ⟨(hC.values k hk).1, fun _ _ => rfl⟩, hC.smooth, hC.gradient⟩, fun i hi k hk => ?_⟩, hΘ⟩
  have hlt : i * batches S.train + k < epochNo * batches S.train := by
    calc i * batches S.train + k < (i + 1) * batches S.train := by rw [Nat.succ_mul]; omega
      _ ≤ _ := Nat.mul_le_mul_right _ hi
  rw [(hC.values _ hlt).2 xi (by simp)]
  exact hf i k hk

end

/-- A program can come to the point where the epochs start: with two tensors without elements for the batches. -/
theorem epoch_session {xi yo : Nat} (B : Built topo e [xi] [yo] m real tensors L θ₀) (N : Nat) :
    ∃ (w : World) (b : Backend) (x p y g : Nat), History e [xi] [yo] m real tensors L θ₀ θ₀ none w ∧ EpochArgs e m xi yo N w b x p y g := by
  obtain ⟨w, b, it, p, y, g, hist, ha⟩ := loop_session B
  obtain ⟨x, rfl⟩ := List.length_eq_one_iff.1 ha.length
  have hnd := ha.nodup
  simp only [List.nodup_cons, List.mem_cons, List.not_mem_nil, or_false, not_or] at hnd
  obtain ⟨⟨hpg, hpy, hpx⟩, ⟨hgy, hgx⟩, hyx, -⟩ := hnd
  have ex := ha.exist x (by simp)
  have ey := ha.exist y (by simp)
  have so : ∀ a, a ≠ x → a ≠ y → ((w.store.set x ⟨[], []⟩).set y ⟨[], []⟩)[a]? = w.store[a]? := fun a h1 h2 => by
    rw [List.getElem?_set_ne (Ne.symm h2), List.getElem?_set_ne (Ne.symm h1)]
  refine ⟨{ w with store := (w.store.set x ⟨[], []⟩).set y ⟨[], []⟩ }, b, x, p, y, g,
    .write y _ (.write x _ hist ha.backend ex.2) ha.backend ey.2, ha.backend, ⟨⟨[], []⟩, ?_, .inl rfl⟩, ⟨⟨[], []⟩, ?_, .inl rfl⟩,
    given_of ha.preds (so p hpx hpy), given_of ha.grad (so g hgx hgy), ex.2, ey.2, ?_⟩
  · rw [List.getElem?_set_ne hyx, List.getElem?_set_self ex.1]
  · rw [List.getElem?_set_self (by simpa using ey.1)]
  · simp [Ne.symm hpx, Ne.symm hyx, Ne.symm hgx, hpy, hpg, Ne.symm hgy]

/-- The classifier, trained with momentum for any number of epochs on any set of samples of two classes, with any shuffling, and
validated with any other. -/
example (train val : Dataset ℝ) (ht : train.shapeX = [3] ∧ train.shapeY = [1] ∧ 2 ≤ train.size ∧ train.size ≤ 60000)
    (hv : val.shapeX = [3] ∧ val.shapeY = [1] ∧ 2 ≤ val.size ∧ val.size ≤ 60000) (hlab : ∀ k, train.y k 0 = 0 ∨ train.y k 0 = 1)
    (rands : Nat → Nat → List Int) (hr : ∀ i k, (rands i k).length = 2 ∧ ∀ v ∈ rands i k, 0 ≤ v ∧ v < train.size)
    (epochNo : Nat) (lr gamma : ℝ) :
    ∃ (m : Model) (L : Layers classE) (θ₀ : L.Params) (w w' : World) (b : Backend) (x p y g : Nat) (env : Nat → Nat → Nat → Env) (aux' : Momentum)
      (results : List (ℝ × ℝ)),
    Built (creationOrder classE) classE [0] [2] m (fun _ => 1) (fun _ => classTensors) L θ₀ ∧
    History classE [0] [2] m (fun _ => 1) (fun _ => classTensors) L θ₀ θ₀ none w ∧ EpochArgs classE m 0 2 2 w b x p y g ∧
    epochs classE m ⟨momentumStep, ⟨train, 2, true⟩, ⟨val, 2, false⟩, x, p, y, g, fun _ => 0, rands, fun _ _ => [], env, env, env⟩ 60000 epochNo
      ⟨w, Momentum.create ((objects true b.layers).map Prod.snd) (paramMap classE m true b.layers) lr gamma, 0, 0⟩ =
      (.ok (some results), ⟨w', aux', 0, 0⟩) ∧ results.length = epochNo := by
  obtain ⟨m, L, θ₀, hd, B, ho, hs, hall⟩ := class_ready
  obtain ⟨pick, hpick⟩ := Props.MaxPoolP.exists_pick
  let env : Nat → Nat → Nat → Env := fun _ _ _ => ⟨fun _ => 0, fun _ => 0, pick⟩
  obtain ⟨w, b, x, p, y, g, hist, ha⟩ := epoch_session B 2
  let S : Setup Momentum :=
    ⟨momentumStep, ⟨train, 2, true⟩, ⟨val, 2, false⟩, x, p, y, g, fun _ => 0, rands, fun _ _ => [], env, env, env⟩
  have hx : ∀ x ∈ dataOf m, (classE.callOf x).isSome → L.exact x := fun x hx hc => by
    obtain ⟨v, ⟨hv, -⟩, -⟩ := values_exist B (env 0 0) θ₀ fun _ _ => 0
    exact (hall (env 0 0) θ₀ v (fun _ => 0) hv).1 x (mem_net.2 ⟨hx, hc⟩)
  have hin : phShape classE 0 = [2, 3] := by rw [classE_eq]; rfl
  have fit : LoadersFit classE 0 2 2 2 S := ⟨by norm_num, by norm_num, hs, by norm_num, rfl, rfl, by rw [hin]; simp [S, ht.1],
    by rw [hin]; simp [S, hv.1], ht.2.1, hv.2.1, by have := ht.2.2.2; simp only [S]; omega, by have := hv.2.2.2; simp only [S]; omega, ht.2.2.1, hv.2.2.1, rfl⟩
  have pos : Possible 2 S := ⟨fun _ => hr, fun _ _ _ => hpick, fun _ _ _ => hpick⟩
  have hcall : ∀ x ∈ dataOf m, ∀ c, classE.callOf x = some c → x = 1 ∧ c = 0 ∨ x = 2 ∧ c = 1 := fun x hx c hc => by
    rw [hd] at hx
    simp only [List.mem_cons, List.not_mem_nil, or_false] at hx
    rw [classE_eq] at hc
    rcases hx with rfl | rfl | rfl
    · exact absurd hc (by simp [Expr.callOf])
    · exact .inl ⟨rfl, (Option.some.inj hc).symm⟩
    · exact .inr ⟨rfl, (Option.some.inj hc).symm⟩
  have hop0 : (infoOf classE (classE.callInfo 0)).op = .linear 2 := by rw [classE_eq]; rfl
  have hop1 : (infoOf classE (classE.callInfo 1)).op = .softmax := by rw [classE_eq]; rfl
  obtain ⟨Θ, v, Lb, gr, hC, hΘ⟩ := epochCourse_exists B ho fit pos hx (fun k _ _ => by
      rcases hlab k with h | h
      · exact ⟨0, by simpa [S] using h⟩
      · exact ⟨1, by simpa [S] using h⟩) (fun env θ v Lb hv => (hall env θ v Lb hv).2) θ₀ (fun _ => (lr, gamma)) momentumEl.ew momentumEl.en 0
    epochNo
  obtain ⟨f, w', b', aux', h1, -⟩ := momentum_epochs (fuel := 60000) rfl B (fun x hx c hc name p hp => by
      simp only [classTensors, List.lookup_cons, List.lookup_nil] at hp
      split at hp
      · cases hp; rfl
      · split at hp
        · cases hp; rfl
        · cases hp) ho (fun x hx c hc q hq => by
      rcases hcall x hx c hc with ⟨-, rfl⟩ | ⟨-, rfl⟩
      · rw [hop0] at hq; cases hq
      · rw [hop1] at hq; cases hq) (fun x hx c hc => by
      rcases hcall x hx c hc with ⟨-, rfl⟩ | ⟨-, rfl⟩
      · rw [hop0]; trivial
      · rw [hop1]; trivial) fit pos hx hC lr gamma
    (fun k _ x i => (hΘ k x i).trans (congrArg Prod.fst (OptP.traj_momentum gamma (fun _ => lr) _ _ _ k)))
    (by show train.size / 2 < 60000; have := ht.2.2.2; omega) (by show val.size / 2 < 60000; have := hv.2.2.2; omega) hist ha
  exact ⟨m, L, θ₀, w, w', b, x, p, y, g, env, aux', _, B, hist, ha, h1, by simp⟩

end

end DW.Props.EpochP
