import Verif.Props.Loop
import Verif.Props.Descent
import Verif.Lemmas.Logistic
import Mathlib.Algebra.Order.BigOperators.Ring.Finset
/-!
# Training a linear classifier (C111, C112)

The model `Softmax(Linear(x))` with the cross entropy and `SGD`, run by the loop of `Verif/Props/Loop.lean` through the compiled
model. `LossAt` is the loss that the program's forward pass and loss give for a batch and given parameters; the facts about convex
functions are in `Verif/Lemmas/Logistic.lean`.
-/

set_option autoImplicit false

namespace DW.Props.ConvergeP

open DW DW.Spec DW.HistL DW.BackendL DW.NetL DW.TrainL DW.MatL DW.Props.BackendP DW.Props.ContractP DW.Props.LossP DW.Props.TrainP DW.Optim
  DW.OptL DW.Props.LoopP DW.Props.DescentP DW.LogisticL

noncomputable section

variable {topo : Graph → List Node} {e : Expr} {ins : List Nat} {m : Model} {real : F32 → ℝ} {tensors : Nat → InfoTensors}
  {L : Layers e} {θ₀ : L.Params} {x z yo Bt d n : Nat}

/-- The network is `Softmax(Linear(x))`, with `d` features and `n` classes. -/
structure IsClassifier (e : Expr) (m : Model) (ins : List Nat) (x z yo Bt d n : Nat) : Prop where
  input : x ∈ ins
  made : z ∈ dataOf m ∧ yo ∈ dataOf m
  only : ∀ y ∈ dataOf m, (e.callOf y).isSome → y = z ∨ y = yo
  linear : ∃ c, e.callOf z = some c ∧ (infoOf e (e.callInfo c)).op = .linear n
  softmax : ∃ c, e.callOf yo = some c ∧ (infoOf e (e.callInfo c)).op = .softmax
  argZ : e.argsOf z = [x]
  argY : e.argsOf yo = [z]
  shapeX : phShape e x = [(Bt : Int), d]
  shapeZ : phShape e z = [(Bt : Int), n]
  shapeY : phShape e yo = [(Bt : Int), n]

theorem linear_pred {t : InfoTensors} {op : Op} {k : Nat} {ishape : Fin k → Shape} {o : Shape} {P : Nat}
    {fn : (Nat → ℝ) → (Fin P → ℝ) → Args ishape → Elems o} {θ : Fin P → ℝ} {ex : Prop} (h : Computes real t op ishape o P fn θ ex)
    {u : Int} (hop : op = .linear u) (ho : o = [(Bt : Int), n]) (h0 : 0 < k) (hi : ishape ⟨0, h0⟩ = [(Bt : Int), d]) :
    ∃ E : Fin P ≃ Fin n × Fin d ⊕ Fin n, ∀ r t X, predOf ho (fn r t X) =
      Spec.linear (predOf hi (X ⟨0, h0⟩)) (fun k j => t (E.symm (.inl (k, j)))) fun k => t (E.symm (.inr k)) := by
  cases h with
  | one hn hs ho' h =>
    subst hop
    cases h with
    | linear hne hs' hf hc θ hw hb =>
      subst ho'
      simp only [List.cons.injEq, Int.natCast_inj, and_true] at ho
      obtain ⟨rfl, rfl⟩ := ho
      have hr := hs.symm.trans hi
      simp only [List.cons.injEq, Int.natCast_inj] at hr
      obtain ⟨-, rfl⟩ := hr
      obtain rfl : d = _ := by
        have := hc
        simp [count] at this
        exact_mod_cast this
      refine ⟨affineE _ _, fun r t X => ?_⟩
      funext i j
      simp [predOf, arr, recast, linearFn, elems, Spec.linear, Function.uncurry, Function.curry]
      rfl
  | add hn h₀ h₁ => cases hop

/-- How the logits depend on the parameters. -/
def coeff {ι : Type} (E : ι ≃ Fin n × Fin d ⊕ Fin n) (X : Fin Bt → Fin d → ℝ) (i : Fin Bt) (j : Fin n) (q : ι) : ℝ :=
  match E q with
  | .inl (k, r) => if k = j then X i r else 0
  | .inr k => if k = j then 1 else 0

theorem coeff_logits {ι : Type} [Fintype ι] (E : ι ≃ Fin n × Fin d ⊕ Fin n) (X : Fin Bt → Fin d → ℝ) (t : ι → ℝ) :
    logits (coeff E X) t = Spec.linear X (fun k j => t (E.symm (.inl (k, j)))) fun k => t (E.symm (.inr k)) := by
  funext i j
  unfold logits Spec.linear
  rw [← E.symm.sum_comp, Fintype.sum_sum_type, Fintype.sum_prod_type]
  simp [coeff]

theorem square_le {P Q S b : ℝ} (hP : 0 ≤ P) (hQ : 0 ≤ Q) (h : S ^ 2 ≤ P * Q) : (S + b) ^ 2 ≤ (1 + P) * (Q + b ^ 2) := by
  have h1 : 2 * S * b ≤ P * b ^ 2 + Q := by
    refine abs_le_of_sq_le_sq' ?_ (by positivity) |>.2
    have h2 : S ^ 2 * b ^ 2 ≤ P * Q * b ^ 2 := mul_le_mul_of_nonneg_right h (sq_nonneg b)
    have h3 := sq_nonneg (P * b ^ 2 - Q)
    nlinarith
  nlinarith

theorem coeff_bounded {ι : Type} [Fintype ι] (E : ι ≃ Fin n × Fin d ⊕ Fin n) {X : Fin Bt → Fin d → ℝ} {A : ℝ} (hA : ∀ i, 1 + ∑ r, X i r ^ 2 ≤ A) :
    Bounded (coeff E X) A := fun i u => by
  rw [coeff_logits]
  have e : LogisticL.sq u = ∑ k, (∑ j, u (E.symm (.inl (k, j))) ^ 2 + u (E.symm (.inr k)) ^ 2) := by
    unfold LogisticL.sq
    rw [← E.symm.sum_comp, Fintype.sum_sum_type, Fintype.sum_prod_type, Finset.sum_add_distrib]
  rw [e, Finset.mul_sum]
  refine Finset.sum_le_sum fun k _ => ?_
  unfold Spec.linear
  have h1 := Finset.sum_mul_sq_le_sq_mul_sq Finset.univ (X i) fun j => u (E.symm (.inl (k, j)))
  have h2 : 0 ≤ ∑ r, X i r ^ 2 := Finset.sum_nonneg fun _ _ => sq_nonneg _
  have h3 : 0 ≤ ∑ j, u (E.symm (.inl (k, j))) ^ 2 := Finset.sum_nonneg fun _ _ => sq_nonneg _
  exact (square_le h2 h3 h1).trans (mul_le_mul_of_nonneg_right (hA i) (by positivity))

/-- The predictions of the classifier. -/
theorem pred_eq (B : Built topo e ins [yo] m real tensors L θ₀) (hN : IsClassifier e m ins x z yo Bt d n) :
    ∃ E : Fin (L.params z) ≃ Fin n × Fin d ⊕ Fin n, ∀ (env : Nat → Env) (θ : L.Params) (v : Vals e), (L.net m env).Evaluates θ v →
      predOf hN.shapeY (v yo) = Spec.softmax (logits (coeff E (predOf hN.shapeX (v x))) (θ z)) := by
  obtain ⟨c, hc, hop⟩ := hN.linear
  obtain ⟨c', hc', hop'⟩ := hN.softmax
  have hl : 0 < (e.argsOf z).length := by rw [hN.argZ]; exact Nat.one_pos
  have hl' : 0 < (e.argsOf yo).length := by rw [hN.argY]; exact Nat.one_pos
  have ha : (e.argsOf z)[(⟨0, hl⟩ : Fin _)] = x := by simp [hN.argZ]
  have ha' : (e.argsOf yo)[(⟨0, hl'⟩ : Fin _)] = z := by simp [hN.argY]
  obtain ⟨E, hE⟩ := linear_pred (B.layers z hN.made.1 c hc) hop hN.shapeZ hl (by rw [ha]; exact hN.shapeX)
  have hS := softmax_pred (B.layers yo hN.made.2 c' hc') hop' hN.shapeY hl' (by rw [ha']; exact hN.shapeZ)
  have cast : ∀ {a b : Nat} {k : Nat} (hab : a = b) (ha : phShape e a = [(Bt : Int), k]) (hb : phShape e b = [(Bt : Int), k]) (v : Vals e),
      predOf ha (v a) = predOf hb (v b) := by
    rintro a _ k rfl ha hb v
    rfl
  refine ⟨E, fun env θ v hv => ?_⟩
  have h1 := hv z (mem_net.2 ⟨hN.made.1, by rw [hc]; rfl⟩)
  have h2 := hv yo (mem_net.2 ⟨hN.made.2, by rw [hc']; rfl⟩)
  have h3 := (congrArg (predOf hN.shapeY) h2).trans (hS (rngOf e env yo) (θ yo) ((L.net m env).inputs v yo))
  have h4 := (congrArg (predOf hN.shapeZ) h1).trans (hE (rngOf e env z) (θ z) ((L.net m env).inputs v z))
  rw [h3, coeff_logits]
  congr 1
  refine (cast ha' _ hN.shapeZ v).trans (h4.trans ?_)
  congr 1
  exact cast ha _ hN.shapeX v

/-- The loss of the classifier with parameters `s` on a batch. -/
def LossAt (L : Layers e) (m : Model) (env : Nat → Env) (ins : List Nat) (hs : phShape e yo = [(Bt : Int), n]) (inp : Vals e)
    (Lb : Fin Bt → Fin n) (s : L.Params) (l : ℝ) : Prop :=
  ∃ v : Vals e, (L.net m env).Evaluates s v ∧ (∀ q ∈ ins, v q = inp q) ∧ l = crossEntropy (predOf hs (v yo)) Lb

/-- The gradient of the loss of the network is that of the loss of the classifier. -/
theorem gradient_eq (B : Built topo e ins [yo] m real tensors L θ₀) (hN : IsClassifier e m ins x z yo Bt d n)
    {E : Fin (L.params z) ≃ Fin n × Fin d ⊕ Fin n} {env : Nat → Env} (hE : ∀ (θ : L.Params) (v : Vals e), (L.net m env).Evaluates θ v →
      predOf hN.shapeY (v yo) = Spec.softmax (logits (coeff E (predOf hN.shapeX (v x))) (θ z)))
    {θ : L.Params} {v : Vals e} {Lb : Fin Bt → Fin n} {g : L.Params}
    (hg : LossGradient L m env ins θ v yo (fun u => crossEntropy (predOf hN.shapeY u) Lb) g) :
    Gradient (coeff E (predOf hN.shapeX (v x))) Lb (θ z) (g z) := fun u => by
  classical
  obtain ⟨c, hc, -⟩ := hN.linear
  let U : L.Params := Function.update (fun _ _ => 0) z u
  choose W hW using fun s : ℝ => values_exist B env (fun q i => θ q i + s * U q i) v
  have hd := hg.total U W fun s => (hW s).1
  have e1 : ∑ q ∈ (L.net m env).made, ∑ i, g q i * U q i = dot (g z) u := by
    rw [Finset.sum_eq_single z]
    · simp [U, dot]
    · intro q _ hq
      simp [U, Function.update_of_ne hq]
    · intro h
      exact absurd (mem_net.2 ⟨hN.made.1, by rw [hc]; rfl⟩) h
  rw [e1] at hd
  have e2 : (fun s => crossEntropy (predOf hN.shapeY (W s yo)) Lb) = fun s => loss (coeff E (predOf hN.shapeX (v x))) Lb fun q => θ z q + s * u q := by
    funext s
    rw [hE _ _ (hW s).1.1, (hW s).1.2 x hN.input]
    simp only [loss, U, Function.update_self]
  rwa [e2] at hd

/-- The classifier meets the conditions of the theorems about training. -/
theorem classifier_ready (B : Built topo e ins [yo] m real tensors L θ₀) (hN : IsClassifier e m ins x z yo Bt d n) :
    SoleConsumer e m [yo] ∧ (∀ q ∈ dataOf m, (e.callOf q).isSome → L.exact q) ∧ (∀ v, NoKinks e m v) ∧
    ∀ (env : Nat → Env) (θ : L.Params) (v : Vals e), (L.net m env).Evaluates θ v → ∀ i j, 0 < predOf hN.shapeY (v yo) i j := by
  obtain ⟨c, hc, hop⟩ := hN.linear
  obtain ⟨c', hc', hop'⟩ := hN.softmax
  have h1 := computes_linear (B.layers z hN.made.1 c hc) hop
  have h2 := computes_softmax (B.layers yo hN.made.2 c' hc') hop'
  have key : ∀ q ∈ dataOf m, ∀ k, e.callOf q = some k → q = z ∧ k = c ∨ q = yo ∧ k = c' := fun q hq k hk => by
    rcases hN.only q hq (by rw [hk]; rfl) with rfl | rfl
    · exact .inl ⟨rfl, Option.some.inj (hk.symm.trans hc)⟩
    · exact .inr ⟨rfl, Option.some.inj (hk.symm.trans hc')⟩
  refine ⟨fun q y h => ?_, fun q hq hs => ?_, fun v q hq k hk => ?_, fun env θ v hv i j => ?_⟩
  · obtain ⟨hq, -, ⟨k, hk, ho⟩, -⟩ := h
    rcases key q hq k hk with ⟨rfl, rfl⟩ | ⟨rfl, rfl⟩
    · rw [hop] at ho; cases ho
    · rw [hop'] at ho; cases ho
  · rcases hN.only q hq hs with rfl | rfl
    · exact h1
    · exact h2.1
  · rcases key q hq k hk with ⟨rfl, rfl⟩ | ⟨rfl, rfl⟩
    · rw [hop]; trivial
    · rw [hop']; trivial
  · have := hv yo (mem_net.2 ⟨hN.made.2, by rw [hc']; rfl⟩)
    unfold predOf arr
    rw [this]
    exact h2.2 _ _ _ _

variable {θ : L.Params} {last : Option ((Nat → Env) × Vals e)} {w : World} {b : Backend} {it : List Nat} {p y g : Nat}

/-- What a loop of `N` rounds of `SGD` does, with any batches. -/
theorem classifier_loop (B : Built topo e ins [yo] m real tensors L θ₀) (hN : IsClassifier e m ins x z yo Bt d n)
    (h : History e ins [yo] m real tensors L θ₀ θ last w) (hsz : Bt * n ≤ 2147483647)
    (ha : LoopArgs e m ins yo w b it p y g) {env env' : Nat → Nat → Env} (hp : ∀ k c, IsPick (env k c).pick)
    (inp : Nat → Vals e) (Lb : Nat → Fin Bt → Fin n) (lr lr0 : ℝ) :
    ∃ (E : Fin (L.params z) ≃ Fin n × Fin d ⊕ Fin n) (Θ gr : Nat → L.Params),
      (∀ (env₁ : Nat → Env) (v : Vals e) (lab : Fin Bt → Fin n) (s : L.Params) (l : ℝ), LossAt L m env₁ ins hN.shapeY v lab s l ↔
        l = loss (coeff E (predOf hN.shapeX (v x))) lab (s z)) ∧
      (∀ k, Gradient (coeff E (predOf hN.shapeX (inp k x))) (Lb k) (Θ k z) (gr k z)) ∧
      (∀ k, Θ (k + 1) z = fun q => Θ k z q - lr * gr k z q) ∧ Θ 0 = θ ∧
      ∀ N, ∃ (w' : World) (b' : Backend) (aux' : ℝ) (last' : Option ((Nat → Env) × Vals e)),
        trainLoop sgdStep e m true env env' it p y g (fun k => inputTensors e ins (inp k)) (fun k => labelTensor (Lb k)) (fun _ _ => lr) N
          (w, lr0) = (.ok ((List.range N).map fun k => loss (coeff E (predOf hN.shapeX (inp k x))) (Lb k) (Θ k z)), w', aux') ∧
        History e ins [yo] m real tensors L θ₀ (Θ N) last' w' ∧ LoopArgs e m ins yo w' b' it p y g ∧
        Untouched m b w w' (p :: g :: y :: it) := by
  obtain ⟨ho, hx, hk, hpos⟩ := classifier_ready B hN
  obtain ⟨E, hE⟩ := pred_eq B hN
  obtain ⟨Θ, v, gr, hC, hΘ⟩ := course_exists B ho hN.shapeY hsz hp hx inp Lb
    (fun k θ v hv => ⟨hk v, fun i => hpos _ θ v hv i _⟩) θ (fun _ => lr) sgdEl.ew sgdEl.en ()
  have hs : ∀ k q i, Θ k q i = Spec.sgd (fun _ => lr) (fun j => gr j q i) (fun _ => true) (θ q i) k := fun k q i =>
    (hΘ k q i).trans (OptP.traj_sgd (fun _ => lr) _ _ _ () k)
  have hloss : ∀ (env₁ : Nat → Env) (v : Vals e) (lab : Fin Bt → Fin n) (s : L.Params) v', (L.net m env₁).Evaluates s v' →
      (∀ q ∈ ins, v' q = v q) → crossEntropy (predOf hN.shapeY (v' yo)) lab = loss (coeff E (predOf hN.shapeX (v x))) lab (s z) :=
    fun env₁ v lab s v' h1 h2 => by
      rw [hE _ _ _ h1, h2 x hN.input]
      rfl
  refine ⟨E, Θ, gr, fun env₁ v lab s l => ⟨fun ⟨v', h1, h2, h3⟩ => h3.trans (hloss env₁ v lab s v' h1 h2), fun hl => ?_⟩,
    fun k => ?_, fun k => ?_, ?_, fun N => ?_⟩
  · obtain ⟨v', ⟨h1, h2⟩, -⟩ := values_exist B env₁ s v
    exact ⟨v', h1, h2, hl.trans (hloss env₁ v lab s v' h1 h2).symm⟩
  · have hc := hC (k + 1)
    have := gradient_eq B hN (hE (env k)) (hc.gradient k (Nat.lt_succ_self k))
    rwa [(hc.values k (Nat.lt_succ_self k)).2 x hN.input] at this
  · funext q
    rw [hs, hs]
    simp [Spec.sgd]
  · funext q i
    rw [hs]
    rfl
  · obtain ⟨w', b', aux', last', h1, h2, h3, -, h5⟩ := sgd_training B ho h hN.shapeY hsz ha hp hx (hC N) (fun _ => lr) lr0
      (fun k _ q i => hs k q i) (env' := env')
    refine ⟨w', b', aux', last', ?_, h2, h3, h5⟩
    rw [h1]
    congr 2
    refine List.map_congr_left fun k hk => ?_
    rw [List.mem_range] at hk
    exact hloss _ _ _ _ _ ((hC N).values k hk).1 ((hC N).values k hk).2

/-- The squared distance of the parameters of the classifier. -/
def dist2 (L : Layers e) (z : Nat) (s t : L.Params) : ℝ := ∑ q, (s z q - t z q) ^ 2

/-- **C111**. Training a linear classifier with `SGD` on the same batch in every round, with a learning rate up to `1 / (2 A)`, where `A`
bounds one plus the sum of the squares of the features of a row: the loop returns losses that never grow, and after `N` rounds the
loss is at most `|θ - s|² / (2 lr N)` above the loss for any parameters `s`. -/
theorem training_converges (B : Built topo e ins [yo] m real tensors L θ₀) (hN : IsClassifier e m ins x z yo Bt d n)
    (h : History e ins [yo] m real tensors L θ₀ θ last w) (hsz : Bt * n ≤ 2147483647)
    (ha : LoopArgs e m ins yo w b it p y g) {env env' : Nat → Nat → Env} (hp : ∀ k c, IsPick (env k c).pick)
    (inp : Vals e) (Lb : Fin Bt → Fin n) {lr A : ℝ} (lr0 : ℝ) (hA0 : 0 < A) (hA : ∀ i, 1 + ∑ r, predOf hN.shapeX (inp x) i r ^ 2 ≤ A) (hl : 0 < lr)
    (hlr : lr * (2 * A) ≤ 1) (N : Nat) :
    ∃ (losses : List ℝ) (θ' : L.Params) (w' : World) (b' : Backend) (aux' : ℝ) (last' : Option ((Nat → Env) × Vals e)),
      trainLoop sgdStep e m true env env' it p y g (fun _ => inputTensors e ins inp) (fun _ => labelTensor Lb) (fun _ _ => lr) N
        (w, lr0) = (.ok losses, w', aux') ∧
      History e ins [yo] m real tensors L θ₀ θ' last' w' ∧ LoopArgs e m ins yo w' b' it p y g ∧ losses.length = N ∧ losses.Pairwise (· ≥ ·) ∧
      ∀ (env₁ env₂ : Nat → Env) (s : L.Params) (l l' : ℝ), LossAt L m env₁ ins hN.shapeY inp Lb θ' l → LossAt L m env₂ ins hN.shapeY inp Lb s l' →
        (∀ a ∈ losses, l ≤ a) ∧ N * (l - l') ≤ dist2 L z θ s / (2 * lr) := by
  obtain ⟨E, Θ, gr, hL, hG, hstep, h0, hrun⟩ := classifier_loop B hN h hsz ha hp (env' := env') (fun _ => inp) (fun _ => Lb) lr lr0
  obtain ⟨w', b', aux', last', h1, h2, h3, -⟩ := hrun N
  have hM := coeff_bounded E hA
  have hc := fun N s => converges hA0 hl hlr (N := N) hM (fun k _ => hG k) (fun k _ => hstep k) s
  have hanti : Antitone fun k => loss (coeff E (predOf hN.shapeX (inp x))) Lb (Θ k z) :=
    antitone_nat_of_succ_le fun k => (hc (k + 1) 0).1 k (Nat.lt_succ_self k)
  refine ⟨_, Θ N, w', b', aux', last', h1, h2, h3, by simp, ?_, fun env₁ env₂ s l l' hl1 hl2 => ⟨fun a ha => ?_, ?_⟩⟩
  · rw [List.pairwise_map]
    exact List.pairwise_lt_range.imp fun hab => hanti hab.le
  · obtain ⟨k, hk, rfl⟩ := List.mem_map.1 ha
    rw [(hL ..).1 hl1]
    exact hanti (List.mem_range.1 hk).le
  · rw [(hL ..).1 hl1, (hL ..).1 hl2]
    refine ((hc N (s z)).2).trans ?_
    rw [h0]
    exact div_le_div_of_nonneg_right (sub_le_self _ (sq_nonneg' _)) (by linarith)

/-- The loss can be brought as near to that of any other parameters as one likes: `N` rounds are enough when
`N ≥ |θ - s|² / (2 lr ε)`. -/
theorem training_reaches (B : Built topo e ins [yo] m real tensors L θ₀) (hN : IsClassifier e m ins x z yo Bt d n)
    (h : History e ins [yo] m real tensors L θ₀ θ last w) (hsz : Bt * n ≤ 2147483647)
    (ha : LoopArgs e m ins yo w b it p y g) {env env' : Nat → Nat → Env} (hp : ∀ k c, IsPick (env k c).pick)
    (inp : Vals e) (Lb : Fin Bt → Fin n) {lr A ε : ℝ} (lr0 : ℝ) (hA0 : 0 < A) (hA : ∀ i, 1 + ∑ r, predOf hN.shapeX (inp x) i r ^ 2 ≤ A) (hl : 0 < lr)
    (hlr : lr * (2 * A) ≤ 1) (s : L.Params) (hε : 0 < ε) (N : Nat) (hn : dist2 L z θ s / (2 * lr * ε) ≤ N) (h1 : 0 < N) :
    ∃ (losses : List ℝ) (θ' : L.Params) (w' : World) (aux' : ℝ) (last' : Option ((Nat → Env) × Vals e)),
      trainLoop sgdStep e m true env env' it p y g (fun _ => inputTensors e ins inp) (fun _ => labelTensor Lb) (fun _ _ => lr) N
        (w, lr0) = (.ok losses, w', aux') ∧
      History e ins [yo] m real tensors L θ₀ θ' last' w' ∧
      ∀ (env₁ env₂ : Nat → Env) (l l' : ℝ), LossAt L m env₁ ins hN.shapeY inp Lb θ' l → LossAt L m env₂ ins hN.shapeY inp Lb s l' → l ≤ l' + ε := by
  obtain ⟨losses, θ', w', b', aux', last', g1, g2, -, -, -, g6⟩ :=
    training_converges B hN h hsz ha hp inp Lb lr0 hA0 hA hl hlr N (env' := env')
  refine ⟨losses, θ', w', aux', last', g1, g2, fun env₁ env₂ l l' k1 k2 => ?_⟩
  have k3 := (g6 env₁ env₂ s l l' k1 k2).2
  have hp1 : (0 : ℝ) < N := by exact_mod_cast h1
  rw [div_le_iff₀ (by positivity)] at hn
  rw [le_div_iff₀ (by positivity)] at k3
  by_contra hcon
  have k4 : ε < l - l' := by linarith
  have k5 : N * ε * (2 * lr) < N * (l - l') * (2 * lr) :=
    mul_lt_mul_of_pos_right (mul_lt_mul_of_pos_left k4 hp1) (by linarith)
  linarith

/-- **C112**. Training a linear classifier with `SGD`, with a new batch in every round: the sum of the losses returned by the loop,
times `1 - 2 lr A`, is at most the sum of the losses that any fixed parameters `s` have on the same batches, plus
`|θ - s|² / (2 lr)`, a number that does not depend on the number of rounds. -/
theorem training_regret (B : Built topo e ins [yo] m real tensors L θ₀) (hN : IsClassifier e m ins x z yo Bt d n)
    (h : History e ins [yo] m real tensors L θ₀ θ last w) (hsz : Bt * n ≤ 2147483647)
    (ha : LoopArgs e m ins yo w b it p y g) {env env' : Nat → Nat → Env} (hp : ∀ k c, IsPick (env k c).pick)
    (inp : Nat → Vals e) (Lb : Nat → Fin Bt → Fin n) {lr A : ℝ} (lr0 : ℝ) (hA0 : 0 < A)
    (hA : ∀ k i, 1 + ∑ r, predOf hN.shapeX (inp k x) i r ^ 2 ≤ A) (hl : 0 < lr) (N : Nat) :
    ∃ (losses : List ℝ) (θ' : L.Params) (w' : World) (b' : Backend) (aux' : ℝ) (last' : Option ((Nat → Env) × Vals e)),
      trainLoop sgdStep e m true env env' it p y g (fun k => inputTensors e ins (inp k)) (fun k => labelTensor (Lb k)) (fun _ _ => lr) N
        (w, lr0) = (.ok losses, w', aux') ∧
      History e ins [yo] m real tensors L θ₀ θ' last' w' ∧ LoopArgs e m ins yo w' b' it p y g ∧ losses.length = N ∧ (∀ a ∈ losses, 0 ≤ a) ∧
      ∀ (env₁ : Nat → Nat → Env) (s : L.Params) (l : Nat → ℝ), (∀ k < N, LossAt L m (env₁ k) ins hN.shapeY (inp k) (Lb k) s (l k)) →
        (1 - 2 * lr * A) * losses.sum + dist2 L z θ' s / (2 * lr) ≤ ∑ k ∈ Finset.range N, l k + dist2 L z θ s / (2 * lr) := by
  obtain ⟨E, Θ, gr, hL, hG, hstep, h0, hrun⟩ := classifier_loop B hN h hsz ha hp (env' := env') inp Lb lr lr0
  obtain ⟨w', b', aux', last', h1, h2, h3, -⟩ := hrun N
  refine ⟨_, Θ N, w', b', aux', last', h1, h2, h3, by simp, fun a ha => ?_, fun env₁ s l hs => ?_⟩
  · obtain ⟨k, hk, rfl⟩ := List.mem_map.1 ha
    exact LogisticL.loss_nonneg _
  · have hr := regret hA0 hl (N := N) (fun k _ => coeff_bounded E (hA k)) (fun k _ => hG k) (fun k _ => hstep k) (s z)
    rw [h0, sub_div] at hr
    have e1 : ∑ k ∈ Finset.range N, l k = ∑ k ∈ Finset.range N, loss (coeff E (predOf hN.shapeX (inp k x))) (Lb k) (s z) :=
      Finset.sum_congr rfl fun k hk => (hL ..).1 (hs k (Finset.mem_range.1 hk))
    have e2 : ((List.range N).map fun k => loss (coeff E (predOf hN.shapeX (inp k x))) (Lb k) (Θ k z)).sum =
        ∑ k ∈ Finset.range N, loss (coeff E (predOf hN.shapeX (inp k x))) (Lb k) (Θ k z) := by
      simp [Finset.sum, Finset.range, Multiset.range]
    rw [e1, e2]
    unfold dist2
    unfold LogisticL.sq at hr
    linarith

/-- The loss of the classifier exists for every batch and every choice of the parameters. -/
theorem loss_at_exists (B : Built topo e ins [yo] m real tensors L θ₀) (hs : phShape e yo = [(Bt : Int), n]) (env : Nat → Env) (inp : Vals e)
    (Lb : Fin Bt → Fin n) (s : L.Params) : ∃ l, LossAt L m env ins hs inp Lb s l := by
  obtain ⟨v', ⟨h1, h2⟩, -⟩ := values_exist B env s inp
  exact ⟨_, v', h1, h2, rfl⟩

/-- The network of the examples is such a classifier. -/
theorem class_classifier {m : Model} (hd : dataOf m = [0, 1, 2]) : IsClassifier classE m [0] 0 1 2 2 3 2 where
  input := by decide
  made := by rw [hd]; decide
  only := fun y hy hc => by
    rw [hd] at hy
    simp only [List.mem_cons, List.not_mem_nil, or_false] at hy
    rcases hy with rfl | rfl | rfl
    · rw [classE_eq] at hc
      exact absurd hc (by simp [Expr.callOf])
    · exact .inl rfl
    · exact .inr rfl
  linear := ⟨0, by rw [classE_eq]; rfl, by rw [classE_eq]; rfl⟩
  softmax := ⟨1, by rw [classE_eq]; rfl, by rw [classE_eq]; rfl⟩
  argZ := by rw [classE_eq]; rfl
  argY := by rw [classE_eq]; rfl
  shapeX := by rw [classE_eq]; rfl
  shapeZ := by rw [classE_eq]; rfl
  shapeY := by rw [classE_eq]; rfl

/-- Two rows of three features, all `1`, learning rate `1 / 8`, any number of rounds. -/
example (Lb : Fin 2 → Fin 2) (N : Nat) :
    ∃ (m : Model) (L : Layers classE) (θ₀ θ' : L.Params) (w w' : World) (env : Nat → Env) (it : List Nat) (p y g : Nat) (losses : List ℝ)
      (aux' : ℝ) (hs : phShape classE 2 = [((2 : Nat) : Int), (2 : Nat)]),
    Built (creationOrder classE) classE [0] [2] m (fun _ => 1) (fun _ => classTensors) L θ₀ ∧
    History classE [0] [2] m (fun _ => 1) (fun _ => classTensors) L θ₀ θ₀ none w ∧
    trainLoop sgdStep classE m true (fun _ => env) (fun _ => env) it p y g (fun _ => inputTensors classE [0] fun _ _ => 1)
      (fun _ => labelTensor Lb) (fun _ _ => 1 / 8) N (w, 1) = (.ok losses, w', aux') ∧
    losses.length = N ∧ losses.Pairwise (· ≥ ·) ∧ ∃ l l', LossAt L m env [0] hs (fun _ _ => 1) Lb θ' l ∧
      LossAt L m env [0] hs (fun _ _ => 1) Lb (fun _ _ => 0) l' ∧ N * (l - l') ≤ dist2 L 1 θ₀ (fun _ _ => 0) / (1 / 4) := by
  obtain ⟨m, L, θ₀, hd, B, -, hs, -⟩ := class_ready
  obtain ⟨pick, hpick⟩ := Props.MaxPoolP.exists_pick
  let env : Nat → Env := fun _ => ⟨fun _ => 0, fun _ => 0, pick⟩
  obtain ⟨w, b, it, p, y, g, hist, ha⟩ := loop_session B
  have hA : ∀ i, 1 + ∑ r, predOf (class_classifier hd).shapeX ((fun _ _ => 1 : Vals classE) 0) i r ^ 2 ≤ 4 := fun i => by
    simp [predOf, arr]
    norm_num
  obtain ⟨losses, θ', w', b', aux', last', h1, -, -, h4, h5, h6⟩ := training_converges B (class_classifier hd) hist (by norm_num) ha
    (env := fun _ => env) (env' := fun _ => env) (fun _ _ => hpick) (fun _ _ => 1) Lb 1 (A := 4) (lr := 1 / 8) (by norm_num) hA (by norm_num)
    (by norm_num) N
  obtain ⟨l, hl⟩ := loss_at_exists B hs env (fun _ _ => 1) Lb θ'
  obtain ⟨l', hl'⟩ := loss_at_exists B hs env (fun _ _ => 1) Lb fun _ _ => 0
  refine ⟨m, L, θ₀, θ', w, w', env, it, p, y, g, losses, aux', hs, B, hist, h1, h4, h5, l, l', hl, hl', ?_⟩
  · have := (h6 env env _ l l' hl hl').2
    norm_num at this ⊢
    exact this

end

end DW.Props.ConvergeP
