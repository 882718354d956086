import Verif.Props.Training
import Verif.Lemmas.OptModel
import Verif.Lemmas.Running
/-!
# Training loops (C81)
-/

set_option autoImplicit false

namespace DW.Props.LoopP

open DW DW.Spec DW.HistL DW.BackendL DW.NetL DW.TrainL DW.MatL DW.Props.BackendP DW.Props.ContractP DW.Props.LossP DW.Props.TrainP DW.Optim
  DW.OptL DW.AgainL DW.RunL

noncomputable section

variable {topo : Graph → List Node} {e : Expr} {ins outs : List Nat} {m : Model} {real : F32 → ℝ} {tensors : Nat → InfoTensors}
  {L : Layers e} {θ₀ : L.Params}

theorem isGradient_unique {ι : Type} [Fintype ι] {f : (ι → ℝ) → ℝ} {x g g' : ι → ℝ} (h : IsGradient f x g) (h' : IsGradient f x g') :
    g = g' := by
  classical
  obtain ⟨J, h1, h2⟩ := h
  obtain ⟨J', h1', h2'⟩ := h'
  have hJ := h1.unique h1'
  subst hJ
  funext i
  have := (h2 (Pi.single i 1)).symm.trans (h2' (Pi.single i 1))
  simpa [Pi.single_apply] using this

/-- The gradient of a loss is unique. -/
theorem lossGradient_unique (B : Built topo e ins outs m real tensors L θ₀) {env : Nat → Env} {θ : L.Params} {v : Vals e} {yo : Nat}
    {φ : Elems (phShape e yo) → ℝ} {g g' : L.Params} (h : LossGradient L m env ins θ v yo φ g)
    (h' : LossGradient L m env ins θ v yo φ g') : ∀ x ∈ (L.net m env).made, g x = g' x := by
  classical
  intro x hx
  choose W hW using fun t : Fin (L.params x) → ℝ => values_exist B env (Function.update θ x t) v
  exact isGradient_unique (h.layer x hx W fun t => (hW t).1) (h'.layer x hx W fun t => (hW t).1)

/-! ### The tensors of the loop -/

theorem load_get : ∀ {ts : List Nat} {bs st : List Buf}, ts.Nodup → ts.length = bs.length → (∀ a ∈ ts, a < st.length) →
    ((ts.zip bs).foldl (fun st q => st.set q.1 q.2) st).length = st.length ∧
    (∀ (i a : Nat) (t : Buf), ts[i]? = some a → bs[i]? = some t → ((ts.zip bs).foldl (fun st q => st.set q.1 q.2) st)[a]? = some t) ∧
    ∀ a, a ∉ ts → ((ts.zip bs).foldl (fun st q => st.set q.1 q.2) st)[a]? = st[a]?
  | [], bs, st, _, _, _ => ⟨rfl, by simp, fun _ _ => rfl⟩
  | a :: ts, [], st, _, h, _ => by simp at h
  | a :: ts, t :: bs, st, hn, hl, hst => by
    obtain ⟨h1, h2, h3⟩ := load_get (ts := ts) (bs := bs) (st := st.set a t) (List.nodup_cons.1 hn).2 (by simpa using hl)
      (fun b hb => by rw [List.length_set]; exact hst b (by simp [hb]))
    simp only [List.zip_cons_cons, List.foldl_cons]
    refine ⟨by rw [h1, List.length_set], fun i b u hb hu => ?_, fun b hb => ?_⟩
    · cases i with
      | zero =>
        simp only [List.getElem?_cons_zero, Option.some.injEq] at hb hu
        subst hb hu
        rw [h3 _ (List.nodup_cons.1 hn).1, List.getElem?_set_self (hst _ (by simp))]
      | succ i => exact h2 i b u (by simpa using hb) (by simpa using hu)
    · rw [List.mem_cons, not_or] at hb
      rw [h3 b hb.2, List.getElem?_set_ne (Ne.symm hb.1)]

/-- The tensors a training loop works on: `it` and `y` for the batches, `p` for the predictions and `g` for their gradient. -/
structure LoopArgs (e : Expr) (m : Model) (ins : List Nat) (yo : Nat) (w : World) (b : Backend) (it : List Nat) (p y g : Nat) : Prop where
  backend : w.backend = some b
  preds : Given e m w b [yo] [p]
  grad : Given e m w b [yo] [g]
  length : it.length = ins.length
  exist : ∀ a ∈ y :: it, a < w.store.length ∧ a ∉ privates m b
  nodup : (p :: g :: y :: it).Nodup

/-- Tensors with the values of the inputs. -/
def inputTensors (e : Expr) (ins : List Nat) (v : Vals e) : List Buf := ins.map fun z => ⟨phShape e z, List.ofFn (v z)⟩

section

variable {yo Bt n : Nat} {θ : L.Params} {last : Option ((Nat → Env) × Vals e)} {w : World} {b : Backend} {it : List Nat} {p y g : Nat}

theorem history_load : ∀ (ts : List Nat) (bs : List Buf) {w : World}, History e ins outs m real tensors L θ₀ θ last w →
    w.backend = some b → (∀ a ∈ ts, a ∉ privates m b) →
      History e ins outs m real tensors L θ₀ θ last { w with store := (ts.zip bs).foldl (fun st q => st.set q.1 q.2) w.store }
  | [], _, _, h, _, _ => h
  | _ :: _, [], _, h, _, _ => h
  | a :: ts, t :: bs, _, h, hb, hp => history_load ts bs (.write a t h hb (hp a (by simp))) hb fun a ha => hp a (by simp [ha])

/-- The batch is in place. -/
theorem loaded (ha : LoopArgs e m ins yo w b it p y g) (h : History e ins [yo] m real tensors L θ₀ θ last w) (inp : Vals e)
    (Lb : Fin Bt → Fin n) : ∃ w₀ w' : World, (∀ {σ : Type} (a : σ), onWorld (loadTensors it (inputTensors e ins inp)) (w, a) = (.ok (), w₀, a) ∧
        onWorld (loadTensors [y] [labelTensor Lb]) (w₀, a) = (.ok (), w', a)) ∧ w'.backend = some b ∧
      History e ins [yo] m real tensors L θ₀ θ last w' ∧ BatchArgs e m ins yo w' b it p y g Lb ∧ Carry e w' ins it inp ∧
      w'.store.length = w.store.length ∧ Untouched m b w w' (y :: it) := by
  have hnd := ha.nodup
  simp only [List.nodup_cons, List.mem_cons, not_or] at hnd
  obtain ⟨⟨hpg, hpy, hpi⟩, ⟨hgy, hgi⟩, hyi, hni⟩ := hnd
  have hlen : it.length = (inputTensors e ins inp).length := by rw [ha.length]; simp [inputTensors]
  obtain ⟨h1, h2, h3⟩ := load_get (st := w.store) hni hlen fun a hi => (ha.exist a (by simp [hi])).1
  set st := (it.zip (inputTensors e ins inp)).foldl (fun st q => st.set q.1 q.2) w.store with hst
  have hylt : y < st.length := by rw [h1]; exact (ha.exist y (by simp)).1
  have hin : ∀ i z k : Nat, ins[i]? = some z → it[i]? = some k → (st.set y (labelTensor Lb))[k]? = some ⟨phShape e z, List.ofFn (inp z)⟩ := by
    intro i z k hz hk
    have hne : y ≠ k := fun h => hyi (h ▸ List.mem_of_getElem? hk)
    rw [List.getElem?_set_ne hne]
    exact h2 i k _ hk (by unfold inputTensors; rw [List.getElem?_map, hz]; rfl)
  have hother : ∀ a, a ≠ y → a ∉ it → (st.set y (labelTensor Lb))[a]? = w.store[a]? := fun a h hi => by
    rw [List.getElem?_set_ne (Ne.symm h), h3 a hi]
  have keep : ∀ a, a ≠ y → a ∉ it → Given e m w b [yo] [a] → Given e m { w with store := st.set y (labelTensor Lb) } b [yo] [a] := by
    intro a h hi hg
    refine ⟨rfl, fun i z k hz hk => ?_, hg.outside⟩
    unfold Room
    obtain rfl : k = a := by
      cases i with
      | zero => simpa using hk.symm
      | succ i => simp at hk
    simp only
    rw [hother k h hi]
    exact hg.room i z k hz hk
  refine ⟨{ w with store := st }, { w with store := st.set y (labelTensor Lb) }, fun a => ⟨rfl, rfl⟩, ha.backend, ?_, ⟨⟨ha.backend, ⟨ha.length, fun i z k hz hk =>
    ⟨_, hin i z k hz hk, by simp⟩, fun k hk => (ha.exist k (by simp [hk])).2⟩, keep p hpy hpi ha.preds, by simp, fun k hk => ?_⟩,
    List.getElem?_set_self hylt, (ha.exist y (by simp)).2, keep g hgy hgi ha.grad, hgi, Ne.symm hpg, Ne.symm hpy, Ne.symm hgy⟩,
    hin, by simp [h1], fun a _ hn => ?_⟩
  · exact history_load [y] [labelTensor Lb] (history_load it _ h ha.backend fun a hi => (ha.exist a (by simp [hi])).2) ha.backend
      fun a hi => (ha.exist a (by simp_all)).2
  · obtain rfl : k = p := by simpa using hk
    exact hpi
  · rw [List.mem_cons, not_or] at hn
    exact hother a hn.1 hn.2

/-- The mathematical course of a training loop. In round `k` the network with parameters `Θ k` has the values `v k` at the inputs
`inp k`, at a point where it is differentiable, and `gr k` is the gradient of the loss of these predictions for the labels `Lb k`. -/
structure Course (L : Layers e) (m : Model) (ins : List Nat) (hs : phShape e yo = [(Bt : Int), n]) (env : Nat → Nat → Env)
    (inp : Nat → Vals e) (Lb : Nat → Fin Bt → Fin n) (N : Nat) (Θ : Nat → L.Params) (v : Nat → Vals e) (gr : Nat → L.Params) : Prop where
  values : ∀ k < N, (L.net m (env k)).Evaluates (Θ k) (v k) ∧ ∀ z ∈ ins, v k z = inp k z
  smooth : ∀ k < N, NoKinks e m (v k) ∧ ∀ i, 0 < predOf hs (v k yo) i (Lb k i)
  gradient : ∀ k < N, LossGradient L m (env k) ins (Θ k) (v k) yo (fun u => crossEntropy (predOf hs u) (Lb k)) (gr k)

variable {σ A C E : Type}

/-- Only the gradients of the layers of the model matter. -/
theorem _root_.DW.Props.TrainP.LossGradient.congr {env : Nat → Env} {θ : L.Params} {v : Vals e} {yo : Nat} {φ : Elems (phShape e yo) → ℝ} {g g' : L.Params}
    (h : LossGradient L m env ins θ v yo φ g) (hg : ∀ x ∈ (L.net m env).made, g' x = g x) : LossGradient L m env ins θ v yo φ g' := by
  refine ⟨fun x hx W hW => by rw [hg x hx]; exact h.layer x hx W hW, fun u W hW => ?_⟩
  rw [Finset.sum_congr rfl fun x hx => by rw [hg x hx]]
  exact h.total u W hW

/-- One iteration with any of the optimizers, on a batch that is in place: it returns the loss, and the parameters and the fields of
the optimizer are moved by its update rule with some `gr`, the gradient of the loss wherever the network is differentiable
and the predictions are positive. -/
theorem rule_round_any (ru : Rule σ A C E) (B : Built topo e ins [yo] m real tensors L θ₀) (ho : SoleConsumer e m [yo])
    (h : History e ins [yo] m real tensors L θ₀ θ last w) (hs : phShape e yo = [(Bt : Int), n]) (hsz : Bt * n ≤ 2147483647)
    {Lb : Fin Bt → Fin n} (ha : BatchArgs e m ins yo w b it p y g Lb) {aux : σ} {S : Nat → List E} (haux : OptState ru e m b aux S)
    {env env' : Nat → Env} (hp : ∀ c, IsPick (env c).pick) (hx : ∀ x ∈ dataOf m, (e.callOf x).isSome → L.exact x) {v : Vals e}
    (hv : (L.net m env).Evaluates θ v) (hc : Carry e w ins it v) (rest : L.Params) :
    ∃ gr : L.Params, (NoKinks e m v → (∀ i, 0 < predOf hs (v yo) i (Lb i)) →
        LossGradient L m env ins θ v yo (fun u => crossEntropy (predOf hs u) Lb) gr) ∧
      (∀ x, ¬ (x ∈ dataOf m ∧ (e.callOf x).isSome) → gr x = rest x) ∧
      ∀ θ' : L.Params, (∀ x, zip3 (ru.el.ew (ru.V.const (ru.pre aux))) (List.ofFn (θ x)) (S x) (List.ofFn (gr x)) = List.ofFn (θ' x)) →
      ∃ (w' : World) (b' : Backend) (aux' : σ),
        iteration ru.step e m true env env' it p y g (w, aux) = (.ok (crossEntropy (predOf hs (v yo)) Lb), w', aux') ∧
        History e ins [yo] m real tensors L θ₀ θ' none w' ∧ BatchArgs e m ins yo w' b' it p y g Lb ∧ SameOwner m b b' ∧
        Untouched m b w w' [p, g] ∧ Carry e w' ins it v ∧ ru.V.const aux' = ru.V.const (ru.pre aux) ∧
        OptState ru e m b' aux' fun x => List.zipWith (ru.el.en (ru.V.const (ru.pre aux))) (S x) (List.ofFn (gr x)) := by
  classical
  obtain ⟨w₃, b₃, gr', r1, r2, r3, r4, -, r6, r7, r8, r9, r10⟩ := batch_pass B ho h hs hsz ha hp hv hc (env' := env')
  let gr : L.Params := fun x => if x ∈ dataOf m ∧ (e.callOf x).isSome then gr' x else rest x
  have hgr : ∀ x ∈ (L.net m env).made, gr x = gr' x := fun x hm => if_pos (mem_net.1 hm)
  refine ⟨gr, fun hk hP => (r8 (fun x hm => hx x (mem_net.1 hm).1 (mem_net.1 hm).2) hk hP).congr hgr, fun x hn => if_neg hn, fun θ' hθ => ?_⟩
  have hst := haux.later B h ha.fwd.backend r1 r2 fun _ => rfl
  obtain ⟨b₄, aux₄, o1, o2, o3, o4⟩ := rule_layers ru B r1 r2 hst
  have hgrads : ∀ x ∈ dataOf m, ∀ l, layerAt e m b₃ x = some l → l.grads = List.ofFn (gr x) := fun x hx' l hl => by
    cases hcx : e.callOf x with
    | none => unfold layerAt at hl; rw [hcx] at hl; cases hl
    | some c =>
      have hm : x ∈ (L.net m env).made := mem_net.2 ⟨hx', by simp [hcx]⟩
      obtain ⟨l', q1, q2⟩ := r9 x hm
      obtain rfl := Option.some.inj (hl.symm.trans q1)
      rw [q2, hgr x hm]
  have hs4 := changed_privates o3
  refine ⟨{ w₃ with backend := some b₄ }, b₄, aux₄, ?_, ?_, r6.layers hs4, hs4.trans r3, fun a h1 h2 => r4 a h1 h2, r7, o2, o4 _ hgrads⟩
  · rw [r10, M.bind_ok o1]
    rfl
  · refine .setParams _ r1 r2 ⟨o3.mem, o3.grad, o3.length, fun x hx' l hl => ?_⟩
    rw [o3.layer x hx' l hl]
    cases hcx : e.callOf x with
    | none => unfold layerAt at hl; rw [hcx] at hl; cases hl
    | some c =>
      obtain ⟨l', q1, q2, -⟩ := (layer_facts B r1 r2).2 x hx' c hcx
      obtain rfl := Option.some.inj (hl.symm.trans q1)
      rw [q2, hgrads x hx' l hl, hθ]

/-- Where the network is differentiable, that is the gradient of the loss. -/
theorem rule_round (ru : Rule σ A C E) (B : Built topo e ins [yo] m real tensors L θ₀) (ho : SoleConsumer e m [yo])
    (h : History e ins [yo] m real tensors L θ₀ θ last w) (hs : phShape e yo = [(Bt : Int), n]) (hsz : Bt * n ≤ 2147483647)
    {Lb : Fin Bt → Fin n} (ha : BatchArgs e m ins yo w b it p y g Lb) {aux : σ} {S : Nat → List E} (haux : OptState ru e m b aux S)
    {env env' : Nat → Env} (hp : ∀ c, IsPick (env c).pick) (hx : ∀ x ∈ dataOf m, (e.callOf x).isSome → L.exact x) {v : Vals e}
    (hv : (L.net m env).Evaluates θ v) (hc : Carry e w ins it v) (hk : NoKinks e m v) (hP : ∀ i, 0 < predOf hs (v yo) i (Lb i))
    {gr θ' : L.Params} (hg : LossGradient L m env ins θ v yo (fun u => crossEntropy (predOf hs u) Lb) gr)
    (hθ : ∀ x, zip3 (ru.el.ew (ru.V.const (ru.pre aux))) (List.ofFn (θ x)) (S x) (List.ofFn (gr x)) = List.ofFn (θ' x)) :
    ∃ (w' : World) (b' : Backend) (aux' : σ),
      iteration ru.step e m true env env' it p y g (w, aux) = (.ok (crossEntropy (predOf hs (v yo)) Lb), w', aux') ∧
      History e ins [yo] m real tensors L θ₀ θ' none w' ∧ BatchArgs e m ins yo w' b' it p y g Lb ∧ SameOwner m b b' ∧
      Untouched m b w w' [p, g] ∧ Carry e w' ins it v ∧ ru.V.const aux' = ru.V.const (ru.pre aux) ∧
      OptState ru e m b' aux' fun x => List.zipWith (ru.el.en (ru.V.const (ru.pre aux))) (S x) (List.ofFn (gr x)) := by
  obtain ⟨gr', h1, h2, h3⟩ := rule_round_any ru B ho h hs hsz ha haux hp hx hv hc gr (env' := env')
  obtain rfl : gr' = gr := funext fun x => by
    by_cases hm : x ∈ dataOf m ∧ (e.callOf x).isSome
    · exact lossGradient_unique B (h1 hk hP) hg x (mem_net.2 hm)
    · exact h2 x hm
  exact h3 θ' hθ

/-- The update of all numbers of a layer. -/
theorem traj_zip (ru : Rule σ A C E) (cs : Nat → C) {P : Nat} (gr : Nat → Fin P → ℝ) (θ : Fin P → ℝ) (k : Nat) :
    zip3 (ru.el.ew (cs k)) (List.ofFn fun i => (traj cs ru.el.ew ru.el.en (fun j => gr j i) (fun _ => true) (θ i) ru.idle k).1)
      (List.ofFn fun i => (traj cs ru.el.ew ru.el.en (fun j => gr j i) (fun _ => true) (θ i) ru.idle k).2) (List.ofFn (gr k)) =
      (List.ofFn fun i => (traj cs ru.el.ew ru.el.en (fun j => gr j i) (fun _ => true) (θ i) ru.idle (k + 1)).1) ∧
    List.zipWith (ru.el.en (cs k))
      (List.ofFn fun i => (traj cs ru.el.ew ru.el.en (fun j => gr j i) (fun _ => true) (θ i) ru.idle k).2) (List.ofFn (gr k)) =
      List.ofFn fun i => (traj cs ru.el.ew ru.el.en (fun j => gr j i) (fun _ => true) (θ i) ru.idle (k + 1)).2 := by
  constructor
  · unfold zip3
    refine List.ext_getElem (by simp) fun j j1 j2 => ?_
    simp only [List.getElem_zipWith, List.getElem_zip, List.getElem_ofFn, traj, if_true]
  · refine List.ext_getElem (by simp) fun j j1 j2 => ?_
    simp only [List.getElem_zipWith, List.getElem_ofFn, traj, if_true]

/-- A training loop with any of the optimizers: it returns the losses of the course, and the parameters and the fields of the
optimizer follow its update rule. -/
theorem rule_training (ru : Rule σ A C E) (setup : Nat → σ → σ) (hset : ∀ k s j, ru.V.look (setup k s) j = ru.V.look s j)
    (F : Nat → C → C) (hF : ∀ k s, ru.V.const (ru.pre (setup k s)) = F k (ru.V.const s))
    (B : Built topo e ins [yo] m real tensors L θ₀) (ho : SoleConsumer e m [yo])
    (h : History e ins [yo] m real tensors L θ₀ θ last w) (hs : phShape e yo = [(Bt : Int), n]) (hsz : Bt * n ≤ 2147483647)
    (ha : LoopArgs e m ins yo w b it p y g) {aux : σ} (haux : OptState ru e m b aux fun x => List.ofFn fun _ : Fin (L.params x) => ru.idle)
    (cs : Nat → C) (hcs0 : cs 0 = F 0 (ru.V.const aux)) (hcs : ∀ k, cs (k + 1) = F (k + 1) (cs k))
    {env env' : Nat → Nat → Env} (hp : ∀ k c, IsPick (env k c).pick) (hx : ∀ x ∈ dataOf m, (e.callOf x).isSome → L.exact x)
    {inp : Nat → Vals e} {Lb : Nat → Fin Bt → Fin n} {Θ : Nat → L.Params} {v : Nat → Vals e} {gr : Nat → L.Params} {N : Nat}
    (hC : Course L m ins hs env inp Lb N Θ v gr)
    (hΘ : ∀ k ≤ N, ∀ x i, Θ k x i = (traj cs ru.el.ew ru.el.en (fun j => gr j x i) (fun _ => true) (θ x i) ru.idle k).1) :
    ∀ k ≤ N, ∃ (w' : World) (b' : Backend) (aux' : σ) (last' : Option ((Nat → Env) × Vals e)),
      trainLoop ru.step e m true env env' it p y g (fun k => inputTensors e ins (inp k)) (fun k => labelTensor (Lb k)) setup k (w, aux) =
        (.ok ((List.range k).map fun j => crossEntropy (predOf hs (v j yo)) (Lb j)), w', aux') ∧
      History e ins [yo] m real tensors L θ₀ (Θ k) last' w' ∧ LoopArgs e m ins yo w' b' it p y g ∧ SameOwner m b b' ∧
      Untouched m b w w' (p :: g :: y :: it) ∧ (∀ j, k = j + 1 → ru.V.const aux' = cs j) ∧ (k = 0 → ru.V.const aux' = ru.V.const aux) ∧
      (OptState ru e m b' aux' fun x => List.ofFn fun i : Fin (L.params x) =>
        (traj cs ru.el.ew ru.el.en (fun j => gr j x i) (fun _ => true) (θ x i) ru.idle k).2) ∧
      ((∀ x ∈ dataOf m, ∀ c, e.callOf x = some c → Trainable (tensors (e.callInfo c))) → Averaged e m real v k w w') := by
  intro k
  induction k with
  | zero =>
    intro _
    have h0 : Θ 0 = θ := by funext x i; exact hΘ 0 (Nat.zero_le _) x i
    exact ⟨w, b, aux, last, rfl, h0 ▸ h, ha, rfl, fun _ _ _ => rfl, by simp, fun _ => rfl, haux, fun _ => averaged_zero rfl v⟩
  | succ k ih =>
    intro hk
    obtain ⟨w₁, b₁, aux₁, last₁, i1, i2, i3, i4, i5, i6, i7, i8, i9⟩ := ih (by omega)
    obtain ⟨w₀, w₂, l1, l2, l3, l4, l5, l6, l7⟩ := loaded i3 i2 (inp k) (Lb k)
    have hc : Carry e w₂ ins it (v k) := fun i z a hz ha' => by
      rw [(hC.values k hk).2 z (List.mem_of_getElem? hz)]
      exact l5 i z a hz ha'
    have hconst : ru.V.const (ru.pre (setup k aux₁)) = cs k := by
      rw [hF]
      cases k with
      | zero => rw [i7 rfl, hcs0]
      | succ j => rw [i6 j rfl, hcs]
    have hΘx : ∀ j ≤ N, ∀ x, Θ j x = fun i => (traj cs ru.el.ew ru.el.en (fun j => gr j x i) (fun _ => true) (θ x i) ru.idle j).1 :=
      fun j hj x => funext fun i => hΘ j hj x i
    obtain ⟨w₃, b₃, aux₃, r1, r2, r3, r4, r5, -, r6, r7⟩ := rule_round ru B ho l3 hs hsz l4
      (i8.later B i2 i3.backend l3 l2 (hset k aux₁)) (hp k) hx (hC.values k hk).1 hc (hC.smooth k hk).1 (hC.smooth k hk).2
      (hC.gradient k hk) (θ' := Θ (k + 1)) (env' := env' k) fun x => by
        rw [hconst, hΘx (k + 1) hk x, hΘx k (by omega) x]
        exact (traj_zip ru cs (fun j => gr j x) (θ x) k).1
    rw [hconst] at r6 r7
    refine ⟨w₃, b₃, aux₃, none, ?_, r2, ⟨r3.fwd.backend, r3.fwd.givenOuts, r3.grad, i3.length, fun a h => ?_, i3.nodup⟩, r4.trans i4, ?_, ?_,
      by simp, ?_, fun htr => ?_⟩
    · unfold trainLoop
      rw [M.bind_ok i1, M.bind_ok (l1 aux₁).1, M.bind_ok (l1 aux₁).2, M.bind_ok (M.modify_apply _ _), M.bind_ok r1, List.range_succ,
        List.map_append]
      rfl
    · rcases List.mem_cons.1 h with rfl | h
      · exact ⟨(List.getElem?_eq_some_iff.1 r3.labels).1, r3.labelsOutside⟩
      · refine ⟨?_, r3.fwd.givenIns.outside a h⟩
        obtain ⟨j, hj⟩ := List.mem_iff_getElem?.1 h
        have hjlt : j < ins.length := by rw [← i3.length]; exact (List.getElem?_eq_some_iff.1 hj).1
        obtain ⟨_, hr, -⟩ := r3.fwd.givenIns.room j _ a (List.getElem?_eq_getElem hjlt) hj
        exact (List.getElem?_eq_some_iff.1 hr).1
    · intro a hpriv hn
      simp only [List.mem_cons, not_or] at hn
      have hpriv₁ : a ∉ privates m b₁ := by rw [i4]; exact hpriv
      rw [r5 a hpriv₁ (by simp [hn]), l7 a hpriv₁ (by simp [hn]), i5 a hpriv (by simp [hn])]
    · intro j hj
      cases hj
      exact r6
    · have heq : (fun x => List.zipWith (ru.el.en (cs k)) (List.ofFn fun i : Fin (L.params x) =>
          (traj cs ru.el.ew ru.el.en (fun j => gr j x i) (fun _ => true) (θ x i) ru.idle k).2) (List.ofFn (gr k x))) =
          fun x => List.ofFn fun i : Fin (L.params x) =>
            (traj cs ru.el.ew ru.el.en (fun j => gr j x i) (fun _ => true) (θ x i) ru.idle (k + 1)).2 :=
        funext fun x => (traj_zip ru cs (fun j => gr j x) (θ x) k).2
      rw [heq] at r7
      exact r7
    · have e1 := keeps_onWorld (σ := σ) (keeps_loadTensors it (inputTensors e ins (inp k))) (w₁, aux₁)
      have e2 := keeps_onWorld (σ := σ) (keeps_loadTensors [y] [labelTensor (Lb k)]) (w₀, aux₁)
      rw [(l1 aux₁).1] at e1
      rw [(l1 aux₁).2] at e2
      have e3 := iteration_stats ru.step e m true (env k) (env' k) it p y g (w₂, setup k aux₁)
      rw [r1] at e3
      exact (i9 htr).trans (((forward_averages B htr l3 l4.fwd (hp k) (hC.values k hk).1 hc _ rfl).keep e3).from (e2.trans e1))

/-- **C81** for `SGD`. In a training loop the parameters follow gradient descent on the losses of the batches: given the mathematical
course of `N` rounds, where in round `k` every parameter `u` moves to `u - lr k * g` and `g` is the derivative of the loss of batch
`k`, the loop returns the losses of that course, and then the parameters are those it ends with. Of the tensors of the caller only
those passed to the calls of the loop have changed. -/
theorem sgd_training (B : Built topo e ins [yo] m real tensors L θ₀) (ho : SoleConsumer e m [yo])
    (h : History e ins [yo] m real tensors L θ₀ θ last w) (hs : phShape e yo = [(Bt : Int), n]) (hsz : Bt * n ≤ 2147483647)
    (ha : LoopArgs e m ins yo w b it p y g) {env env' : Nat → Nat → Env} (hp : ∀ k c, IsPick (env k c).pick)
    (hx : ∀ x ∈ dataOf m, (e.callOf x).isSome → L.exact x) {inp : Nat → Vals e} {Lb : Nat → Fin Bt → Fin n} {Θ : Nat → L.Params}
    {v : Nat → Vals e} {gr : Nat → L.Params} {N : Nat} (hC : Course L m ins hs env inp Lb N Θ v gr) (lr : Nat → ℝ) (lr0 : ℝ)
    (hΘ : ∀ k ≤ N, ∀ x i, Θ k x i = Spec.sgd lr (fun j => gr j x i) (fun _ => true) (θ x i) k) :
    ∃ (w' : World) (b' : Backend) (aux' : ℝ) (last' : Option ((Nat → Env) × Vals e)),
      trainLoop sgdStep e m true env env' it p y g (fun k => inputTensors e ins (inp k)) (fun k => labelTensor (Lb k)) (fun k _ => lr k) N
        (w, lr0) = (.ok ((List.range N).map fun k => crossEntropy (predOf hs (v k yo)) (Lb k)), w', aux') ∧
      History e ins [yo] m real tensors L θ₀ (Θ N) last' w' ∧ LoopArgs e m ins yo w' b' it p y g ∧ SameOwner m b b' ∧
      Untouched m b w w' (p :: g :: y :: it) := by
  obtain ⟨w', b', aux', last', h1, h2, h3, h4, h5, -⟩ := rule_training sgdRule (fun k _ => lr k) (fun _ _ _ => rfl) (fun k _ => lr k)
    (fun _ _ => rfl) B ho h hs hsz ha (aux := lr0)
    (OptState.fresh B h ha.backend fun q _ p _ => ⟨(), rfl, trivial, fun _ _ => rfl⟩) lr rfl (fun _ => rfl) hp hx (env' := env') hC
    (fun k hk x i => (hΘ k hk x i).trans (OptP.traj_sgd lr _ _ _ () k).symm) N le_rfl
  exact ⟨w', b', aux', last', h1, h2, h3, h4, h5⟩

/-- **C81** for `SGDMomentum`, made with `model.params()` before the loop. -/
theorem momentum_training (B : Built topo e ins [yo] m real tensors L θ₀) (ho : SoleConsumer e m [yo])
    (h : History e ins [yo] m real tensors L θ₀ θ last w) (hs : phShape e yo = [(Bt : Int), n]) (hsz : Bt * n ≤ 2147483647)
    (ha : LoopArgs e m ins yo w b it p y g) {env env' : Nat → Nat → Env} (hp : ∀ k c, IsPick (env k c).pick)
    (hx : ∀ x ∈ dataOf m, (e.callOf x).isSome → L.exact x) {inp : Nat → Vals e} {Lb : Nat → Fin Bt → Fin n} {Θ : Nat → L.Params}
    {v : Nat → Vals e} {gr : Nat → L.Params} {N : Nat} (hC : Course L m ins hs env inp Lb N Θ v gr) (lr : Nat → ℝ) (lr0 gamma : ℝ)
    (hΘ : ∀ k ≤ N, ∀ x i, Θ k x i = (Spec.momentum gamma lr (fun j => gr j x i) (fun _ => true) (θ x i) k).1) :
    ∃ (w' : World) (b' : Backend) (aux' : Momentum) (last' : Option ((Nat → Env) × Vals e)),
      trainLoop momentumStep e m true env env' it p y g (fun k => inputTensors e ins (inp k)) (fun k => labelTensor (Lb k))
        (fun k a => { a with lr := lr k }) N
        (w, Momentum.create ((objects true b.layers).map Prod.snd) (paramMap e m true b.layers) lr0 gamma) =
        (.ok ((List.range N).map fun k => crossEntropy (predOf hs (v k yo)) (Lb k)), w', aux') ∧
      History e ins [yo] m real tensors L θ₀ (Θ N) last' w' ∧ LoopArgs e m ins yo w' b' it p y g ∧ SameOwner m b b' ∧
      Untouched m b w w' (p :: g :: y :: it) := by
  have hok := paramMap_ok B h ha.backend true
  obtain ⟨w', b', aux', last', h1, h2, h3, h4, h5, -⟩ := rule_training momentumRule (fun k a => { a with lr := lr k }) (fun _ _ _ => rfl)
    (fun k c => (lr k, c.2)) (fun _ _ => rfl) B ho h hs hsz ha
    (aux := Momentum.create ((objects true b.layers).map Prod.snd) (paramMap e m true b.layers) lr0 gamma)
    (OptState.fresh B h ha.backend fun q hq p hp' => ⟨_, zerosTable_mem _ _ (fun _ => none) hok.names (fun _ _ => rfl) q hq p hp',
      by simp [momentumRule, momentumEl], fun i hi => by simp [momentumRule, momentumEl, List.getElem?_replicate, hi]⟩)
    (fun k => (lr k, gamma)) rfl (fun _ => rfl) hp hx (env' := env') hC
    (fun k hk x i => (hΘ k hk x i).trans (congrArg Prod.fst (OptP.traj_momentum gamma lr _ _ _ k)).symm) N le_rfl
  exact ⟨w', b', aux', last', h1, h2, h3, h4, h5⟩

/-- **C81** for `Adam`, made with `model.params()` before the loop. -/
theorem adam_training (B : Built topo e ins [yo] m real tensors L θ₀) (ho : SoleConsumer e m [yo])
    (h : History e ins [yo] m real tensors L θ₀ θ last w) (hs : phShape e yo = [(Bt : Int), n]) (hsz : Bt * n ≤ 2147483647)
    (ha : LoopArgs e m ins yo w b it p y g) {env env' : Nat → Nat → Env} (hp : ∀ k c, IsPick (env k c).pick)
    (hx : ∀ x ∈ dataOf m, (e.callOf x).isSome → L.exact x) {inp : Nat → Vals e} {Lb : Nat → Fin Bt → Fin n} {Θ : Nat → L.Params}
    {v : Nat → Vals e} {gr : Nat → L.Params} {N : Nat} (hC : Course L m ins hs env inp Lb N Θ v gr) (lr : Nat → ℝ)
    (lr0 beta0 beta1 eps : ℝ) (t0 : Nat)
    (hΘ : ∀ k ≤ N, ∀ x i, Θ k x i = (Spec.adam beta0 beta1 eps t0 lr (fun j => gr j x i) (fun _ => true) (θ x i) k).1) :
    ∃ (w' : World) (b' : Backend) (aux' : Adam) (last' : Option ((Nat → Env) × Vals e)),
      trainLoop adamStep e m true env env' it p y g (fun k => inputTensors e ins (inp k)) (fun k => labelTensor (Lb k))
        (fun k a => { a with lr := lr k }) N
        (w, Adam.create ((objects true b.layers).map Prod.snd) (paramMap e m true b.layers) lr0 beta0 beta1 eps t0) =
        (.ok ((List.range N).map fun k => crossEntropy (predOf hs (v k yo)) (Lb k)), w', aux') ∧
      History e ins [yo] m real tensors L θ₀ (Θ N) last' w' ∧ LoopArgs e m ins yo w' b' it p y g ∧ SameOwner m b b' ∧
      Untouched m b w w' (p :: g :: y :: it) := by
  have hok := paramMap_ok B h ha.backend true
  have hz : ∀ q ∈ paramMap e m true b.layers, ∀ p, ((objects true b.layers).map Prod.snd)[q.2]? = some p →
      adamView.look (Adam.create ((objects true b.layers).map Prod.snd) (paramMap e m true b.layers) lr0 beta0 beta1 eps t0) q.1 =
        some (List.replicate p.data.vals.length 0, List.replicate p.data.vals.length 0) := by
    intro q hq p hp'
    have := zerosTable_mem _ (paramMap e m true b.layers) (fun _ => none) hok.names (fun _ _ => rfl) q hq p hp'
    simp only [adamView, Adam.create, this]
  obtain ⟨w', b', aux', last', h1, h2, h3, h4, h5, -⟩ := rule_training adamRule (fun k a => { a with lr := lr k }) (fun _ _ _ => rfl)
    (fun k c => (lr k, c.2.1, c.2.2.1, c.2.2.2.1, c.2.2.2.2 + 1)) (fun _ _ => rfl) B ho h hs hsz ha
    (aux := Adam.create ((objects true b.layers).map Prod.snd) (paramMap e m true b.layers) lr0 beta0 beta1 eps t0)
    (OptState.fresh B h ha.backend fun q hq p hp' => ⟨_, hz q hq p hp', by simp [adamRule, adamEl],
      fun i hi => by simp [adamRule, adamEl, List.getElem?_replicate, hi]⟩)
    (fun k => (lr k, beta0, beta1, eps, t0 + k + 1)) rfl (fun _ => rfl) hp hx (env' := env') hC
    (fun k hk x i => (hΘ k hk x i).trans (congrArg Prod.fst (OptP.traj_adam beta0 beta1 eps t0 lr _ _ _ k)).symm) N le_rfl
  exact ⟨w', b', aux', last', h1, h2, h3, h4, h5⟩

/-! ### Such courses exist -/

/-- Any values of the parameters can be set. -/
theorem set_params (B : Built topo e ins outs m real tensors L θ₀) (b : Backend) (θ' : L.Params) :
    ∃ b', ChangedLayers e m b b' fun x l => l.setParams (List.ofFn (θ' x)) := by
  classical
  have P := plan B
  let pick : Nat → List ℝ := fun k => match (sortedOps m.sorted)[k]? with
    | some c => if h : ∃ x ∈ dataOf m, e.callOf x = some c then List.ofFn (θ' h.choose) else []
    | none => []
  refine ⟨{ b with layers := b.layers.mapIdx fun k l => l.setParams (pick k) }, rfl, rfl, by simp, fun x hx l hl => ?_⟩
  unfold layerAt at hl ⊢
  cases hc : e.callOf x with
  | none => rw [hc] at hl; cases hl
  | some c =>
    rw [hc] at hl
    simp only [Option.bind_some] at hl ⊢
    rw [List.getElem?_mapIdx, hl, Option.map_some]
    have hcm := (P.make x hx c hc).1
    have hlt : (sortedOps m.sorted).idxOf c < (sortedOps m.sorted).length := List.idxOf_lt_length_iff.2 hcm
    have hget : (sortedOps m.sorted)[(sortedOps m.sorted).idxOf c]? = some c := by
      rw [List.getElem?_eq_getElem hlt, List.getElem_idxOf]
    have hex : ∃ x ∈ dataOf m, e.callOf x = some c := ⟨x, hx, hc⟩
    have hsame : hex.choose = x := P.inj _ _ c hex.choose_spec.2 hc
    have : pick ((sortedOps m.sorted).idxOf c) = List.ofFn (θ' x) := by
      have hof : ∀ z, z = x → List.ofFn (θ' z) = List.ofFn (θ' x) := by rintro _ rfl; rfl
      simp only [pick, hget]
      rw [dif_pos hex]
      exact hof _ hsame
    rw [this]

/-- Where the network has no kinks and the loss is defined, the loss has a gradient. -/
theorem gradient_exists (B : Built topo e ins [yo] m real tensors L θ₀) (ho : SoleConsumer e m [yo])
    (hs : phShape e yo = [(Bt : Int), n]) (hsz : Bt * n ≤ 2147483647) {env : Nat → Env} (hp : ∀ c, IsPick (env c).pick) {v : Vals e}
    {Lb : Fin Bt → Fin n} (hv : (L.net m env).Evaluates θ v) (hx : ∀ x ∈ (L.net m env).made, L.exact x) (hk : NoKinks e m v)
    (hP : ∀ i, 0 < predOf hs (v yo) i (Lb i)) :
    ∃ gr, LossGradient L m env ins θ v yo (fun u => crossEntropy (predOf hs u) Lb) gr := by
  obtain ⟨v₀, w, b, it, p, y, g, -, hi, hist, ha, hc, -⟩ := batch_session B env v Lb
  obtain ⟨b', hb'⟩ := set_params B b θ
  have hist' : History e ins [yo] m real tensors L θ₀ θ none { w with backend := some b' } := .setParams θ hist ha.fwd.backend hb'
  obtain ⟨_, _, gr, -, -, -, -, -, -, -, h, -⟩ := batch_pass B ho hist' hs hsz (ha.layers (changed_privates hb')) hp hv
    (fun i z k hz hk' => by rw [← hi z (List.mem_of_getElem? hz)]; exact hc i z k hz hk') (env' := env)
  exact ⟨gr, h hx hk hP⟩

/-- In a model that is differentiable everywhere and whose predictions are positive, there is a course for any number of rounds,
with any batches and with any update rule. -/
theorem course_exists (B : Built topo e ins [yo] m real tensors L θ₀) (ho : SoleConsumer e m [yo])
    (hs : phShape e yo = [(Bt : Int), n]) (hsz : Bt * n ≤ 2147483647) {env : Nat → Nat → Env} (hp : ∀ k c, IsPick (env k c).pick)
    (hx : ∀ x ∈ dataOf m, (e.callOf x).isSome → L.exact x) (inp : Nat → Vals e) (Lb : Nat → Fin Bt → Fin n)
    (hall : ∀ k (θ : L.Params) (v : Vals e), (L.net m (env k)).Evaluates θ v → NoKinks e m v ∧ ∀ i, 0 < predOf hs (v yo) i (Lb k i))
    (θ : L.Params) (cs : Nat → C) (ew : C → ℝ → E → ℝ → ℝ) (en : C → E → ℝ → E) (s₀ : E) :
    ∃ (Θ : Nat → L.Params) (v : Nat → Vals e) (gr : Nat → L.Params), (∀ N, Course L m ins hs env inp Lb N Θ v gr) ∧
      ∀ k x i, Θ k x i = (traj cs ew en (fun j => gr j x i) (fun _ => true) (θ x i) s₀ k).1 := by
  choose V hV using fun k (θ : L.Params) => values_exist B (env k) θ (inp k)
  choose G hG using fun k (θ : L.Params) => gradient_exists B ho hs hsz (hp k) (hV k θ).1.1
    (fun x hm => hx x (mem_net.1 hm).1 (mem_net.1 hm).2) (hall k θ _ (hV k θ).1.1).1 (hall k θ _ (hV k θ).1.1).2
  let st : Nat → (x : Nat) → Fin (L.params x) → ℝ × E := fun k => Nat.rec (fun x i => (θ x i, s₀)) (fun k st x i =>
    (ew (cs k) (st x i).1 (st x i).2 (G k (fun x i => (st x i).1) x i), en (cs k) (st x i).2 (G k (fun x i => (st x i).1) x i))) k
  have htraj : ∀ k x i, traj cs ew en (fun j => G j (fun x i => (st j x i).1) x i) (fun _ => true) (θ x i) s₀ k = st k x i := by
    intro k x i
    induction k with
    | zero => rfl
    | succ k ih =>
      simp only [traj, if_true]
      rw [ih]
  refine ⟨fun k x i => (st k x i).1, fun k => V k fun x i => (st k x i).1, fun k => G k fun x i => (st k x i).1,
    fun N => ⟨fun k _ => (hV k _).1, fun k _ => hall k _ _ (hV k _).1.1, fun k _ => hG k _⟩, fun k x i => ?_⟩
  rw [htraj]

end

/-- A program can come to the point where the loop starts. -/
theorem loop_session {yo : Nat} (B : Built topo e ins [yo] m real tensors L θ₀) :
    ∃ (w : World) (b : Backend) (it : List Nat) (p y g : Nat), History e ins [yo] m real tensors L θ₀ θ₀ none w ∧
      LoopArgs e m ins yo w b it p y g := by
  obtain ⟨v, w, b, it, p, y, g, -, -, hist, ha, -, hn⟩ := batch_session (Bt := 0) (n := 0) B (fun _ => ⟨fun _ => 0, fun _ => 0, fun _ => 0⟩)
    (fun _ _ => 0) finZeroElim
  have lt : ∀ {phs hs : List Nat}, Given e m w b phs hs → ∀ a ∈ hs, a < w.store.length := fun hg a ha => by
    obtain ⟨i, hi⟩ := List.getElem?_of_mem ha
    have hlt : i < _ := hg.1 ▸ (List.getElem?_eq_some_iff.1 hi).1
    obtain ⟨t, ht, -⟩ := hg.room i _ a (List.getElem?_eq_getElem hlt) hi
    exact (List.getElem?_eq_some_iff.1 ht).1
  refine ⟨w, b, it, p, y, g, hist, ha.fwd.backend, ha.fwd.givenOuts, ha.grad, ha.fwd.givenIns.1, fun a h => ?_, hn⟩
  rcases List.mem_cons.1 h with rfl | h
  · exact ⟨(List.getElem?_eq_some_iff.1 ha.labels).1, ha.labelsOutside⟩
  · exact ⟨lt ha.fwd.givenIns a h, ha.fwd.givenIns.3 a h⟩

/-- The classifier, trained with momentum for any number of rounds on any batches. -/
example (N : Nat) (lr : Nat → ℝ) (gamma : ℝ) (inp : Nat → Vals classE) (Lb : Nat → Fin 2 → Fin 2) :
    ∃ (m : Model) (L : Layers classE) (θ₀ θ' : L.Params) (w w' : World) (b : Backend) (aux' : Momentum) (env : Nat → Env)
      (it : List Nat) (p y g : Nat) (losses : List ℝ),
    Built (creationOrder classE) classE [0] [2] m (fun _ => 1) (fun _ => classTensors) L θ₀ ∧
    History classE [0] [2] m (fun _ => 1) (fun _ => classTensors) L θ₀ θ₀ none w ∧ LoopArgs classE m [0] 2 w b it p y g ∧
    trainLoop momentumStep classE m true (fun _ => env) (fun _ => env) it p y g (fun k => inputTensors classE [0] (inp k))
      (fun k => labelTensor (Lb k)) (fun k a => { a with lr := lr k }) N
      (w, Momentum.create ((objects true b.layers).map Prod.snd) (paramMap classE m true b.layers) 1 gamma) = (.ok losses, w', aux') ∧
    losses.length = N ∧ ∃ last', History classE [0] [2] m (fun _ => 1) (fun _ => classTensors) L θ₀ θ' last' w' := by
  obtain ⟨m, L, θ₀, hd, B, ho, hs, hall⟩ := class_ready
  obtain ⟨pick, hpick⟩ := Props.MaxPoolP.exists_pick
  let env : Nat → Env := fun _ => ⟨fun _ => 0, fun _ => 0, pick⟩
  obtain ⟨w, b, it, p, y, g, hist, ha⟩ := loop_session B
  have hx : ∀ x ∈ dataOf m, (classE.callOf x).isSome → L.exact x := fun x hx hc => by
    obtain ⟨v, ⟨hv, -⟩, -⟩ := values_exist B env θ₀ fun _ _ => 0
    exact (hall env θ₀ v (Lb 0) hv).1 x (mem_net.2 ⟨hx, hc⟩)
  obtain ⟨Θ, v, gr, hC, hΘ⟩ := course_exists B ho hs (by norm_num) (env := fun _ => env) (fun _ _ => hpick) hx inp Lb
    (fun k θ v hv => (hall env θ v (Lb k) hv).2) θ₀ (fun k => (lr k, gamma)) momentumEl.ew momentumEl.en 0
  obtain ⟨w', b', aux', last', h1, h2, -⟩ := momentum_training B ho hist hs (by norm_num) ha (fun _ _ => hpick) hx (hC N) lr 1 gamma
    (fun k _ x i => (hΘ k x i).trans (congrArg Prod.fst (OptP.traj_momentum gamma lr _ _ _ k))) (env' := fun _ => env)
  exact ⟨m, L, θ₀, _, w, w', b, aux', env, it, p, y, g, _, B, hist, ha, h1, by simp, last', h2⟩

end

end DW.Props.LoopP
