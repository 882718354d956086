import Verif.Lemmas.OptimizerRun
import Mathlib.Tactic.Ring
import Mathlib.Tactic.Linarith
import Mathlib.Tactic.NormNum
import Mathlib.Tactic.FieldSimp
import Mathlib.Algebra.BigOperators.Intervals
/-!
# Properties C50–C53: the optimizers

A history is a sequence of rounds. In round `k` the caller stores the gradients `G k id` and sets the
trainable flag `T k id` of every parameter object `id`, sets the learning rate to `lr k`, and calls
`step()`. The update rules for one number are in `Verif/Spec/Optimizer.lean`.
-/

set_option autoImplicit false

namespace DW.Props.OptP

open DW DW.Optim DW.OptL

noncomputable section

/-- The caller stores new gradients and flags. -/
def newGrads {σ : Type} (G : Nat → List ℝ) (T : Nat → Bool) : M (Opt σ) Unit :=
  M.modify fun s => { s with store := feed G T s.store }

/-- The gradients the caller stores have as many elements as the parameters. -/
def GradsFit (store : List Parameter) (params : ParamMap) (G : Nat → Nat → List ℝ) : Prop :=
  ∀ n x, x ∈ params → ∀ p, store[x.2]? = some p → (G n x.2).length = p.data.vals.length

/-! ## C50 -/

/-- Everything `SGD::step` does to the store. -/
theorem sgd_step_store {params : ParamMap} {s : Opt ℝ} (hp : ParamsOk s.store params) :
    ∃ s', sgdStep params s = (.ok (), s') ∧ s'.aux = s.aux ∧ s'.store.length = s.store.length ∧
      (∀ id p, s.store[id]? = some p → p.trainable = true → id ∈ params.map Prod.snd →
        s'.store[id]? = some { p with data := { p.data with
          vals := List.zipWith (fun w g => w - s.aux * g) p.data.vals p.grad.vals } }) ∧
      (∀ id p, s.store[id]? = some p → (p.trainable = false ∨ id ∉ params.map Prod.snd) →
        s'.store[id]? = some p) := by
  obtain ⟨s', e, l, c, h1, h2, h3, -⟩ := eachTrainable_spec sgdView sgdBody
    (fun c _ p => List.zipWith (fun w g => w - c * g) p.data.vals p.grad.vals) (fun _ a _ => a)
    (fun _ p => p.grad.vals.length = p.data.vals.length) sgd_body params s hp.names hp.ids
    (fun x hx => by
      obtain ⟨p, a, b, c⟩ := hp.ok x hx
      exact ⟨p, a, fun _ => ⟨b, (), rfl, c⟩⟩)
  refine ⟨s', e, c, l, ?_, ?_⟩
  · intro id p hs ht hm
    obtain ⟨x, hx, rfl⟩ := List.mem_map.1 hm
    exact (h1 x hx p () hs ht rfl).1
  · intro id p hs hor
    by_cases hm : id ∈ params.map Prod.snd
    · obtain ⟨x, hx, rfl⟩ := List.mem_map.1 hm
      rcases hor with ht | hn
      · exact (h2 x hx p hs ht).1
      · exact absurd hm hn
    · exact (h3 id hm).trans hs

/-- **C50.** `SGD::step` replaces every element `w` of every trainable parameter in the map by
`w - lr*g`, where `g` is the element of its gradient at the same place. Gradients, flags, shapes, the
learning rate and every other parameter are unchanged. -/
theorem sgd_step {params : ParamMap} {s : Opt ℝ} (hp : ParamsOk s.store params) :
    ∃ s', sgdStep params s = (.ok (), s') ∧ s'.aux = s.aux ∧ s'.store.length = s.store.length ∧
      ∀ id p, s.store[id]? = some p → ∃ p', s'.store[id]? = some p' ∧
        p'.grad = p.grad ∧ p'.trainable = p.trainable ∧ p'.data.shape = p.data.shape ∧
        p'.data.vals.length = p.data.vals.length ∧
        (p.trainable = true → id ∈ params.map Prod.snd → ∀ (i : Nat) (w g : ℝ), p.data.vals[i]? = some w →
          p.grad.vals[i]? = some g → p'.data.vals[i]? = some (w - s.aux * g)) ∧
        ((p.trainable = false ∨ id ∉ params.map Prod.snd) → p' = p) := by
  obtain ⟨s', e, h1, h2, h3, h4⟩ := sgd_step_store hp
  refine ⟨s', e, h1, h2, fun id p hs => ?_⟩
  by_cases hc : p.trainable = true ∧ id ∈ params.map Prod.snd
  · obtain ⟨x, hx, hxi⟩ := List.mem_map.1 hc.2
    obtain ⟨q, hq, -, hlen⟩ := hp.ok x hx
    rw [hxi, hs] at hq; cases hq
    refine ⟨_, h3 id p hs hc.1 hc.2, rfl, rfl, rfl, by simp [hlen], ?_, ?_⟩
    · intro _ _ i w g hw hg
      exact zip2 hw hg
    · rintro (h | h)
      · rw [hc.1] at h; cases h
      · exact absurd hc.2 h
  · have hor : p.trainable = false ∨ id ∉ params.map Prod.snd := by
      by_cases ht : p.trainable = true
      · right; intro hm; exact hc ⟨ht, hm⟩
      · left; simpa using ht
    refine ⟨p, h4 id p hs hor, rfl, rfl, rfl, rfl, ?_, fun _ => rfl⟩
    intro ht hm
    exact absurd ⟨ht, hm⟩ hc

/-- **C50.** The result does not depend on the iteration order of the map. -/
theorem sgd_step_order {params params' : ParamMap} {s : Opt ℝ} (hp : ParamsOk s.store params)
    (hperm : params.Perm params') : sgdStep params s = sgdStep params' s := by
  have hp' : ParamsOk s.store params' :=
    ⟨(hperm.map _).nodup_iff.1 hp.names, (hperm.map _).nodup_iff.1 hp.ids,
      fun x hx => hp.ok x (hperm.mem_iff.2 hx)⟩
  obtain ⟨a, ea, a1, a2, a3, a4⟩ := sgd_step_store hp
  obtain ⟨b, eb, b1, b2, b3, b4⟩ := sgd_step_store hp'
  rw [ea, eb]
  have hmem : ∀ id, id ∈ params.map Prod.snd ↔ id ∈ params'.map Prod.snd := fun id => (hperm.map _).mem_iff
  have hst : a.store = b.store := by
    apply List.ext_getElem?
    intro id
    cases hs : s.store[id]? with
    | none =>
      have := List.getElem?_eq_none_iff.1 hs
      rw [List.getElem?_eq_none_iff.2 (by omega), List.getElem?_eq_none_iff.2 (by omega)]
    | some p =>
      by_cases hc : p.trainable = true ∧ id ∈ params.map Prod.snd
      · rw [a3 id p hs hc.1 hc.2, b3 id p hs hc.1 ((hmem id).1 hc.2)]
      · have hor : p.trainable = false ∨ id ∉ params.map Prod.snd := by
          by_cases ht : p.trainable = true
          · right; intro hm; exact hc ⟨ht, hm⟩
          · left; simpa using ht
        rw [a4 id p hs hor, b4 id p hs (hor.imp_right fun h hm => h ((hmem id).2 hm))]
  have haux : a.aux = b.aux := a1.trans b1.symm
  cases a; cases b
  simp only at hst haux
  rw [hst, haux]

/-- `n` rounds of gradient descent. -/
def sgdRun (params : ParamMap) (lr : Nat → ℝ) (G : Nat → Nat → List ℝ) (T : Nat → Nat → Bool) :
    Nat → M (Opt ℝ) Unit
  | 0 => pure ()
  | n + 1 => do
    sgdRun params lr G T n
    newGrads (G n) (T n)
    sgdSetLr (lr n)
    sgdStep params

theorem sgdRun_eq (params : ParamMap) (lr : Nat → ℝ) (G : Nat → Nat → List ℝ) (T : Nat → Nat → Bool) :
    ∀ n, sgdRun params lr G T n = rounds sgdBody params (fun n _ => lr n) G T n
  | 0 => rfl
  | n + 1 => by
    unfold sgdRun rounds
    rw [sgdRun_eq params lr G T n]
    rfl

theorem traj_sgd (lr g : Nat → ℝ) (tr : Nat → Bool) (w0 : ℝ) (e0 : Unit) : ∀ n,
    (traj lr sgdEl.ew sgdEl.en g tr w0 e0 n).1 = Spec.sgd lr g tr w0 n
  | 0 => rfl
  | n + 1 => by
    simp only [traj, Spec.sgd]
    split
    · simp only [sgdEl]
      have := traj_sgd lr g tr w0 e0 n
      simp only [sgdEl] at this
      rw [this]
    · exact traj_sgd lr g tr w0 e0 n

/-- **C50**, histories: after any number of rounds with any gradients, flags and learning rates, each
element of each parameter in the map is what the rule `w := w - lr*g` gives for that element alone,
and no other parameter's data has changed. -/
theorem sgd_history {store : List Parameter} {params : ParamMap} (hp : ParamsOk store params) (lr0 : ℝ)
    (lr : Nat → ℝ) (G : Nat → Nat → List ℝ) (T : Nat → Nat → Bool) (hG : GradsFit store params G) (n : Nat) :
    ∃ s, sgdRun params lr G T n ⟨store, lr0⟩ = (.ok (), s) ∧
      (∀ x ∈ params, ∀ p0, store[x.2]? = some p0 → ∃ p, s.store[x.2]? = some p ∧
        p.data.shape = p0.data.shape ∧ p.data.vals.length = p0.data.vals.length ∧
        ∀ i w0, p0.data.vals[i]? = some w0 →
          p.data.vals[i]? = some (Spec.sgd lr (fun k => (G k x.2).getD i 0) (fun k => T k x.2) w0 n)) ∧
      (∀ id, id ∉ params.map Prod.snd → ∀ p0, store[id]? = some p0 → ∃ p, s.store[id]? = some p ∧
        p.data = p0.data) := by
  obtain ⟨s, e, -, -, -, h1, h2⟩ := rounds_spec sgdView sgdBody _ _ sgdEl
    (fun name p s a hl hg => sgd_body name p s a hl hg.2) (fun n _ => lr n) (fun _ _ _ => rfl)
    (fun n _ => lr n) (fun _ _ => rfl) params ⟨store, lr0⟩ hp
    (fun x hx p _ => ⟨(), rfl, trivial⟩) lr rfl (fun _ => rfl) G T hG n
  rw [sgdRun_eq]
  refine ⟨s, e, fun x hx p0 hp0 => ?_, h2⟩
  obtain ⟨p, a, q1, -, q3, -, q5, -, q7⟩ := h1 x hx p0 () hp0 rfl
  refine ⟨p, q1, q3, q5, fun i w0 hw => ?_⟩
  rw [(q7 i w0 () hw rfl).1, traj_sgd]

/-- **C50.** With a constant gradient and learning rate, `n` steps give `w - n*lr*g`. -/
theorem sgd_constant (lr g w0 : ℝ) (n : Nat) :
    Spec.sgd (fun _ => lr) (fun _ => g) (fun _ => true) w0 n = w0 - n * lr * g := by
  induction n with
  | zero => simp [Spec.sgd]
  | succ n ih => simp only [Spec.sgd, if_true, ih]; push_cast; ring

/-- Two parameters, the second frozen. -/
def demoStore : List Parameter :=
  [⟨⟨[2], [1, 2]⟩, ⟨[2], [10, 20]⟩, true⟩, ⟨⟨[1], [5]⟩, ⟨[1], [7]⟩, false⟩]

def demoParams : ParamMap := [("b", 1), ("w", 0)]

theorem demo_ok : ParamsOk demoStore demoParams where
  names := by decide
  ids := by decide
  ok := by simp [demoParams, demoStore]

/-- Instance of C50: learning rate 1/2. -/
example : ∃ s', sgdStep demoParams ⟨demoStore, 1 / 2⟩ = (.ok (), s') ∧
    s'.store.map (fun p => p.data.vals) = [[-4, -8], [5]] := by
  obtain ⟨s', e, -, hl, h3, h4⟩ := sgd_step_store (s := ⟨demoStore, 1 / 2⟩) demo_ok
  refine ⟨s', e, ?_⟩
  have h0 := h3 0 _ rfl rfl (by simp [demoParams])
  have h1 := h4 1 _ rfl (.inl rfl)
  obtain ⟨st, aux⟩ := s'
  match st, hl with
  | [a, b], _ =>
    simp at h0 h1
    subst h0 h1
    norm_num

/-! ## C51 -/

/-- `n` rounds with momentum. -/
def momentumRun (params : ParamMap) (lr : Nat → ℝ) (G : Nat → Nat → List ℝ) (T : Nat → Nat → Bool) :
    Nat → M (Opt Momentum) Unit
  | 0 => pure ()
  | n + 1 => do
    momentumRun params lr G T n
    newGrads (G n) (T n)
    momentumSetLr (lr n)
    momentumStep params

theorem momentumRun_eq (params : ParamMap) (lr : Nat → ℝ) (G : Nat → Nat → List ℝ) (T : Nat → Nat → Bool) :
    ∀ n, momentumRun params lr G T n = rounds momentumBody params (fun n a => { a with lr := lr n }) G T n
  | 0 => rfl
  | n + 1 => by
    unfold momentumRun rounds
    rw [momentumRun_eq params lr G T n]
    rfl

theorem traj_momentum (gamma : ℝ) (lr g : Nat → ℝ) (tr : Nat → Bool) (w0 : ℝ) : ∀ n,
    traj (fun n => (lr n, gamma)) momentumEl.ew momentumEl.en g tr w0 0 n = Spec.momentum gamma lr g tr w0 n
  | 0 => rfl
  | n + 1 => by
    have := traj_momentum gamma lr g tr w0 n
    simp only [traj, Spec.momentum]
    rw [this]
    simp only [momentumEl]

/-- **C51.** After any number of rounds with any gradients, flags and learning rates, each element
of each parameter and of its velocity is what the recurrence `v := gamma*v + lr*g`, `w := w - v`,
started from velocity 0, gives for that element alone; rounds in which the parameter is frozen change
neither. Other parameters are untouched. -/
theorem momentum_history {store : List Parameter} {params : ParamMap} (hp : ParamsOk store params) (lr0 gamma : ℝ)
    (lr : Nat → ℝ) (G : Nat → Nat → List ℝ) (T : Nat → Nat → Bool) (hG : GradsFit store params G) (n : Nat) :
    ∃ s, momentumRun params lr G T n ⟨store, Momentum.create store params lr0 gamma⟩ = (.ok (), s) ∧
      (∀ x ∈ params, ∀ p0, store[x.2]? = some p0 → ∃ p v, s.store[x.2]? = some p ∧ s.aux.vel x.1 = some v ∧
        p.data.shape = p0.data.shape ∧ p.data.vals.length = p0.data.vals.length ∧
        ∀ i w0, p0.data.vals[i]? = some w0 →
          let r := Spec.momentum gamma lr (fun k => (G k x.2).getD i 0) (fun k => T k x.2) w0 n
          p.data.vals[i]? = some r.1 ∧ v[i]? = some r.2) ∧
      (∀ id, id ∉ params.map Prod.snd → ∀ p0, store[id]? = some p0 → ∃ p, s.store[id]? = some p ∧
        p.data = p0.data) := by
  have hz : ∀ x ∈ params, ∀ p, store[x.2]? = some p →
      (Momentum.create store params lr0 gamma).vel x.1 = some (List.replicate p.data.vals.length 0) :=
    fun x hx p hp' => zerosTable_mem store params _ hp.names (fun _ _ => rfl) x hx p hp'
  obtain ⟨s, e, -, -, -, h1, h2⟩ := rounds_spec momentumView momentumBody _ _ momentumEl
    (fun name p s a hl hg => momentum_body name p s a hl hg)
    (fun n a => { a with lr := lr n }) (fun _ _ _ => rfl)
    (fun n c => (lr n, c.2)) (fun _ _ => rfl) params ⟨store, Momentum.create store params lr0 gamma⟩ hp
    (fun x hx p hp' => ⟨_, hz x hx p hp', by simp [momentumEl]⟩)
    (fun n => (lr n, gamma)) rfl (fun _ => rfl) G T hG n
  rw [momentumRun_eq]
  refine ⟨s, e, fun x hx p0 hp0 => ?_, h2⟩
  obtain ⟨p, v, q1, q2, q3, -, q5, q6, q7⟩ := h1 x hx p0 _ hp0 (hz x hx p0 hp0)
  refine ⟨p, v, q1, q2, q3, q5, fun i w0 hw => ?_⟩
  have hi := (List.getElem?_eq_some_iff.1 hw).1
  have := q7 i w0 0 hw (by simp [momentumEl, hi])
  rw [traj_momentum] at this
  exact this

/-- **C51**, closed form: the velocity after `n` steps on a trainable parameter is
`sum_{k<n} gamma^(n-1-k) * lr_k * g_k`. -/
theorem momentum_velocity (gamma : ℝ) (lr g : Nat → ℝ) (w0 : ℝ) (n : Nat) :
    (Spec.momentum gamma lr g (fun _ => true) w0 n).2 =
      ∑ k ∈ Finset.range n, gamma ^ (n - 1 - k) * lr k * g k := by
  induction n with
  | zero => simp [Spec.momentum]
  | succ n ih =>
    simp only [Spec.momentum, if_true, ih]
    rw [Finset.sum_range_succ, Finset.mul_sum]
    have : ∀ k ∈ Finset.range n, gamma * (gamma ^ (n - 1 - k) * lr k * g k) =
        gamma ^ (n + 1 - 1 - k) * lr k * g k := by
      intro k hk
      have hk := Finset.mem_range.1 hk
      rw [show n + 1 - 1 - k = (n - 1 - k) + 1 by omega, pow_succ]; ring
    rw [Finset.sum_congr rfl this]
    simp

theorem momentum_zero (lr g : Nat → ℝ) (tr : Nat → Bool) (w0 : ℝ) : ∀ n,
    (Spec.momentum 0 lr g tr w0 n).1 = Spec.sgd lr g tr w0 n
  | 0 => rfl
  | n + 1 => by
    have := momentum_zero lr g tr w0 n
    simp only [Spec.momentum, Spec.sgd]
    split
    · simp [this]
    · exact this

/-- **C51.** With `gamma = 0` a run of `SGDMomentum` and a run of `SGD` over the same rounds leave
the same weights. -/
theorem momentum_zero_is_sgd {store : List Parameter} {params : ParamMap} (hp : ParamsOk store params) (lr0 : ℝ)
    (lr : Nat → ℝ) (G : Nat → Nat → List ℝ) (T : Nat → Nat → Bool) (hG : GradsFit store params G) (n : Nat) :
    ∃ s s', momentumRun params lr G T n ⟨store, Momentum.create store params lr0 0⟩ = (.ok (), s) ∧
      sgdRun params lr G T n ⟨store, lr0⟩ = (.ok (), s') ∧
      ∀ x ∈ params, (s.store[x.2]?).map (fun p => p.data) = (s'.store[x.2]?).map (fun p => p.data) := by
  obtain ⟨s, e, h1, -⟩ := momentum_history hp lr0 0 lr G T hG n
  obtain ⟨s', e', h1', -⟩ := sgd_history hp lr0 lr G T hG n
  refine ⟨s, s', e, e', fun x hx => ?_⟩
  obtain ⟨p0, hp0, -, -⟩ := hp.ok x hx
  obtain ⟨p, v, q1, -, q3, q4, q5⟩ := h1 x hx p0 hp0
  obtain ⟨p', r1, r2, r3, r4⟩ := h1' x hx p0 hp0
  rw [q1, r1]
  simp only [Option.map_some, Option.some.injEq]
  have hv : p.data.vals = p'.data.vals := by
    apply List.ext_getElem?
    intro i
    cases hw : p0.data.vals[i]? with
    | none =>
      have := List.getElem?_eq_none_iff.1 hw
      rw [List.getElem?_eq_none_iff.2 (by omega), List.getElem?_eq_none_iff.2 (by omega)]
    | some w0 => rw [(q5 i w0 hw).1, r4 i w0 hw, momentum_zero]
  have hs : p.data.shape = p'.data.shape := q3.trans r2.symm
  cases hd : p.data; cases hd' : p'.data
  rw [hd, hd'] at hv hs
  simp only at hv hs
  rw [hv, hs]

theorem eachTrainable_append {σ : Type} (body : String → Parameter → M (Opt σ) (List ℝ)) (l l' : ParamMap) :
    ∀ s, eachTrainable body (l ++ l') s = (eachTrainable body l >>= fun _ => eachTrainable body l') s := by
  induction l with
  | nil => intro s; rfl
  | cons x l ih =>
    intro s
    obtain ⟨name, id⟩ := x
    simp only [List.cons_append, eachTrainable]
    simp only [M.bind_apply, M.get_apply]
    cases hs : s.store[id]? with
    | none => simp
    | some p =>
      simp only
      cases p.trainable with
      | false => simp only [Bool.false_eq_true, if_false]; rw [ih, M.bind_apply]
      | true =>
        simp only [if_true, M.bind_apply]
        cases (p.grad.shape == p.data.shape) with
        | false => simp
        | true =>
          simp only [M.check_true_apply]
          generalize body name p s = r
          obtain ⟨o, s1⟩ := r
          cases o with
          | ok w => simp only [M.modify_apply]; rw [ih, M.bind_apply]
          | throw _ => rfl
          | ub _ => rfl

/-- **C51.** If the map contains, at the time of `step`, a trainable parameter whose name it did not
contain at construction (wherever it comes in the iteration order, all other parameters being in
order), `step` throws `std::out_of_range`. -/
theorem momentum_new_parameter_throws {l1 l2 : ParamMap} {name : String} {id : Nat} {s : Opt Momentum}
    (hp : ParamsOk s.store (l1 ++ (name, id) :: l2)) (p : Parameter) (hid : s.store[id]? = some p)
    (ht : p.trainable = true) (hnew : s.aux.vel name = none)
    (hold : ∀ x ∈ l1, ∀ q, s.store[x.2]? = some q → ∃ v, s.aux.vel x.1 = some v ∧ v.length = q.data.vals.length) :
    (momentumStep (l1 ++ (name, id) :: l2) s).1 = .throw .outOfRange := by
  have hn := hp.names
  have hi := hp.ids
  simp only [List.map_append, List.map_cons] at hn hi
  obtain ⟨n1, n2, n3⟩ := List.nodup_append.1 hn
  obtain ⟨i1, i2, i3⟩ := List.nodup_append.1 hi
  obtain ⟨s', e, -, -, -, -, h3, h4⟩ := eachTrainable_spec momentumView momentumBody
    (fun c v p => List.zipWith (fun w v => w - v) p.data.vals (nextVel c v p)) nextVel
    (fun v p => v.length = p.grad.vals.length ∧ p.grad.vals.length = p.data.vals.length) momentum_body l1 s n1 i1
    (fun x hx => by
      obtain ⟨q, a, b, c⟩ := hp.ok x (by simp [hx])
      obtain ⟨v, hv, hl⟩ := hold x hx q a
      exact ⟨q, a, fun _ => ⟨b, v, hv, by omega, c⟩⟩)
  have hid' : s'.store[id]? = some p := by
    rw [h3 id (fun h => i3 id h id (by simp) rfl)]; exact hid
  have hnew' : s'.aux.vel name = none := by
    have := h4 name (fun h => n3 name h name (by simp) rfl)
    simp only [momentumView] at this
    rw [this]; exact hnew
  obtain ⟨q, a, b, c⟩ := hp.ok (name, id) (by simp)
  simp only at a
  rw [hid] at a; cases a
  unfold momentumStep
  rw [eachTrainable_append, M.bind_ok e]
  simp only [eachTrainable]
  rw [M.bind_ok (M.get_apply _)]
  have hk : (p.grad.shape == p.data.shape) = true := by rw [b]; simp
  simp only [hid', ht, if_true]
  rw [hk, M.bind_ok (M.check_true_apply _)]
  have hb : momentumBody name p s' = (.throw .outOfRange, s') := by
    unfold momentumBody
    rw [M.bind_ok (M.get_apply _), M.bind_throw]
    simp [tableAt, hnew']
  rw [M.bind_throw hb]

/-- Instance of C51: the demo parameters fit constant gradients, and one step with gamma = 1/2
followed by another with gradient 10 and lr = 1 moves the weight 1 by 10 and then by 15. -/
example : ParamsOk demoStore demoParams ∧
    GradsFit demoStore demoParams (fun _ id => if id = 0 then [10, 20] else [7]) ∧
    (Spec.momentum (1 / 2) (fun _ => 1) (fun _ => 10) (fun _ => true) 1 2) = (-24, 15) := by
  refine ⟨demo_ok, ?_, ?_⟩
  · intro n x hx p hp
    simp [demoParams] at hx
    rcases hx with rfl | rfl <;> simp [demoStore] at hp <;> subst hp <;> simp
  · norm_num [Spec.momentum]

/-- Instance of the throwing case: a parameter "new" was added after construction. -/
example : (momentumStep [("w", 0), ("new", 1)] ⟨[⟨⟨[1], [1]⟩, ⟨[1], [1]⟩, true⟩, ⟨⟨[1], [1]⟩, ⟨[1], [1]⟩, true⟩],
    ⟨1, 0, fun k => if k = "w" then some [0] else none⟩⟩).1 = .throw .outOfRange :=
  momentum_new_parameter_throws (l1 := [("w", 0)]) (l2 := []) (p := ⟨⟨[1], [1]⟩, ⟨[1], [1]⟩, true⟩)
    ⟨by decide, by decide, by simp⟩ rfl rfl (by simp) (by simp)

/-! ## C52 -/

/-- `n` rounds of Adam. -/
def adamRun (params : ParamMap) (lr : Nat → ℝ) (G : Nat → Nat → List ℝ) (T : Nat → Nat → Bool) :
    Nat → M (Opt Adam) Unit
  | 0 => pure ()
  | n + 1 => do
    adamRun params lr G T n
    newGrads (G n) (T n)
    adamSetLr (lr n)
    adamStep params

theorem adamRun_eq (params : ParamMap) (lr : Nat → ℝ) (G : Nat → Nat → List ℝ) (T : Nat → Nat → Bool) :
    ∀ n, adamRun params lr G T n =
      rounds adamBody params (fun n a => { a with lr := lr n, t := a.t + 1 }) G T n
  | 0 => rfl
  | n + 1 => by
    unfold adamRun rounds
    rw [adamRun_eq params lr G T n]
    rfl

theorem traj_adam (b0 b1 eps : ℝ) (t0 : Nat) (lr g : Nat → ℝ) (tr : Nat → Bool) (w0 : ℝ) : ∀ n,
    traj (fun n => (lr n, b0, b1, eps, t0 + n + 1)) adamEl.ew adamEl.en g tr w0 (0, 0) n =
      Spec.adam b0 b1 eps t0 lr g tr w0 n
  | 0 => rfl
  | n + 1 => by
    have := traj_adam b0 b1 eps t0 lr g tr w0 n
    simp only [traj, Spec.adam]
    rw [this]
    simp only [adamEl, pow_two]

/-- **C52.** After any number of rounds with any gradients, flags and learning rates, each element
of each parameter and of its two moments is what Adam's bias-corrected recurrence gives for that
element alone, the step counter starting from the constructor's `num_iterations` and counting every
call of `step`. Other parameters are untouched. -/
theorem adam_history {store : List Parameter} {params : ParamMap} (hp : ParamsOk store params)
    (lr0 b0 b1 eps : ℝ) (t0 : Nat) (lr : Nat → ℝ) (G : Nat → Nat → List ℝ) (T : Nat → Nat → Bool)
    (hG : GradsFit store params G) (n : Nat) :
    ∃ s, adamRun params lr G T n ⟨store, Adam.create store params lr0 b0 b1 eps t0⟩ = (.ok (), s) ∧
      (∀ x ∈ params, ∀ p0, store[x.2]? = some p0 → ∃ p m v, s.store[x.2]? = some p ∧
        s.aux.mean x.1 = some m ∧ s.aux.var x.1 = some v ∧
        p.data.shape = p0.data.shape ∧ p.data.vals.length = p0.data.vals.length ∧
        ∀ i w0, p0.data.vals[i]? = some w0 →
          let r := Spec.adam b0 b1 eps t0 lr (fun k => (G k x.2).getD i 0) (fun k => T k x.2) w0 n
          p.data.vals[i]? = some r.1 ∧ m[i]? = some r.2.1 ∧ v[i]? = some r.2.2) ∧
      (∀ id, id ∉ params.map Prod.snd → ∀ p0, store[id]? = some p0 → ∃ p, s.store[id]? = some p ∧
        p.data = p0.data) := by
  have hz : ∀ x ∈ params, ∀ p, store[x.2]? = some p →
      adamView.look (Adam.create store params lr0 b0 b1 eps t0) x.1 =
        some (List.replicate p.data.vals.length 0, List.replicate p.data.vals.length 0) := by
    intro x hx p hp'
    have := zerosTable_mem store params (fun _ => none) hp.names (fun _ _ => rfl) x hx p hp'
    simp only [adamView, Adam.create, this]
  obtain ⟨s, e, -, -, -, h1, h2⟩ := rounds_spec adamView adamBody _ _ adamEl
    (fun name p s a hl hg => adam_body name p s a hl ⟨hg.1.1, hg.1.2, hg.2⟩)
    (fun n a => { a with lr := lr n, t := a.t + 1 }) (fun _ _ _ => rfl)
    (fun n c => (lr n, c.2.1, c.2.2.1, c.2.2.2.1, c.2.2.2.2 + 1)) (fun _ _ => rfl) params
    ⟨store, Adam.create store params lr0 b0 b1 eps t0⟩ hp
    (fun x hx p hp' => ⟨_, hz x hx p hp', by simp [adamEl]⟩)
    (fun n => (lr n, b0, b1, eps, t0 + n + 1)) rfl (fun _ => rfl) G T hG n
  rw [adamRun_eq]
  refine ⟨s, e, fun x hx p0 hp0 => ?_, h2⟩
  obtain ⟨p, a, q1, q2, q3, -, q5, q6, q7⟩ := h1 x hx p0 _ hp0 (hz x hx p0 hp0)
  have q2' : s.aux.mean x.1 = some a.1 ∧ s.aux.var x.1 = some a.2 := by
    simp only [adamView] at q2
    cases k1 : s.aux.mean x.1 <;> cases k2 : s.aux.var x.1 <;> rw [k1, k2] at q2 <;> simp at q2
    subst q2; simp
  refine ⟨p, a.1, a.2, q1, q2'.1, q2'.2, q3, q5, fun i w0 hw => ?_⟩
  have hi := (List.getElem?_eq_some_iff.1 hw).1
  have := q7 i w0 (0, 0) hw (by simp [adamEl, hi])
  rw [traj_adam] at this
  refine ⟨this.1, ?_⟩
  have h2 := this.2
  simp only [adamEl] at h2
  cases k1 : a.1[i]? <;> cases k2 : a.2[i]? <;> rw [k1, k2] at h2 <;>
    simp only [reduceCtorEq, Option.some.injEq] at h2
  rw [← h2]; simp

/-- **C52.** Constant gradient `g`, counter started at 0: after `n` steps the moments are
`(1 - beta0^n) g` and `(1 - beta1^n) g²`, so that at every step the corrected moments are exactly `g`
and `g²`. -/
theorem adam_constant_moments (b0 b1 eps : ℝ) (lr : Nat → ℝ) (g w0 : ℝ) (n : Nat) :
    (Spec.adam b0 b1 eps 0 lr (fun _ => g) (fun _ => true) w0 n).2 =
      ((1 - b0 ^ n) * g, (1 - b1 ^ n) * g ^ 2) := by
  induction n with
  | zero => simp [Spec.adam]
  | succ n ih =>
    have e1 := congrArg Prod.fst ih
    have e2 := congrArg Prod.snd ih
    simp only at e1 e2
    simp only [Spec.adam, if_true]
    refine Prod.ext ?_ ?_
    · simp only; rw [e1]; ring
    · simp only; rw [e2]; ring

/-- **C52.** With betas in [0,1) and a constant gradient from counter 0, `mhat = g` and
`vhat = g²` at every step: each step is exactly `w := w - lr * g / (|g| + eps)`. -/
theorem adam_constant_step (b0 b1 eps : ℝ) (h0 : 0 ≤ b0 ∧ b0 < 1) (h1 : 0 ≤ b1 ∧ b1 < 1)
    (lr : Nat → ℝ) (g w0 : ℝ) (n : Nat) :
    let r := Spec.adam b0 b1 eps 0 lr (fun _ => g) (fun _ => true) w0 n
    (b0 * r.2.1 + (1 - b0) * g) / (1 - b0 ^ (n + 1)) = g ∧
    (b1 * r.2.2 + (1 - b1) * g ^ 2) / (1 - b1 ^ (n + 1)) = g ^ 2 ∧
    (Spec.adam b0 b1 eps 0 lr (fun _ => g) (fun _ => true) w0 (n + 1)).1 = r.1 - lr n * g / (|g| + eps) := by
  have k0 : 1 - b0 ^ (n + 1) ≠ 0 := by
    have := pow_lt_one₀ h0.1 h0.2 (Nat.succ_ne_zero n)
    simp only [Nat.succ_eq_add_one] at this
    linarith
  have k1 : 1 - b1 ^ (n + 1) ≠ 0 := by
    have := pow_lt_one₀ h1.1 h1.2 (Nat.succ_ne_zero n)
    simp only [Nat.succ_eq_add_one] at this
    linarith
  have hm := adam_constant_moments b0 b1 eps lr g w0 n
  intro r
  have hr : r.2 = ((1 - b0 ^ n) * g, (1 - b1 ^ n) * g ^ 2) := hm
  have e1 : (b0 * r.2.1 + (1 - b0) * g) / (1 - b0 ^ (n + 1)) = g := by
    rw [hr, div_eq_iff k0]; simp only; ring
  have e2 : (b1 * r.2.2 + (1 - b1) * g ^ 2) / (1 - b1 ^ (n + 1)) = g ^ 2 := by
    rw [hr, div_eq_iff k1]; simp only; ring
  refine ⟨e1, e2, ?_⟩
  simp only [Spec.adam, if_true, Nat.zero_add]
  rw [show Spec.adam b0 b1 eps 0 lr (fun _ => g) (fun _ => true) w0 n = r from rfl, e1, e2, Real.sqrt_sq_eq_abs]

/-- **C52.** So no step moves an element by more than `lr`. -/
theorem adam_step_bounded (b0 b1 eps : ℝ) (h0 : 0 ≤ b0 ∧ b0 < 1) (h1 : 0 ≤ b1 ∧ b1 < 1) (he : 0 < eps)
    (lr : Nat → ℝ) (hlr : ∀ k, 0 ≤ lr k) (g w0 : ℝ) (n : Nat) :
    |(Spec.adam b0 b1 eps 0 lr (fun _ => g) (fun _ => true) w0 (n + 1)).1 -
      (Spec.adam b0 b1 eps 0 lr (fun _ => g) (fun _ => true) w0 n).1| ≤ lr n := by
  rw [(adam_constant_step b0 b1 eps h0 h1 lr g w0 n).2.2]
  have hpos : 0 < |g| + eps := by have := abs_nonneg g; linarith
  rw [sub_sub_cancel_left, abs_neg, abs_div, abs_mul, abs_of_pos hpos, abs_of_nonneg (hlr n), div_le_iff₀ hpos]
  have := hlr n
  nlinarith [abs_nonneg g]

/-- Instance of C52: betas 0.9 and 0.999, eps 0.001 meet the hypotheses; with gradient -2 the first
step from 0 goes to 2*lr/2.001. -/
example : (0 : ℝ) ≤ 9 / 10 ∧ (9 / 10 : ℝ) < 1 ∧ ParamsOk demoStore demoParams ∧
    (Spec.adam (9 / 10) (999 / 1000) (1 / 1000) 0 (fun _ => 1) (fun _ => -2) (fun _ => true) 0 1).1
      = 2000 / 2001 := by
  refine ⟨by norm_num, by norm_num, demo_ok, ?_⟩
  rw [(adam_constant_step (9 / 10) (999 / 1000) (1 / 1000) (by norm_num) (by norm_num) (fun _ => 1) (-2) 0 0).2.2]
  norm_num [Spec.adam]

/-! ## C53 -/

/-- A call on an optimizer, or a change of the parameters by the caller. -/
inductive Call
  | setLr (lr : ℝ)
  | step (params : ParamMap)
  | change (f : List Parameter → List Parameter)

/-- The last learning rate that was set, or the constructor's. -/
def lastLr (lr0 : ℝ) (calls : List Call) : ℝ :=
  (calls.filterMap fun | .setLr lr => some lr | _ => none).getLastD lr0

/-- State after a history; a throwing call leaves what it has done so far. -/
def history {σ : Type} (setLr : ℝ → M (Opt σ) Unit) (step : ParamMap → M (Opt σ) Unit) :
    List Call → Opt σ → Opt σ
  | [], s => s
  | .setLr lr :: rest, s => history setLr step rest (setLr lr s).2
  | .step params :: rest, s => history setLr step rest (step params s).2
  | .change f :: rest, s => history setLr step rest { s with store := f s.store }

theorem lastLr_cons_set (lr0 lr : ℝ) (calls : List Call) : lastLr lr0 (.setLr lr :: calls) = lastLr lr calls := by
  show (lr :: List.filterMap _ calls).getLastD lr0 = _
  rw [List.getLastD_cons]; rfl

theorem history_lr {σ : Type} (getL : σ → ℝ) (setLr : ℝ → M (Opt σ) Unit) (step : ParamMap → M (Opt σ) Unit)
    (h1 : ∀ lr s, getL (setLr lr s).2.aux = lr) (h2 : ∀ params s, getL (step params s).2.aux = getL s.aux) :
    ∀ (calls : List Call) (s : Opt σ), getL (history setLr step calls s).aux = lastLr (getL s.aux) calls
  | [], s => rfl
  | .setLr lr :: rest, s => by
    simp only [history]
    rw [history_lr getL setLr step h1 h2 rest, h1, lastLr_cons_set]
  | .step params :: rest, s => by
    simp only [history]
    rw [history_lr getL setLr step h1 h2 rest, h2]
    rfl
  | .change f :: rest, s => by
    simp only [history]
    rw [history_lr getL setLr step h1 h2 rest]
    rfl

theorem eachTrainable_lr {σ : Type} (getL : σ → ℝ) (body : String → Parameter → M (Opt σ) (List ℝ))
    (hb : ∀ name p s, getL (body name p s).2.aux = getL s.aux) : ∀ (l : ParamMap) (s : Opt σ),
    getL (eachTrainable body l s).2.aux = getL s.aux
  | [], s => rfl
  | (name, id) :: rest, s => by
    simp only [eachTrainable]
    simp only [M.bind_apply, M.get_apply]
    cases hs : s.store[id]? with
    | none => rfl
    | some p =>
      simp only
      cases p.trainable with
      | false => exact eachTrainable_lr getL body hb rest s
      | true =>
        simp only [if_true, M.bind_apply]
        cases (p.grad.shape == p.data.shape) with
        | false => rfl
        | true =>
          simp only [M.check_true_apply]
          have := hb name p s
          generalize body name p s = r at this
          obtain ⟨o, s1⟩ := r
          cases o with
          | ok w =>
            simp only [M.modify_apply]
            rw [eachTrainable_lr getL body hb rest]; exact this
          | throw _ => exact this
          | ub _ => exact this

/-- **C53** for `SGD`: after any history of `set_lr`, `step` (also throwing) and changes of the
parameters, `get_lr` returns the last value set, or the constructor's. -/
theorem sgd_lr (store : List Parameter) (lr0 : ℝ) (calls : List Call) :
    (sgdGetLr (history sgdSetLr sgdStep calls ⟨store, lr0⟩)).1 = .ok (lastLr lr0 calls) := by
  have := history_lr (fun a => a) sgdSetLr sgdStep (fun _ _ => rfl)
    (fun params s => eachTrainable_lr (fun a => a) sgdBody (fun _ _ _ => rfl) params s) calls ⟨store, lr0⟩
  simp only at this
  simp only [sgdGetLr, M.bind_apply, M.get_apply, M.pure_apply]
  rw [this]

/-- **C53** for `SGDMomentum`. -/
theorem momentum_lr (store : List Parameter) (params : ParamMap) (lr0 gamma : ℝ) (calls : List Call) :
    (momentumGetLr (history momentumSetLr momentumStep calls
      ⟨store, Momentum.create store params lr0 gamma⟩)).1 = .ok (lastLr lr0 calls) := by
  have hb : ∀ name p (s : Opt Momentum), (momentumBody name p s).2.aux.lr = s.aux.lr := by
    intro name p s
    unfold momentumBody
    simp only [M.bind_apply, M.get_apply, tableAt]
    cases s.aux.vel name with
    | none => rfl
    | some v =>
      simp only [M.pure_apply, M.lift_apply]
      generalize upd2 _ v _ = o
      cases o <;> rfl
  have := history_lr (fun a => a.lr) momentumSetLr momentumStep (fun _ _ => rfl)
    (fun params s => eachTrainable_lr (fun a => a.lr) momentumBody hb params s) calls
    ⟨store, Momentum.create store params lr0 gamma⟩
  simp only at this
  simp only [momentumGetLr, M.bind_apply, M.get_apply, M.pure_apply]
  rw [this]; rfl

/-- **C53** for `Adam`. -/
theorem adam_lr (store : List Parameter) (params : ParamMap) (lr0 b0 b1 eps : ℝ) (t0 : Nat) (calls : List Call) :
    (adamGetLr (history adamSetLr adamStep calls
      ⟨store, Adam.create store params lr0 b0 b1 eps t0⟩)).1 = .ok (lastLr lr0 calls) := by
  have hb : ∀ name p (s : Opt Adam), (adamBody name p s).2.aux.lr = s.aux.lr := by
    intro name p s
    unfold adamBody
    simp only [M.bind_apply, M.get_apply, tableAt]
    cases s.aux.mean name with
    | none => rfl
    | some m =>
      simp only [M.pure_apply]
      cases s.aux.var name with
      | none => rfl
      | some v =>
        simp only [M.pure_apply, M.lift_apply]
        generalize upd2 _ m _ = o
        cases o with
        | ok m' =>
          simp only
          generalize upd2 _ v _ = o
          cases o <;> rfl
        | throw _ => rfl
        | ub _ => rfl
  have := history_lr (fun a => a.lr) adamSetLr adamStep (fun _ _ => rfl)
    (fun params s => eachTrainable_lr (fun a => a.lr) adamBody hb params _) calls
    ⟨store, Adam.create store params lr0 b0 b1 eps t0⟩
  simp only at this
  simp only [adamGetLr, M.bind_apply, M.get_apply, M.pure_apply]
  rw [this]; rfl

/-- Instance of C53. -/
example : lastLr 1 [.step demoParams, .setLr 3, .step [], .setLr 2, .change id] = 2 := by
  simp [lastLr]

end

end DW.Props.OptP
