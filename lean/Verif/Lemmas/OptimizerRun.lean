import Verif.Lemmas.Optimizer
import Verif.Spec.Optimizer
/-! Histories of optimizer steps. -/

set_option autoImplicit false

namespace DW.OptL

open DW DW.Optim

/-- The caller's part of a round: new gradient values and trainable flags for all parameters. -/
def feed (G : Nat → List ℝ) (T : Nat → Bool) (store : List Parameter) : List Parameter :=
  store.mapIdx fun id p => { p with grad := { p.grad with vals := G id }, trainable := T id }

theorem feed_getElem? {G : Nat → List ℝ} {T : Nat → Bool} {store : List Parameter} {id : Nat} :
    (feed G T store)[id]? = store[id]?.map fun p =>
      { p with grad := { p.grad with vals := G id }, trainable := T id } := by
  simp [feed, List.getElem?_mapIdx]

/-- The map lists distinct existing parameters whose gradients have the shape of the data. -/
structure ParamsOk (store : List Parameter) (params : ParamMap) : Prop where
  names : (params.map Prod.fst).Nodup
  ids : (params.map Prod.snd).Nodup
  ok : ∀ x ∈ params, ∃ p, store[x.2]? = some p ∧ p.grad.shape = p.data.shape ∧
    p.grad.vals.length = p.data.vals.length

/-- A round: `pre` changes the optimizer's own fields, `feed` the parameters, then the loop. -/
def round {σ : Type} (body : String → Parameter → M (Opt σ) (List ℝ)) (params : ParamMap) (pre : σ → σ)
    (G : Nat → List ℝ) (T : Nat → Bool) : M (Opt σ) Unit := do
  M.modify fun s => ⟨feed G T s.store, pre s.aux⟩
  eachTrainable body params

def rounds {σ : Type} (body : String → Parameter → M (Opt σ) (List ℝ)) (params : ParamMap) (pre : Nat → σ → σ)
    (G : Nat → Nat → List ℝ) (T : Nat → Nat → Bool) : Nat → M (Opt σ) Unit
  | 0 => pure ()
  | n + 1 => do
    rounds body params pre G T n
    round body params (pre n) (G n) (T n)

/-- The recurrence for one element. -/
def traj {C E : Type} (cs : Nat → C) (ew : C → ℝ → E → ℝ → ℝ) (en : C → E → ℝ → E) (g : Nat → ℝ)
    (tr : Nat → Bool) (w0 : ℝ) (e0 : E) : Nat → ℝ × E
  | 0 => (w0, e0)
  | n + 1 =>
    let x := traj cs ew en g tr w0 e0 n
    if tr n then (ew (cs n) x.1 x.2 (g n), en (cs n) x.2 (g n)) else x

/-- What is needed to treat an optimizer element by element. -/
structure Elementwise {σ A C : Type} (V : View σ A C) (E : Type) (W : C → A → Parameter → List ℝ)
    (N : C → A → Parameter → A) where
  len : A → Nat → Prop
  nth : A → Nat → Option E
  ew : C → ℝ → E → ℝ → ℝ
  en : C → E → ℝ → E
  len_N : ∀ c a p, len a p.grad.vals.length → len (N c a p) p.grad.vals.length
  len_W : ∀ c a p, len a p.grad.vals.length → p.grad.vals.length = p.data.vals.length →
    (W c a p).length = p.data.vals.length
  nth_N : ∀ c a p i e g, nth a i = some e → p.grad.vals[i]? = some g → nth (N c a p) i = some (en c e g)
  nth_W : ∀ c a p i w e g, p.data.vals[i]? = some w → nth a i = some e → p.grad.vals[i]? = some g →
    (W c a p)[i]? = some (ew c w e g)

theorem rounds_spec {σ A C E : Type} (V : View σ A C) (body : String → Parameter → M (Opt σ) (List ℝ))
    (W : C → A → Parameter → List ℝ) (N : C → A → Parameter → A) (el : Elementwise V E W N)
    (hbody : ∀ (name : String) (p : Parameter) (s : Opt σ) (a : A), V.look s.aux name = some a →
      (el.len a p.grad.vals.length ∧ p.grad.vals.length = p.data.vals.length) →
      body name p s = (.ok (W (V.const s.aux) a p), { s with aux := V.upd s.aux name (N (V.const s.aux) a p) }))
    (pre : Nat → σ → σ) (hpre : ∀ n s k, V.look (pre n s) k = V.look s k)
    (F : Nat → C → C) (hF : ∀ n s, V.const (pre n s) = F n (V.const s))
    (params : ParamMap) (s0 : Opt σ) (hp : ParamsOk s0.store params)
    (h0 : ∀ x ∈ params, ∀ p, s0.store[x.2]? = some p → ∃ a, V.look s0.aux x.1 = some a ∧
      el.len a p.data.vals.length)
    (cs : Nat → C) (hcs0 : cs 0 = F 0 (V.const s0.aux)) (hcs : ∀ n, cs (n + 1) = F (n + 1) (cs n))
    (G : Nat → Nat → List ℝ) (T : Nat → Nat → Bool)
    (hG : ∀ n x, x ∈ params → ∀ p, s0.store[x.2]? = some p → (G n x.2).length = p.data.vals.length) :
    ∀ n, ∃ s, rounds body params pre G T n s0 = (.ok (), s) ∧
      s.store.length = s0.store.length ∧
      (∀ m, n = m + 1 → V.const s.aux = cs m) ∧ (n = 0 → V.const s.aux = V.const s0.aux) ∧
      (∀ x ∈ params, ∀ p0 a0, s0.store[x.2]? = some p0 → V.look s0.aux x.1 = some a0 →
        ∃ p a, s.store[x.2]? = some p ∧ V.look s.aux x.1 = some a ∧
          p.data.shape = p0.data.shape ∧ p.grad.shape = p0.grad.shape ∧
          p.data.vals.length = p0.data.vals.length ∧ el.len a p0.data.vals.length ∧
          ∀ i w0 e0, p0.data.vals[i]? = some w0 → el.nth a0 i = some e0 →
            p.data.vals[i]? = some (traj cs el.ew el.en (fun k => (G k x.2).getD i 0) (fun k => T k x.2) w0 e0 n).1 ∧
            el.nth a i = some (traj cs el.ew el.en (fun k => (G k x.2).getD i 0) (fun k => T k x.2) w0 e0 n).2) ∧
      (∀ id, id ∉ params.map Prod.snd → ∀ p0, s0.store[id]? = some p0 → ∃ p, s.store[id]? = some p ∧
        p.data = p0.data)
  | 0 => by
    refine ⟨s0, rfl, rfl, by simp, by simp, ?_, ?_⟩
    · intro x hx p0 a0 hp0 ha0
      obtain ⟨a, ha, hl⟩ := h0 x hx p0 hp0
      rw [ha0] at ha; cases ha
      exact ⟨p0, a0, hp0, ha0, rfl, rfl, rfl, hl, fun i w0 e0 hw he => ⟨hw, he⟩⟩
    · exact fun id _ p0 h => ⟨p0, h, rfl⟩
  | n + 1 => by
    obtain ⟨s, e, l, c1, c0, ih, fr⟩ := rounds_spec V body W N el hbody pre hpre F hF params s0 hp h0 cs hcs0 hcs
      G T hG n
    set s1 : Opt σ := ⟨feed (G n) (T n) s.store, pre n s.aux⟩ with hs1
    have hconst : V.const s1.aux = cs n := by
      show V.const (pre n s.aux) = cs n
      rw [hF]
      cases n with
      | zero => rw [c0 rfl, hcs0]
      | succ m => rw [c1 m rfl, hcs]
    have hst : ∀ id, s1.store[id]? = s.store[id]?.map fun p : Parameter =>
        ({ p with grad := { p.grad with vals := G n id }, trainable := T n id } : Parameter) := fun id => feed_getElem?
    have hlook : ∀ k, V.look s1.aux k = V.look s.aux k := fun k => hpre n s.aux k
    obtain ⟨s', e', l', k1, k2, k3, k4, k5⟩ := eachTrainable_spec V body W N _ hbody params s1 hp.names hp.ids (by
      intro x hx
      obtain ⟨p0, hp0, hsh, -⟩ := hp.ok x hx
      obtain ⟨a0, ha0, -⟩ := h0 x hx p0 hp0
      obtain ⟨p, a, q1, q2, q3, q4, q5, q6, -⟩ := ih x hx p0 a0 hp0 ha0
      refine ⟨_, by rw [hst, q1]; rfl, fun _ => ⟨by simp only; rw [q3, q4, hsh], a, by rw [hlook, q2], ?_, ?_⟩⟩
      · simp only; rw [hG n x hx p0 hp0]; exact q6
      · simp only; rw [hG n x hx p0 hp0, q5])
    refine ⟨s', ?_, ?_, ?_, by simp, ?_, ?_⟩
    · unfold rounds
      rw [M.bind_ok e]
      unfold round
      rw [M.bind_ok (M.modify_apply _ _)]
      exact e'
    · rw [l', hs1]; simp [feed, l]
    · intro m hm
      cases hm
      rw [k1, hconst]
    · intro x hx p0 a0 hp0 ha0
      obtain ⟨p, a, q1, q2, q3, q4, q5, q6, q7⟩ := ih x hx p0 a0 hp0 ha0
      have hgl := hG n x hx p0 hp0
      cases ht : T n x.2 with
      | true =>
        obtain ⟨r1, r2⟩ := k2 x hx { p with grad := { p.grad with vals := G n x.2 }, trainable := T n x.2 } a
          (by rw [hst, q1]; rfl) ht (by rw [hlook, q2])
        rw [hconst] at r1 r2
        refine ⟨_, _, r1, r2, q3, q4, ?_, ?_, ?_⟩
        · simp only
          rw [el.len_W _ _ _ (by simp only; rw [hgl]; exact q6) (by simp only; rw [hgl, q5])]
          exact q5
        · have := el.len_N (cs n) a { p with grad := { p.grad with vals := G n x.2 }, trainable := T n x.2 }
            (by simp only; rw [hgl]; exact q6)
          simp only at this
          rwa [hgl] at this
        · intro i w0 e0 hw0 he0
          obtain ⟨u1, u2⟩ := q7 i w0 e0 hw0 he0
          have hi : i < (G n x.2).length := by
            rw [hgl]; exact (List.getElem?_eq_some_iff.1 hw0).1
          have hg : (G n x.2)[i]? = some ((G n x.2).getD i 0) := by
            rw [List.getD_eq_getElem?_getD, List.getElem?_eq_getElem hi]; rfl
          simp only [traj, ht, if_true]
          exact ⟨el.nth_W _ _ _ i _ _ _ u1 u2 hg, el.nth_N _ _ _ i _ _ u2 hg⟩
      | false =>
        obtain ⟨r1, r2⟩ := k3 x hx { p with grad := { p.grad with vals := G n x.2 }, trainable := T n x.2 }
          (by rw [hst, q1]; rfl) ht
        refine ⟨_, a, r1, r2.trans ((hlook _).trans q2), q3, q4, q5, q6, ?_⟩
        intro i w0 e0 hw0 he0
        simp only [traj, ht, Bool.false_eq_true, if_false]
        exact q7 i w0 e0 hw0 he0
    · intro id hid p0 hp0
      obtain ⟨p, q1, q2⟩ := fr id hid p0 hp0
      have := k4 id hid
      rw [hst, q1] at this
      exact ⟨_, this, q2⟩

/-! ### The tables of a new optimizer -/

theorem emplaceZeros_ne (store : List Parameter) (name : String) (id : Nat) (t : Table) {k : String} (h : k ≠ name) :
    emplaceZeros store name id t k = t k := by
  unfold emplaceZeros
  cases t name <;> cases store[id]? <;> simp [set_ne _ _ h]

theorem zerosTable_keep (store : List Parameter) : ∀ (params : ParamMap) (t : Table) (k : String) (v : List ℝ),
    t k = some v → zerosTable store params t k = some v
  | [], t, k, v, h => h
  | (name, id) :: rest, t, k, v, h => by
    unfold zerosTable
    apply zerosTable_keep
    by_cases hk : k = name
    · subst hk; simp only [emplaceZeros, h]
    · rw [emplaceZeros_ne _ _ _ _ hk]; exact h

theorem zerosTable_mem (store : List Parameter) : ∀ (params : ParamMap) (t : Table),
    (params.map Prod.fst).Nodup → (∀ x ∈ params, t x.1 = none) →
    ∀ x ∈ params, ∀ p, store[x.2]? = some p →
      zerosTable store params t x.1 = some (List.replicate p.data.vals.length 0)
  | [], _, _, _, x, hx, _, _ => by simp at hx
  | (name, id) :: rest, t, hn, ht, x, hx, p, hp => by
    simp only [List.map_cons, List.nodup_cons] at hn
    rcases List.mem_cons.1 hx with rfl | hx
    · unfold zerosTable
      simp only at hp
      have h0 : t name = none := ht (name, id) (by simp)
      apply zerosTable_keep
      simp [emplaceZeros, h0, hp]
    · unfold zerosTable
      refine zerosTable_mem store rest _ hn.2 ?_ x hx p hp
      intro y hy
      have hne : y.1 ≠ name := fun h => hn.1 (h ▸ List.mem_map_of_mem hy)
      rw [emplaceZeros_ne _ _ _ _ hne]; exact ht y (by simp [hy])

theorem zerosTable_none (store : List Parameter) : ∀ (params : ParamMap) (t : Table) (k : String),
    k ∉ params.map Prod.fst → t k = none → zerosTable store params t k = none
  | [], _, _, _, h => h
  | (name, id) :: rest, t, k, hk, h => by
    simp only [List.map_cons, List.mem_cons, not_or] at hk
    unfold zerosTable
    apply zerosTable_none _ _ _ _ hk.2
    rw [emplaceZeros_ne _ _ _ _ hk.1]; exact h

theorem zip2 {f : ℝ → ℝ → ℝ} {xs ys : List ℝ} {i : Nat} {x y : ℝ} (hx : xs[i]? = some x) (hy : ys[i]? = some y) :
    (List.zipWith f xs ys)[i]? = some (f x y) := by
  simp [List.getElem?_zipWith, hx, hy]

noncomputable def sgdEl : Elementwise sgdView Unit
    (fun c _ p => List.zipWith (fun w g => w - c * g) p.data.vals p.grad.vals) (fun _ a _ => a) where
  len _ _ := True
  nth _ _ := some ()
  ew c w _ g := w - c * g
  en _ e _ := e
  len_N _ _ _ _ := trivial
  len_W c a p _ h := by simp [h]
  nth_N _ _ _ _ _ _ _ _ := rfl
  nth_W c a p i w e g hw _ hg := zip2 hw hg

noncomputable def momentumEl : Elementwise momentumView ℝ
    (fun c v p => List.zipWith (fun w v => w - v) p.data.vals (nextVel c v p)) nextVel where
  len v n := v.length = n
  nth v i := v[i]?
  ew c w v g := w - (c.2 * v + c.1 * g)
  en c v g := c.2 * v + c.1 * g
  len_N c v p h := by simp [nextVel, h]
  len_W c v p h h' := by simp [nextVel, h, h']
  nth_N c v p i e g he hg := zip2 he hg
  nth_W c v p i w e g hw he hg := zip2 (f := fun w v => w - v) hw (zip2 he hg)

noncomputable def adamEl : Elementwise adamView (ℝ × ℝ) adamW
    (fun c a p => (nextMean c a.1 p, nextVar c a.2 p)) where
  len a n := a.1.length = n ∧ a.2.length = n
  nth a i := match a.1[i]?, a.2[i]? with
    | some m, some v => some (m, v)
    | _, _ => none
  ew c w e g := w - c.1 * ((c.2.1 * e.1 + (1 - c.2.1) * g) / (1 - c.2.1 ^ c.2.2.2.2)) /
    (Real.sqrt ((c.2.2.1 * e.2 + (1 - c.2.2.1) * (g * g)) / (1 - c.2.2.1 ^ c.2.2.2.2)) + c.2.2.2.1)
  en c e g := (c.2.1 * e.1 + (1 - c.2.1) * g, c.2.2.1 * e.2 + (1 - c.2.2.1) * (g * g))
  len_N c a p h := by simp [nextMean, nextVar, h.1, h.2]
  len_W c a p h h' := by simp [adamW, nextMean, nextVar, h.1, h.2, h']
  nth_N c a p i e g he hg := by
    cases h1 : a.1[i]? <;> cases h2 : a.2[i]? <;> simp only [h1, h2, reduceCtorEq, Option.some.injEq] at he
    subst he
    simp only [nextMean, nextVar, zip2 h1 hg, zip2 h2 hg]
  nth_W c a p i w e g hw he hg := by
    cases h1 : a.1[i]? <;> cases h2 : a.2[i]? <;> simp only [h1, h2, reduceCtorEq, Option.some.injEq] at he
    subst he
    refine zip2 (f := fun w d => w - d) hw ?_
    refine zip2 ?_ ?_
    · rw [List.getElem?_map, nextMean, zip2 h1 hg]; rfl
    · rw [List.getElem?_map, nextVar, zip2 h2 hg]; rfl

end DW.OptL
