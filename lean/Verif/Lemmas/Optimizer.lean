import Verif.Model.Optimizer
import Mathlib.Data.List.Nodup
/-! Helper lemmas about the optimizers. -/

set_option autoImplicit false

namespace DW.OptL

open DW DW.Optim

theorem upd2_ok {f : ℝ → ℝ → ℝ} {xs gs : List ℝ} (h : gs.length = xs.length) :
    upd2 f xs gs = .ok (List.zipWith f xs gs) := by
  unfold upd2
  rw [if_pos (by omega), h]; simp

/-- How a `step` body sees and changes the optimizer's own fields: one entry per parameter name, and
constants that no body changes. -/
structure View (σ A C : Type) where
  look : σ → String → Option A
  upd : σ → String → A → σ
  const : σ → C
  look_same : ∀ s k a, look (upd s k a) k = some a
  look_ne : ∀ s k k' a, k' ≠ k → look (upd s k a) k' = look s k'
  const_upd : ∀ s k a, const (upd s k a) = const s

variable {σ A C : Type}

/-- The loop applies the body once to each trainable parameter and touches nothing else. -/
theorem eachTrainable_spec (V : View σ A C) (body : String → Parameter → M (Opt σ) (List ℝ))
    (W : C → A → Parameter → List ℝ) (N : C → A → Parameter → A) (good : A → Parameter → Prop)
    (hbody : ∀ (name : String) (p : Parameter) (s : Opt σ) (a : A), V.look s.aux name = some a → good a p →
      body name p s = (.ok (W (V.const s.aux) a p), { s with aux := V.upd s.aux name (N (V.const s.aux) a p) })) :
    ∀ (l : ParamMap) (s : Opt σ), (l.map Prod.fst).Nodup → (l.map Prod.snd).Nodup →
      (∀ x ∈ l, ∃ p, s.store[x.2]? = some p ∧ (p.trainable = true → p.grad.shape = p.data.shape ∧
        ∃ a, V.look s.aux x.1 = some a ∧ good a p)) →
      ∃ s', eachTrainable body l s = (.ok (), s') ∧ s'.store.length = s.store.length ∧
        V.const s'.aux = V.const s.aux ∧
        (∀ x ∈ l, ∀ p a, s.store[x.2]? = some p → p.trainable = true → V.look s.aux x.1 = some a →
          s'.store[x.2]? = some { p with data := { p.data with vals := W (V.const s.aux) a p } } ∧
          V.look s'.aux x.1 = some (N (V.const s.aux) a p)) ∧
        (∀ x ∈ l, ∀ p, s.store[x.2]? = some p → p.trainable = false →
          s'.store[x.2]? = some p ∧ V.look s'.aux x.1 = V.look s.aux x.1) ∧
        (∀ i, i ∉ l.map Prod.snd → s'.store[i]? = s.store[i]?) ∧
        (∀ k, k ∉ l.map Prod.fst → V.look s'.aux k = V.look s.aux k)
  | [], s, _, _, _ => ⟨s, rfl, rfl, rfl, by simp, by simp, by simp, by simp⟩
  | (name, id) :: rest, s, hn, hi, hok => by
    obtain ⟨p, hp, hpt⟩ := hok (name, id) (by simp)
    simp only at hp hpt
    simp only [List.map_cons, List.nodup_cons] at hn hi
    cases ht : p.trainable with
    | false =>
      obtain ⟨s', e, h1, h2, h3, h4, h5, h6⟩ := eachTrainable_spec V body W N good hbody rest s hn.2 hi.2
        (fun x hx => hok x (by simp [hx]))
      refine ⟨s', ?_, h1, h2, ?_, ?_, ?_, ?_⟩
      · unfold eachTrainable
        rw [M.bind_ok (M.get_apply s)]
        simp only [hp, ht, Bool.false_eq_true, if_false]
        exact e
      · intro x hx q a hq hqt ha
        rcases List.mem_cons.1 hx with rfl | hx
        · simp only at hq; rw [hp] at hq; cases hq; rw [ht] at hqt; cases hqt
        · exact h3 x hx q a hq hqt ha
      · intro x hx q hq hqt
        rcases List.mem_cons.1 hx with rfl | hx
        · exact ⟨(h5 _ hi.1).trans hq, h6 _ hn.1⟩
        · exact h4 x hx q hq hqt
      · intro i hii
        simp only [List.map_cons, List.mem_cons, not_or] at hii
        exact h5 i hii.2
      · intro k hk
        simp only [List.map_cons, List.mem_cons, not_or] at hk
        exact h6 k hk.2
    | true =>
      obtain ⟨hsh, a, ha, hg⟩ := hpt ht
      have hb := hbody name p s a ha hg
      set w := W (V.const s.aux) a p with hw
      set s1 : Opt σ := ⟨s.store.set id { p with data := { p.data with vals := w } },
        V.upd s.aux name (N (V.const s.aux) a p)⟩ with hs1
      have hlen := (List.getElem?_eq_some_iff.1 hp).1
      have store_ne : ∀ i, i ≠ id → s1.store[i]? = s.store[i]? := fun i hne => by
        simp only [hs1]; exact List.getElem?_set_ne (Ne.symm hne)
      have hc : V.const s1.aux = V.const s.aux := V.const_upd _ _ _
      have restNe : ∀ x ∈ rest, x.2 ≠ id ∧ x.1 ≠ name := fun x hx =>
        ⟨fun h => hi.1 (h ▸ List.mem_map_of_mem hx), fun h => hn.1 (h ▸ List.mem_map_of_mem hx)⟩
      obtain ⟨s', e, h1, h2, h3, h4, h5, h6⟩ := eachTrainable_spec V body W N good hbody rest s1 hn.2 hi.2
        (fun x hx => by
          obtain ⟨n1, n2⟩ := restNe x hx
          obtain ⟨q, hq, hqt⟩ := hok x (by simp [hx])
          refine ⟨q, (store_ne _ n1).trans hq, fun h => ?_⟩
          obtain ⟨u1, a', u2, u3⟩ := hqt h
          exact ⟨u1, a', (V.look_ne _ _ _ _ n2).trans u2, u3⟩)
      refine ⟨s', ?_, ?_, h2.trans hc, ?_, ?_, ?_, ?_⟩
      · unfold eachTrainable
        rw [M.bind_ok (M.get_apply s)]
        simp only [hp, ht, if_true]
        have hk : (p.grad.shape == p.data.shape) = true := by rw [hsh]; simp
        rw [hk, M.bind_ok (M.check_true_apply _), M.bind_ok hb, M.bind_ok (M.modify_apply _ _)]
        rw [← e, hs1]; simp only [ht]
      · rw [h1]; simp [hs1]
      · intro x hx q b hq hqt hb'
        rcases List.mem_cons.1 hx with rfl | hx
        · simp only at hq hb'
          rw [hp] at hq; cases hq
          rw [ha] at hb'; cases hb'
          refine ⟨(h5 _ hi.1).trans ?_, (h6 _ hn.1).trans (V.look_same _ _ _)⟩
          simp only [hs1]
          rw [List.getElem?_set_self hlen]
        · obtain ⟨n1, n2⟩ := restNe x hx
          have := h3 x hx q b ((store_ne _ n1).trans hq) hqt ((V.look_ne _ _ _ _ n2).trans hb')
          rwa [hc] at this
      · intro x hx q hq hqt
        rcases List.mem_cons.1 hx with rfl | hx
        · simp only at hq; rw [hp] at hq; cases hq; rw [ht] at hqt; cases hqt
        · obtain ⟨n1, n2⟩ := restNe x hx
          obtain ⟨u1, u2⟩ := h4 x hx q ((store_ne _ n1).trans hq) hqt
          exact ⟨u1, u2.trans (V.look_ne _ _ _ _ n2)⟩
      · intro i hii
        simp only [List.map_cons, List.mem_cons, not_or] at hii
        exact (h5 i hii.2).trans (store_ne i hii.1)
      · intro k hk
        simp only [List.map_cons, List.mem_cons, not_or] at hk
        exact (h6 k hk.2).trans (V.look_ne _ _ _ _ hk.1)

/-! ### The three optimizers as views -/

def sgdView : View ℝ Unit ℝ where
  look _ _ := some ()
  upd s _ _ := s
  const s := s
  look_same _ _ _ := rfl
  look_ne _ _ _ _ _ := rfl
  const_upd _ _ _ := rfl

theorem sgd_body (name : String) (p : Parameter) (s : Opt ℝ) (a : Unit) (_ : sgdView.look s.aux name = some a)
    (hg : p.grad.vals.length = p.data.vals.length) :
    sgdBody name p s = (.ok (List.zipWith (fun w g => w - s.aux * g) p.data.vals p.grad.vals),
      { s with aux := sgdView.upd s.aux name () }) := by
  unfold sgdBody
  rw [M.bind_ok (M.get_apply s), M.lift_apply, upd2_ok hg]; rfl

@[simp] theorem set_same (t : Table) (k : String) (v : List ℝ) : t.set k v k = some v := by simp [Table.set]

theorem set_ne (t : Table) {k k' : String} (v : List ℝ) (h : k' ≠ k) : t.set k v k' = t k' := by
  simp [Table.set, h]

def momentumView : View Momentum (List ℝ) (ℝ × ℝ) where
  look s k := s.vel k
  upd s k v := { s with vel := s.vel.set k v }
  const s := (s.lr, s.gamma)
  look_same _ _ _ := set_same _ _ _
  look_ne _ _ _ _ h := set_ne _ _ h
  const_upd _ _ _ := rfl

/-- The velocity after one step. -/
noncomputable def nextVel (c : ℝ × ℝ) (v : List ℝ) (p : Parameter) : List ℝ :=
  List.zipWith (fun v g => c.2 * v + c.1 * g) v p.grad.vals

theorem momentum_body (name : String) (p : Parameter) (s : Opt Momentum) (v : List ℝ)
    (hl : momentumView.look s.aux name = some v)
    (hg : v.length = p.grad.vals.length ∧ p.grad.vals.length = p.data.vals.length) :
    momentumBody name p s = (.ok (List.zipWith (fun w v => w - v) p.data.vals
        (nextVel (momentumView.const s.aux) v p)),
      { s with aux := momentumView.upd s.aux name (nextVel (momentumView.const s.aux) v p) }) := by
  have hlen : (nextVel (momentumView.const s.aux) v p).length = p.grad.vals.length := by
    simp [nextVel, hg.1]
  unfold momentumBody
  have h1 : tableAt s.aux.vel name s = (.ok v, s) := by
    have : s.aux.vel name = some v := hl
    simp [tableAt, this]
  rw [M.bind_ok (M.get_apply s), M.bind_ok h1, upd2_ok hg.1.symm, M.bind_ok (M.lift_apply _ _),
    M.bind_ok (M.modify_apply _ _), M.lift_apply]
  show (upd2 _ _ (List.take _ (nextVel (momentumView.const s.aux) v p)), _) = _
  rw [List.take_of_length_le (by omega), upd2_ok (by omega)]
  rfl

def adamView : View Adam (List ℝ × List ℝ) (ℝ × ℝ × ℝ × ℝ × Nat) where
  look s k := match s.mean k, s.var k with
    | some m, some v => some (m, v)
    | _, _ => none
  upd s k a := { s with mean := s.mean.set k a.1, var := s.var.set k a.2 }
  const s := (s.lr, s.beta0, s.beta1, s.eps, s.t)
  look_same _ _ _ := by simp
  look_ne _ _ _ _ h := by simp [set_ne _ _ h]
  const_upd _ _ _ := rfl

noncomputable def nextMean (c : ℝ × ℝ × ℝ × ℝ × Nat) (m : List ℝ) (p : Parameter) : List ℝ :=
  List.zipWith (fun m g => c.2.1 * m + (1 - c.2.1) * g) m p.grad.vals

noncomputable def nextVar (c : ℝ × ℝ × ℝ × ℝ × Nat) (v : List ℝ) (p : Parameter) : List ℝ :=
  List.zipWith (fun v g => c.2.2.1 * v + (1 - c.2.2.1) * (g * g)) v p.grad.vals

/-- The weights after one Adam step. -/
noncomputable def adamW (c : ℝ × ℝ × ℝ × ℝ × Nat) (a : List ℝ × List ℝ) (p : Parameter) : List ℝ :=
  List.zipWith (fun w d => w - d) p.data.vals
    (List.zipWith (fun mh vh => c.1 * mh / (Real.sqrt vh + c.2.2.2.1))
      ((nextMean c a.1 p).map fun m => m / (1 - c.2.1 ^ c.2.2.2.2))
      ((nextVar c a.2 p).map fun v => v / (1 - c.2.2.1 ^ c.2.2.2.2)))

theorem adam_body (name : String) (p : Parameter) (s : Opt Adam) (a : List ℝ × List ℝ)
    (hl : adamView.look s.aux name = some a)
    (hg : a.1.length = p.grad.vals.length ∧ a.2.length = p.grad.vals.length ∧
      p.grad.vals.length = p.data.vals.length) :
    adamBody name p s = (.ok (adamW (adamView.const s.aux) a p),
      ⟨s.store, adamView.upd s.aux name
        (nextMean (adamView.const s.aux) a.1 p, nextVar (adamView.const s.aux) a.2 p)⟩) := by
  obtain ⟨hg1, hg2, hg3⟩ := hg
  have hm : s.aux.mean name = some a.1 ∧ s.aux.var name = some a.2 := by
    simp only [adamView] at hl
    cases h1 : s.aux.mean name <;> cases h2 : s.aux.var name <;> rw [h1, h2] at hl <;> simp at hl
    subst hl; simp
  have h1 : tableAt s.aux.mean name s = (.ok a.1, s) := by simp [tableAt, hm.1]
  have h2 : tableAt s.aux.var name s = (.ok a.2, s) := by simp [tableAt, hm.2]
  have l1 : (nextMean (adamView.const s.aux) a.1 p).length = p.grad.vals.length := by simp [nextMean, hg1]
  have l2 : (nextVar (adamView.const s.aux) a.2 p).length = p.grad.vals.length := by simp [nextVar, hg2]
  unfold adamBody
  rw [M.bind_ok (M.get_apply s)]
  simp only
  rw [M.bind_ok h1, M.bind_ok h2, upd2_ok hg1.symm, M.bind_ok (M.lift_apply _ _),
    upd2_ok hg2.symm, M.bind_ok (M.lift_apply _ _), M.bind_ok (M.modify_apply _ _), M.lift_apply]
  show (upd2 _ _ (List.zipWith _ (List.map _ (List.take _ (nextMean (adamView.const s.aux) a.1 p)))
    (List.map _ (List.take _ (nextVar (adamView.const s.aux) a.2 p)))), _) = _
  rw [List.take_of_length_le (by omega), List.take_of_length_le (by omega), upd2_ok (by simp [l1, l2, hg3])]
  rfl

end DW.OptL
