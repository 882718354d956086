import Verif.Spec.Contract
import Verif.Spec.Elems
import Verif.Lemmas.Flat
import Verif.Lemmas.Deriv
import Verif.Lemmas.Network
import Verif.Lemmas.Norm
/-! # Building contracts of layers with one input -/

set_option autoImplicit false

namespace DW.ContractL

open DW DW.Spec DW.MatL DW.FlatL DW.DerivL DW.Props.ElementwiseP

/-! ### Layouts of tensors -/

@[simp] theorem arr_elems {s : Shape} {ι : Type} (E : Fin (size s) ≃ ι) (y : ι → ℝ) : arr E (elems E y) = y := by
  funext i; simp [arr, elems]

@[simp] theorem elems_arr {s : Shape} {ι : Type} (E : Fin (size s) ≃ ι) (u : Elems s) : elems E (arr E u) = u := by
  funext i; simp [arr, elems]

theorem ofFn_mat {N m n : Nat} (h : N = m * n) (y : Fin m × Fin n → ℝ) :
    (List.ofFn fun k => y (matE h k)) = rowMajor (Function.curry y) := by
  subst h; rfl

theorem ofFn_img {N a b c d : Nat} (h : N = a * (b * (c * d))) (y : Fin a × Fin b × Fin c × Fin d → ℝ) :
    (List.ofFn fun k => y (imgE h k)) = flat4 (arr4 y) := by
  subst h; rfl

theorem ofFn_sum {P m n : Nat} (h : P = m + n) (y : Fin m ⊕ Fin n → ℝ) :
    (List.ofFn fun k => y (sumE h k)) = (List.ofFn fun i => y (.inl i)) ++ List.ofFn fun j => y (.inr j) := by
  subst h
  rw [← List.ofFn_fin_append]
  congr 1
  funext k
  refine Fin.addCases (fun i => ?_) (fun j => ?_) k
  · simp [sumE]
  · simp [sumE]

/-! ### Gradients -/

section

variable {ι κ lam μ : Type} [Fintype ι] [Fintype κ] [Fintype lam] [Fintype μ]

theorem backprop_unary {s o : Shape} {f : (ι → ℝ) → (κ → ℝ)} (E : Fin (size s) ≃ ι) (F : Fin (size o) ≃ κ) {x : Elems s}
    {bwd : (κ → ℝ) → (ι → ℝ)} (h : Backprop f (arr E x) bwd) :
    Backprop (fun y : Elems s => elems F (f (arr E y))) x fun g => elems E (bwd (arr F g)) := by
  have h1 := NormL.backprop_reindex (κ' := Fin (size o)) (ι' := Fin (size s)) h E F
  have h2 : (fun i => arr E x (E i)) = x := elems_arr E x
  rw [h2] at h1
  exact h1

theorem differentiable_unary {s o : Shape} {f : (ι → ℝ) → (κ → ℝ)} (E : Fin (size s) ≃ ι) (F : Fin (size o) ≃ κ) {x : Elems s}
    (h : DifferentiableAt ℝ (fun y : Elems s => elems F (f (arr E y))) x) : DifferentiableAt ℝ f (arr E x) := by
  have hx : elems E (arr E x) = x := elems_arr E x
  have h0 : DifferentiableAt ℝ (fun y : Elems s => elems F (f (arr E y))) (elems E (arr E x)) := by rw [hx]; exact h
  have h1 : DifferentiableAt ℝ (fun y : ι → ℝ => elems (s := s) E y) (arr E x) :=
    differentiableAt_pi.2 fun i => differentiableAt_apply (E i) _
  have h2 := DifferentiableAt.comp (arr E x) (g := fun y : Elems s => elems F (f (arr E y))) h0 h1
  refine differentiableAt_pi.2 fun k => ?_
  have h3 := differentiableAt_pi.1 h2 (F.symm k)
  refine h3.congr_of_eventuallyEq (Filter.Eventually.of_forall fun y => ?_)
  simp only [Function.comp_apply, arr_elems]
  simp [elems]

/-- An element-wise function is differentiable only where it is at each element. -/
theorem differentiable_map {f : ℝ → ℝ} {x : ι → ℝ} (h : DifferentiableAt ℝ (fun (y : ι → ℝ) i => f (y i)) x) (i : ι) :
    DifferentiableAt ℝ f (x i) := by
  classical
  have hx : Function.update x i (x i) = x := Function.update_eq_self i x
  have h0 : DifferentiableAt ℝ (fun (y : ι → ℝ) i => f (y i)) (Function.update x i (x i)) := by rw [hx]; exact h
  have h1 : DifferentiableAt ℝ (fun t : ℝ => Function.update x i t) (x i) := (hasFDerivAt_update x (x i)).differentiableAt
  have h2 := DifferentiableAt.comp (x i) (g := fun (y : ι → ℝ) i => f (y i)) h0 h1
  have h3 := differentiableAt_pi.1 h2 i
  refine h3.congr_of_eventuallyEq (Filter.Eventually.of_forall fun t => ?_)
  simp

/-- Parameters in a list, a function of them. -/
theorem backprop_param {P : Nat} {o : Shape} {f : (ι → ℝ) → (κ → ℝ)} (E : Fin P ≃ ι) (F : Fin (size o) ≃ κ) {x : Fin P → ℝ}
    {bwd : (κ → ℝ) → (ι → ℝ)} (h : Backprop f (fun i => x (E.symm i)) bwd) :
    Backprop (fun (y : Fin P → ℝ) => elems F (f fun i => y (E.symm i))) x fun g k => bwd (arr F g) (E k) := by
  have h1 := NormL.backprop_reindex (κ' := Fin (size o)) (ι' := Fin P) h E F
  have h2 : (fun i => x (E.symm (E i))) = x := by funext i; simp
  rw [h2] at h1
  exact h1

/-- A function of two groups of parameters that is affine in the second. -/
theorem backprop_sum {f : (ι ⊕ lam → ℝ) → (κ → ℝ)} {x : ι ⊕ lam → ℝ} {f1 : (ι → ℝ) → (κ → ℝ)} {f2 : (lam → ℝ) → (κ → ℝ)}
    {c : κ → ℝ} {b1 : (κ → ℝ) → (ι → ℝ)} {b2 : (κ → ℝ) → (lam → ℝ)}
    (hf : ∀ y k, f y k = f1 (fun i => y (.inl i)) k + f2 (fun j => y (.inr j)) k + c k)
    (h1 : Backprop f1 (fun i => x (.inl i)) b1) (h2 : Backprop f2 (fun j => x (.inr j)) b2) :
    Backprop f x fun g => Sum.elim (b1 g) (b2 g) := by
  obtain ⟨J1, hJ1, e1⟩ := h1
  obtain ⟨J2, hJ2, e2⟩ := h2
  let p1 : (ι ⊕ lam → ℝ) →L[ℝ] (ι → ℝ) := ContinuousLinearMap.pi fun i => ContinuousLinearMap.proj (Sum.inl i)
  let p2 : (ι ⊕ lam → ℝ) →L[ℝ] (lam → ℝ) := ContinuousLinearMap.pi fun i => ContinuousLinearMap.proj (Sum.inr i)
  have d1 : HasFDerivAt (fun y => f1 (p1 y)) (J1.comp p1) x := HasFDerivAt.comp x (g := f1) (f := p1) hJ1 p1.hasFDerivAt
  have d2 : HasFDerivAt (fun y => f2 (p2 y)) (J2.comp p2) x := HasFDerivAt.comp x (g := f2) (f := p2) hJ2 p2.hasFDerivAt
  refine ⟨J1.comp p1 + J2.comp p2, ?_, fun g v => ?_⟩
  · have := (d1.add d2).add_const c
    refine this.congr_of_eventuallyEq (Filter.Eventually.of_forall fun y => ?_)
    funext k
    exact hf y k
  · have : ∀ k, g k * (J1.comp p1 + J2.comp p2) v k = g k * J1 (p1 v) k + g k * J2 (p2 v) k := fun k => by
      simp [mul_add]
    simp only [this, Finset.sum_add_distrib]
    rw [e1, e2, Fintype.sum_sum_type]
    rfl

/-- No parameters. -/
theorem backprop_empty {f : (Fin 0 → ℝ) → (κ → ℝ)} (x : Fin 0 → ℝ) (b : (κ → ℝ) → Fin 0 → ℝ) : Backprop f x b := by
  refine ⟨0, ?_, fun g v => by simp⟩
  have : f = fun _ => f x := by funext y; congr 1; exact Subsingleton.elim _ _
  rw [this]
  exact hasFDerivAt_const _ _

/-- One argument. -/
theorem backpropN_one {s o : Shape} {f : Elems s → Elems o} {X : Args fun _ : Fin 1 => s} {b : Elems o → Elems s}
    (h : Backprop f (X 0) b) : BackpropN (fun X : Args fun _ : Fin 1 => s => f (X 0)) X fun g _ => b g := by
  obtain ⟨J, hJ, e⟩ := h
  let p : (Args fun _ : Fin 1 => s) →L[ℝ] Elems s := ContinuousLinearMap.proj (0 : Fin 1)
  refine ⟨J.comp p, HasFDerivAt.comp X (g := f) (f := p) hJ p.hasFDerivAt, fun g V => ?_⟩
  rw [Fin.sum_univ_one]
  exact e g (V 0)

end

/-! ### Layers with one input -/

/-- A contract for a layer with one input (see `Spec.Contract`). -/
structure Single (s o : Shape) (P : Nat) (fn : (Fin P → ℝ) → Elems s → Elems o) (θ : Fin P → ℝ) where
  env : Env → Prop := fun _ => True
  overwrites : Prop := False
  Ready : Cpu → Prop
  After : Elems s → (Elems o → Elems s) → (Elems o → Fin P → ℝ) → Cpu → Prop
  params : ∀ {l}, Ready l → l.params = List.ofFn θ
  ready : ∀ {x bk pk l}, After x bk pk l → Ready l
  det : ∀ {x bk pk bk' pk' l l'}, After x bk pk l → After x bk' pk' l' → bk = bk' ∧ pk = pk'
  regradReady : ∀ {l}, Ready l → ∀ v : List ℝ, v.length = l.grads.length → Ready (l.setGrads v)
  regrad : ∀ {x bk pk l}, After x bk pk l → ∀ v : List ℝ, v.length = l.grads.length → After x bk pk (l.setGrads v)
  forward : ∀ {ev l}, env ev → Ready l → ∀ (x : Elems s) (old : List ℝ), old.length = size o →
    ∃ l' bk pk, l.forward ev [⟨s, List.ofFn x⟩] [⟨o, old⟩] = .ok (l', List.ofFn (fn θ x)) ∧ After x bk pk l'
  update : ∀ {x bk pk l}, After x bk pk l → ∀ g : Elems o,
    ∃ l', l.updateGradients [⟨s, List.ofFn x⟩] [⟨o, List.ofFn g⟩] = .ok l' ∧ After x bk pk l' ∧ l'.grads = List.ofFn (pk g)
  backward : ∀ {ev x bk pk l}, After x bk pk l → ∀ (g : Elems o) (store : List Buf) (h : Nat) (A : Elems s),
    store[h]? = some ⟨s, List.ofFn A⟩ →
    ∃ l' A', (overwrites → A' = 0) ∧ (¬ overwrites → A' = A) ∧
      l.backward ev [⟨s, List.ofFn x⟩] [⟨o, List.ofFn (fn θ x)⟩] [⟨o, List.ofFn g⟩] [h] store =
        .ok (l', store.set h ⟨s, List.ofFn fun i => A' i + bk g i⟩) ∧ After x bk pk l' ∧ l'.grads = l.grads

theorem added_set {s : Shape} {store : List Buf} {h : Nat} {A B : Elems s} (hs : store[h]? = some ⟨s, List.ofFn A⟩) :
    Added store (store.set h ⟨s, List.ofFn fun i => A i + B i⟩) fun h' k => if h = h' then entry B k else 0 := by
  refine ⟨by simp, fun h' b hb => ?_⟩
  by_cases hh : h = h'
  · subst hh
    rw [hs] at hb
    cases hb
    refine ⟨_, List.getElem?_set_self (List.getElem?_eq_some_iff.1 hs).1, rfl, by simp, fun k v hv => ?_⟩
    obtain ⟨hk, hv⟩ := List.getElem?_eq_some_iff.1 hv
    simp only [List.length_ofFn] at hk
    beta_reduce
    rw [if_pos rfl, entry, dif_pos hk]
    simp only [List.getElem_ofFn] at hv
    rw [List.getElem?_eq_getElem (by simpa using hk), List.getElem_ofFn, hv]
  · exact ⟨b, by rw [List.getElem?_set_ne hh]; exact hb, rfl, rfl, fun k v hv => by beta_reduce; rw [if_neg hh, hv, add_zero]⟩

theorem writeFront_eq {s : Shape} {store : List Buf} {h : Nat} {v : List ℝ} (hs : store[h]? = some ⟨s, v⟩)
    {f : Buf → Out (Cpu × List ℝ)} {l : Cpu} {r : List ℝ} (hf : f ⟨s, v⟩ = .ok (l, r)) :
    Cpu.writeFront [h] store f = .ok (l, store.set h ⟨s, r⟩) := by
  unfold Cpu.writeFront
  simp [Out.idx, hs, hf, Buf.put]

theorem no_params {α : Type} (p q : α → Fin 0 → ℝ) : p = q := funext fun _ => funext fun i => i.elim0

theorem setGrads_nil {l : Cpu} (h : l.grads = []) {v : List ℝ} (hv : v.length = l.grads.length) : l.setGrads v = l := by
  rw [h] at hv
  obtain rfl := List.eq_nil_of_length_eq_zero hv
  cases l with
  | linear st | convolution st =>
    obtain ⟨w, b, ⟨s1, v1⟩, ⟨s2, v2⟩⟩ := st
    simp only [Cpu.grads, List.append_eq_nil_iff] at h
    obtain ⟨rfl, rfl⟩ := h
    rfl
  | batchNorm1D st | batchNorm2D st =>
    obtain ⟨g, b, ⟨s1, v1⟩, ⟨s2, v2⟩⟩ := st
    simp only [Cpu.grads, List.append_eq_nil_iff] at h
    obtain ⟨rfl, rfl⟩ := h
    rfl
  | _ => rfl

theorem cleared_refl {c : Prop} (hc : ¬ c) {gis : List Nat} {store : List Buf} : Cleared c gis store store :=
  fun _ => ⟨fun h => absurd h.1 hc, fun _ => rfl⟩

/-- As a contract. -/
def Single.contract {s o : Shape} {P : Nat} {fn : (Fin P → ℝ) → Elems s → Elems o} {θ : Fin P → ℝ} (K : Single s o P fn θ) :
    Contract (fun _ : Fin 1 => s) o P (fun t X => fn t (X 0)) θ where
  env := K.env
  overwrites := K.overwrites
  Ready := K.Ready
  After X bk pk l := ∃ b, K.After (X 0) b pk l ∧ bk = fun g _ => b g
  params := K.params
  ready := fun ⟨_, h, _⟩ => K.ready h
  det := fun ⟨b, h, e⟩ ⟨b', h', e'⟩ => by
    obtain ⟨rfl, rfl⟩ := K.det h h'
    exact ⟨e.trans e'.symm, rfl⟩
  regradReady := K.regradReady
  regrad := fun ⟨b, h, e⟩ v hv => ⟨b, K.regrad h v hv, e⟩
  forward := fun he hr X old ho => by
    obtain ⟨l', bk, pk, h1, h2⟩ := K.forward he hr (X 0) old ho
    exact ⟨l', _, pk, h1, bk, h2, rfl⟩
  update := fun ⟨b, h, e⟩ g => by
    obtain ⟨l', h1, h2, h3⟩ := K.update h g
    exact ⟨l', h1, ⟨b, h2, e⟩, h3⟩
  backward := fun ⟨b, h, e⟩ g gis store hn hst => by
    subst e
    match gis, hn with
    | [i], _ =>
    obtain ⟨A, hA⟩ := hst 0
    obtain ⟨l', A', ho, hno, h1, h2, h3⟩ := K.backward h g store i A hA
    have hlt : i < store.length := (List.getElem?_eq_some_iff.1 hA).1
    have hA' : (store.set i ⟨s, List.ofFn A'⟩)[i]? = some ⟨s, List.ofFn A'⟩ := List.getElem?_set_self hlt
    refine ⟨l', store.set i ⟨s, List.ofFn A'⟩, _, h1, ⟨b, h2, rfl⟩, h3, fun h' => ⟨fun hc => ?_, fun hc => ?_⟩, ?_⟩
    · obtain rfl : h' = i := by simpa using hc.2
      have hA2 : store[h']? = some ⟨s, List.ofFn A⟩ := hA
      rw [hA', hA2, ho hc.1, Option.map_some, Buf.put, List.length_ofFn]
      congr 2
      refine List.ext_getElem (by simp) fun i h1 h2 => by simp
    · by_cases hi : h' = i
      · subst hi
        have hA2 : store[h']? = some ⟨s, List.ofFn A⟩ := hA
        rw [hA', hA2, hno fun hov => hc ⟨hov, by simp⟩]
      · exact List.getElem?_set_ne (fun h => hi h.symm)
    · have := added_set (B := b g) hA'
      rw [List.set_set] at this
      refine this.congr fun h' k => ?_
      rw [Fin.sum_univ_one]
      rfl

end DW.ContractL
