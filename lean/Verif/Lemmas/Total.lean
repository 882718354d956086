import Mathlib.Analysis.Calculus.FDeriv.Prod
import Mathlib.Analysis.Calculus.FDeriv.Comp
import Mathlib.Analysis.Calculus.FDeriv.Pi
import Verif.Lemmas.Network
/-!
# All parameters at once

What reverse accumulation gives when the parameters of all layers move together.
-/

set_option autoImplicit false

namespace DW.NetL

open DW DW.Spec

variable {N : Net} {θ : N.Params} {D outs : Finset Nat} {v gout base G : N.Val}

/-- The sum of `<G y, V y>` over all placeholders, by the uses of the placeholders. -/
theorem sum_accumulated (hD : Closed N D)
    {bk : (x : Nat) → Elems (N.shape x) → Args (fun j : Fin (N.args x).length => N.shape (N.args x)[j])}
    (hout : outs ⊆ D) (hb : ∀ y ∈ D, base y = if y ∈ outs then gout y else 0)
    (hG : ∀ y ∈ D, N.Accumulates bk base G y) (V : N.Val) :
    ∑ y ∈ D, ∑ i, G y i * V y i = ∑ o ∈ outs, ∑ i, gout o i * V o i +
      ∑ x ∈ N.made, ∑ j : Fin (N.args x).length, ∑ i, bk x (G x) j i * V (N.args x)[j] i := by
  classical
  have h1 : ∀ y ∈ D, ∑ i, G y i * V y i =
      (∑ i, base y i * V y i) + ∑ x ∈ N.made, ∑ j : Fin (N.args x).length,
        if (N.args x)[j] = y then ∑ i, bk x (G x) j i * V (N.args x)[j] i else 0 := fun y hy => by
    have : ∀ i, G y i * V y i = base y i * V y i + N.received bk G y i * V y i := fun i => by
      rw [hG y hy i]; ring
    rw [Finset.sum_congr rfl fun i _ => this i, Finset.sum_add_distrib]
    congr 1
    simp only [Net.received, Finset.sum_mul]
    rw [Finset.sum_comm]
    refine Finset.sum_congr rfl fun x _ => ?_
    rw [Finset.sum_comm]
    refine Finset.sum_congr rfl fun j _ => ?_
    by_cases h : (N.args x)[j] = y
    · subst h
      simp only [if_true]
      rw [sum_entry _ _ rfl]
      rfl
    · simp only [if_neg h, zero_mul, Finset.sum_const_zero]
  rw [Finset.sum_congr rfl h1, Finset.sum_add_distrib]
  congr 1
  · have h2 : ∀ y ∈ D, ∑ i, base y i * V y i = if y ∈ outs then ∑ i, gout y i * V y i else 0 := fun y hy => by
      rw [hb y hy]
      split <;> simp
    rw [Finset.sum_congr rfl h2, ← Finset.sum_filter]
    congr 1
    ext y
    simp only [Finset.mem_filter]
    exact ⟨fun h => h.2, fun h => ⟨hout h, h⟩⟩
  · rw [Finset.sum_comm]
    refine Finset.sum_congr rfl fun x hx => ?_
    rw [Finset.sum_comm]
    refine Finset.sum_congr rfl fun j _ => ?_
    rw [Finset.sum_ite_eq]
    exact if_pos (hD.args x hx _ (List.getElem_mem j.isLt))

/-- The function of `x` of parameters and arguments together. -/
def Net.joint (N : Net) (x : Nat) :
    (Fin (N.params x) → ℝ) × Args (fun j : Fin (N.args x).length => N.shape (N.args x)[j]) → Elems (N.shape x) :=
  fun p => N.fn x p.1 p.2

/-- Every placeholder depends differentiably on the parameters of all layers together. -/
theorem differentiable_all (hD : Closed N D) (hv : N.Evaluates θ v)
    (hjoint : ∀ x ∈ N.made, DifferentiableAt ℝ (Net.joint N x) (θ x, N.inputs v x))
    {T : Type} [NormedAddCommGroup T] [NormedSpace ℝ T] {t₀ : T} {ϑ : T → N.Params}
    (hθ : ϑ t₀ = θ) (hu : ∀ x ∈ N.made, DifferentiableAt ℝ (fun t => ϑ t x) t₀)
    {W : T → N.Val} (hW : ∀ t, N.Evaluates (ϑ t) (W t)) (hg : ∀ t, ∀ y ∈ D, y ∉ N.made → W t y = v y) :
    ∀ y ∈ D, DifferentiableAt ℝ (fun t => W t y) t₀ := by
  have hW0 : ∀ y ∈ D, W t₀ y = v y := by
    refine evaluates_unique hD (θ := θ) ?_ hv (hg t₀)
    have := hW t₀
    rwa [hθ] at this
  intro y
  induction y using Nat.strong_induction_on with
  | _ y ih =>
    intro hy
    by_cases hm : y ∈ N.made
    · have h1 : (fun t => W t y) = fun t => Net.joint N y (ϑ t y, N.inputs (W t) y) := funext fun t => hW t y hm
      have h2 : DifferentiableAt ℝ (fun t => N.inputs (W t) y) t₀ :=
        differentiableAt_pi.2 fun j => ih _ (hD.lt y hm _ (List.getElem_mem _)) (hD.args y hm _ (List.getElem_mem _))
      have h3 : DifferentiableAt ℝ (Net.joint N y) (ϑ t₀ y, N.inputs (W t₀) y) := by
        rw [hθ, inputs_congr fun a ha => hW0 a (hD.args y hm a ha)]
        exact hjoint y hm
      rw [h1]
      exact h3.comp t₀ ((hu y hm).prodMk h2)
    · have : (fun t => W t y) = fun _ => v y := funext fun t => hg t y hy hm
      rw [this]
      exact differentiableAt_const _

/-- How every placeholder moves when the parameters of all layers move. -/
theorem reverse_mode_all (hD : Closed N D) (hv : N.Evaluates θ v)
    {bk : (x : Nat) → Elems (N.shape x) → Args (fun j : Fin (N.args x).length => N.shape (N.args x)[j])}
    {pk : (x : Nat) → Elems (N.shape x) → Fin (N.params x) → ℝ}
    (hbk : ∀ x ∈ N.made, BackpropN (N.fn x (θ x)) (N.inputs v x) (bk x))
    (hpk : ∀ x ∈ N.made, Backprop (fun t => N.fn x t (N.inputs v x)) (θ x) (pk x))
    (hjoint : ∀ x ∈ N.made, DifferentiableAt ℝ (Net.joint N x) (θ x, N.inputs v x))
    (hout : outs ⊆ D) (hb : ∀ y ∈ D, base y = if y ∈ outs then gout y else 0)
    (hG : ∀ y ∈ D, N.Accumulates bk base G y)
    {T : Type} [NormedAddCommGroup T] [NormedSpace ℝ T] {t₀ : T} {ϑ : T → N.Params}
    {u : (x : Nat) → T →L[ℝ] (Fin (N.params x) → ℝ)} (hθ : ϑ t₀ = θ) (hu : ∀ x ∈ N.made, HasFDerivAt (fun t => ϑ t x) (u x) t₀)
    {W : T → N.Val} (hW : ∀ t, N.Evaluates (ϑ t) (W t)) (hg : ∀ t, ∀ y ∈ D, y ∉ N.made → W t y = v y) :
    ∃ J : (y : Nat) → T →L[ℝ] Elems (N.shape y), (∀ y ∈ D, HasFDerivAt (fun t => W t y) (J y) t₀) ∧
      ∀ w, ∑ o ∈ outs, ∑ i, gout o i * J o w i = ∑ x ∈ N.made, ∑ i, pk x (G x) i * u x w i := by
  classical
  have hW0 : ∀ y ∈ D, W t₀ y = v y := by
    refine evaluates_unique hD (θ := θ) ?_ hv (hg t₀)
    have := hW t₀
    rwa [hθ] at this
  have hin0 : ∀ x ∈ N.made, N.inputs (W t₀) x = N.inputs v x := fun x hx => inputs_congr fun a ha => hW0 a (hD.args x hx a ha)
  have hchain : ∀ x ∈ N.made, (∀ a ∈ N.args x, DifferentiableAt ℝ (fun t => W t a) t₀) →
      HasFDerivAt (fun t => W t x) ((fderiv ℝ (Net.joint N x) (θ x, N.inputs v x)).comp ((u x).prod
        (ContinuousLinearMap.pi fun j : Fin (N.args x).length => fderiv ℝ (fun t => W t (N.args x)[j]) t₀))) t₀ := fun x hx hd => by
    have h1 : (fun t => W t x) = fun t => Net.joint N x (ϑ t x, N.inputs (W t) x) := funext fun t => hW t x hx
    have h2 : HasFDerivAt (fun t => N.inputs (W t) x) (ContinuousLinearMap.pi fun j : Fin (N.args x).length =>
        fderiv ℝ (fun t => W t (N.args x)[j]) t₀) t₀ := by
      rw [hasFDerivAt_pi]
      intro j
      exact (hd _ (List.getElem_mem _)).hasFDerivAt
    rw [h1]
    have h3 : HasFDerivAt (Net.joint N x) (fderiv ℝ (Net.joint N x) (θ x, N.inputs v x)) (ϑ t₀ x, N.inputs (W t₀) x) := by
      rw [hθ, hin0 x hx]
      exact (hjoint x hx).hasFDerivAt
    exact h3.comp t₀ ((hu x hx).prodMk h2)
  have hconst : ∀ y ∈ D, y ∉ N.made → (fun t => W t y) = fun _ => v y := fun y hy hm => funext fun t => hg t y hy hm
  have hdiff := differentiable_all hD hv hjoint hθ (fun x hx => (hu x hx).differentiableAt) hW hg
  refine ⟨fun y => fderiv ℝ (fun t => W t y) t₀, fun y hy => (hdiff y hy).hasFDerivAt, fun w => ?_⟩
  let V : N.Val := fun y => fderiv ℝ (fun t => W t y) t₀ w
  have hV0 : ∀ y ∈ D, y ∉ N.made → V y = 0 := fun y hy hm => by
    show fderiv ℝ (fun t => W t y) t₀ w = 0
    rw [hconst y hy hm, fderiv_const_apply]; rfl
  have hstep : ∀ x ∈ N.made, ∑ j : Fin (N.args x).length, ∑ i, bk x (G x) j i * V (N.args x)[j] i =
      ∑ i, G x i * V x i - ∑ i, pk x (G x) i * u x w i := fun x hx => by
    obtain ⟨A, hA, hadj⟩ := hbk x hx
    obtain ⟨P, hP, hpadj⟩ := hpk x hx
    have hJ := (hjoint x hx).hasFDerivAt
    have e1 : A = (fderiv ℝ (Net.joint N x) (θ x, N.inputs v x)).comp (ContinuousLinearMap.inr ℝ _ _) := by
      refine hA.unique ?_
      have := hJ.comp (N.inputs v x) (hasFDerivAt_prodMk_right (𝕜 := ℝ) (θ x) (N.inputs v x))
      exact this
    have e2 : P = (fderiv ℝ (Net.joint N x) (θ x, N.inputs v x)).comp (ContinuousLinearMap.inl ℝ _ _) := by
      refine hP.unique ?_
      have := hJ.comp (θ x) (hasFDerivAt_prodMk_left (𝕜 := ℝ) (θ x) (N.inputs v x))
      exact this
    have hVx : V x = P (u x w) + A (fun j : Fin (N.args x).length => V (N.args x)[j]) := by
      have h1 := (hchain x hx fun a ha => hdiff a (hD.args x hx a ha)).fderiv
      show fderiv ℝ (fun t => W t x) t₀ w = _
      rw [h1, e1, e2]
      simp only [ContinuousLinearMap.comp_apply, ContinuousLinearMap.prod_apply, ContinuousLinearMap.inl_apply,
        ContinuousLinearMap.inr_apply, ← map_add, Prod.mk_add_mk, add_zero, zero_add]
      rfl
    rw [← hadj, ← hpadj, ← Finset.sum_sub_distrib]
    refine Finset.sum_congr rfl fun i _ => ?_
    rw [hVx, Pi.add_apply]
    ring
  have h1 := sum_accumulated hD hout hb hG V
  have h2 : ∑ y ∈ D, ∑ i, G y i * V y i = ∑ x ∈ N.made, ∑ i, G x i * V x i := by
    refine (Finset.sum_subset hD.made fun y hy hm => ?_).symm
    rw [hV0 y hy hm]
    simp
  rw [Finset.sum_congr rfl hstep, Finset.sum_sub_distrib, h2] at h1
  show ∑ o ∈ outs, ∑ i, gout o i * V o i = _
  linarith

end DW.NetL
