import Verif.Props.Derivative
/-! # The chain rule for a loss of one output -/

set_option autoImplicit false

namespace DW.NetL

open DW DW.Spec DW.Props.BackendP

variable {N : Net} {θ : N.Params} {D : Finset Nat} {v G : N.Val}

/-- The parameters of one layer, if the output `y` goes on into a function `φ`. -/
theorem reverse_mode_chain (hD : Closed N D) (hv : N.Evaluates θ v)
    {bk : (x : Nat) → Elems (N.shape x) → Args (fun j : Fin (N.args x).length => N.shape (N.args x)[j])} {x₀ : Nat}
    (hbk : ∀ x ∈ N.made, x₀ < x → BackpropN (N.fn x (θ x)) (N.inputs v x) (bk x)) {y : Nat} (hy : y ∈ D)
    {φ : Elems (N.shape y) → ℝ} {gout base : N.Val} (hφ : IsGradient φ (v y) (gout y))
    (hb : ∀ z ∈ D, base z = if z ∈ ({y} : Finset Nat) then gout z else 0)
    (hG : ∀ z ∈ D, N.Accumulates bk base G z) (hx₀ : x₀ ∈ N.made) {pk : Elems (N.shape x₀) → Fin (N.params x₀) → ℝ}
    (hpk : Backprop (fun t => N.fn x₀ t (N.inputs v x₀)) (θ x₀) pk) {W : (Fin (N.params x₀) → ℝ) → N.Val}
    (hW : ∀ t, N.Evaluates (Function.update θ x₀ t) (W t)) (hg : ∀ t, ∀ z ∈ D, z ∉ N.made → W t z = v z) :
    IsGradient (fun t => φ (W t y)) (θ x₀) (pk (G x₀)) := by
  classical
  have hsub : ({y} : Finset Nat) ⊆ D := Finset.singleton_subset_iff.2 hy
  have hcoord : ∀ k, ∃ J : (Fin (N.params x₀) → ℝ) →L[ℝ] ℝ, HasFDerivAt (fun t => W t y k) J (θ x₀) := fun k => by
    let gk : N.Val := Function.update 0 y (Pi.single k 1)
    obtain ⟨Gk, hGk⟩ := accumulates_exists hD bk fun z => if z ∈ ({y} : Finset Nat) then gk z else 0
    obtain ⟨J, h1, -⟩ := reverse_mode_param (gout := gk) hD hv hbk hsub (fun _ _ => rfl) hGk hx₀ hpk hW hg
    refine ⟨J, ?_⟩
    have : (fun t => N.loss {y} gk (W t)) = fun t => W t y k := by
      funext t
      simp [Net.loss, gk, Pi.single_apply]
    rwa [this] at h1
  choose J hJ using hcoord
  have hWd : HasFDerivAt (fun t => W t y) (ContinuousLinearMap.pi J) (θ x₀) := hasFDerivAt_pi.2 hJ
  have h0 : W (θ x₀) y = v y := by
    refine evaluates_unique hD (θ := θ) ?_ hv (fun z hz hm => hg _ z hz hm) y hy
    have := hW (θ x₀)
    rwa [Function.update_eq_self] at this
  obtain ⟨Jφ, hJφ, e⟩ := hφ
  obtain ⟨J', h1, h2⟩ := reverse_mode_param (gout := gout) hD hv hbk hsub hb hG hx₀ hpk hW hg
  have h3 : HasFDerivAt (fun t => N.loss {y} gout (W t)) (∑ i, gout y i • J i) (θ x₀) := by
    have : (fun t => N.loss {y} gout (W t)) = fun t => ∑ i, gout y i * W t y i := by
      funext t
      simp [Net.loss]
    rw [this]
    exact HasFDerivAt.fun_sum fun i _ => (hJ i).const_mul (gout y i)
  have h4 := h1.unique h3
  refine ⟨Jφ.comp (ContinuousLinearMap.pi J), ?_, fun u => ?_⟩
  · rw [← h0] at hJφ
    exact hJφ.comp (θ x₀) hWd
  · rw [← h2 u, h4, ContinuousLinearMap.comp_apply, e]
    simp [ContinuousLinearMap.sum_apply]

end DW.NetL
