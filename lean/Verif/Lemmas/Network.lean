import Mathlib.Analysis.Calculus.FDeriv.Add
import Mathlib.Analysis.Calculus.FDeriv.Mul
import Verif.Spec.Network
/-!
# Reverse accumulation

The gradients that satisfy the accumulation equations are derivatives.
-/

set_option autoImplicit false

namespace DW.NetL

open DW DW.Spec

variable {N : Net} {θ : N.Params} {D outs : Finset Nat} {v gout base G : N.Val}

/-- `D` holds every placeholder that is made or used, and arguments come first. -/
structure Closed (N : Net) (D : Finset Nat) : Prop where
  made : N.made ⊆ D
  args : ∀ x ∈ N.made, ∀ a ∈ N.args x, a ∈ D
  lt : ∀ x ∈ N.made, ∀ a ∈ N.args x, a < x

theorem inputs_congr {v w : N.Val} {x : Nat} (h : ∀ a ∈ N.args x, v a = w a) : N.inputs v x = N.inputs w x := by
  funext j
  exact h _ (List.getElem_mem _)

/-- The values are determined by those of the given placeholders. -/
theorem evaluates_unique (hD : Closed N D) {v w : N.Val} (hv : N.Evaluates θ v) (hw : N.Evaluates θ w)
    (h : ∀ y ∈ D, y ∉ N.made → v y = w y) : ∀ y ∈ D, v y = w y := by
  intro y
  induction y using Nat.strong_induction_on with
  | _ y ih =>
    intro hy
    by_cases hm : y ∈ N.made
    · rw [hv y hm, hw y hm, inputs_congr fun a ha => ih a (hD.lt y hm a ha) (hD.args y hm a ha)]
    · exact h y hy hm

/-- The value of each placeholder, given those of the placeholders not made. -/
noncomputable def eval (N : Net) (θ : N.Params) (inp : N.Val) (y : Nat) : Elems (N.shape y) :=
  if h : y ∈ N.made ∧ ∀ a ∈ N.args y, a < y then
    N.fn y (θ y) fun j => eval N θ inp (N.args y)[j]
  else inp y
termination_by y
decreasing_by exact h.2 _ (List.getElem_mem _)

theorem eval_made (hD : Closed N D) (inp : N.Val) : N.Evaluates θ (eval N θ inp) := by
  intro y hy
  rw [eval, dif_pos ⟨hy, hD.lt y hy⟩]
  rfl

theorem eval_given (inp : N.Val) {y : Nat} (h : y ∉ N.made) : eval N θ inp y = inp y := by
  rw [eval, dif_neg fun h' => h h'.1]

section Vary

variable {x₀ : Nat} {T : Type} {p : T → Elems (N.shape x₀)} {W : T → N.Val}

/-- What comes before the varied placeholder does not vary. -/
theorem varies_before (hD : Closed N D) (hv : N.Evaluates θ v) (hW : N.Varies θ v x₀ p W) (t : T) :
    ∀ y, y < x₀ → W t y = v y := by
  intro y
  induction y using Nat.strong_induction_on with
  | _ y ih =>
    intro hlt
    by_cases hm : y ∈ N.made
    · rw [hW.made t y hm (by omega), hv y hm, inputs_congr fun a ha => ?_]
      have := hD.lt y hm a ha
      exact ih a this (by omega)
    · exact hW.given t y hm (by omega)

theorem varies_at (hD : Closed N D) (hv : N.Evaluates θ v) (hW : N.Varies θ v x₀ p W) {t : T} (ht : p t = v x₀) :
    W t = v := by
  funext y
  induction y using Nat.strong_induction_on with
  | _ y ih =>
    by_cases hx : y = x₀
    · subst hx; rw [hW.at_x, ht]
    by_cases hm : y ∈ N.made
    · rw [hW.made t y hm hx, hv y hm, inputs_congr fun a ha => ih a (hD.lt y hm a ha)]
    · exact hW.given t y hm hx

end Vary

/-- `<bk g, V>` only sees the entries. -/
theorem sum_entry {s s' : Shape} (u : Elems s) (w : Elems s') (h : s = s') :
    ∑ i : Fin (size s'), entry u i * w i = ∑ i : Fin (size s), u i * w (Fin.cast (by rw [h]) i) := by
  subst h
  refine Finset.sum_congr rfl fun i _ => ?_
  simp [entry]

/-- Reverse accumulation computes derivatives. -/
theorem reverse_mode (hD : Closed N D) (hv : N.Evaluates θ v)
    {bk : (x : Nat) → Elems (N.shape x) → Args (fun j : Fin (N.args x).length => N.shape (N.args x)[j])} {x₀ : Nat}
    (hbk : ∀ x ∈ N.made, x₀ < x → BackpropN (N.fn x (θ x)) (N.inputs v x) (bk x))
    (hout : outs ⊆ D) (hb : ∀ y ∈ D, base y = if y ∈ outs then gout y else 0)
    (hG : ∀ y ∈ D, N.Accumulates bk base G y) (hx₀ : x₀ ∈ D)
    {T : Type} [NormedAddCommGroup T] [NormedSpace ℝ T] {p : T → Elems (N.shape x₀)} {p' : T →L[ℝ] Elems (N.shape x₀)} {t₀ : T}
    (hp : HasFDerivAt p p' t₀) (hp₀ : p t₀ = v x₀) {W : T → N.Val} (hW : N.Varies θ v x₀ p W) :
    ∃ J : T →L[ℝ] ℝ, HasFDerivAt (fun t => N.loss outs gout (W t)) J t₀ ∧ ∀ u, J u = ∑ i, G x₀ i * p' u i := by
  classical
  have hW0 : W t₀ = v := varies_at hD hv hW hp₀
  -- every placeholder varies differentiably
  have hcut : ∀ t, W t x₀ = p t := hW.at_x
  have hconst : ∀ y, (y < x₀ ∨ (y ∉ N.made ∧ y ≠ x₀)) → (fun t => W t y) = fun _ => v y := fun y hy => by
    funext t
    rcases hy with h | h
    · exact varies_before hD hv hW t y h
    · exact hW.given t y h.1 h.2
  have hchain : ∀ y ∈ N.made, x₀ < y → (∀ a ∈ N.args y, DifferentiableAt ℝ (fun t => W t a) t₀) →
      ∀ J, HasFDerivAt (N.fn y (θ y)) J (N.inputs v y) →
      HasFDerivAt (fun t => W t y) (J.comp (ContinuousLinearMap.pi fun j : Fin (N.args y).length =>
        fderiv ℝ (fun t => W t (N.args y)[j]) t₀)) t₀ := fun y hm hlt hd J hJ => by
    have h1 : (fun t => W t y) = fun t => N.fn y (θ y) (N.inputs (W t) y) :=
      funext fun t => hW.made t y hm (by omega)
    have h2 : HasFDerivAt (fun t => N.inputs (W t) y) (ContinuousLinearMap.pi fun j : Fin (N.args y).length =>
        fderiv ℝ (fun t => W t (N.args y)[j]) t₀) t₀ := by
      rw [hasFDerivAt_pi]
      intro j
      exact (hd _ (List.getElem_mem _)).hasFDerivAt
    rw [h1]
    have h3 : HasFDerivAt (N.fn y (θ y)) J (N.inputs (W t₀) y) := by rw [hW0]; exact hJ
    exact h3.comp t₀ h2
  have hdiff : ∀ y, DifferentiableAt ℝ (fun t => W t y) t₀ := by
    intro y
    induction y using Nat.strong_induction_on with
    | _ y ih =>
      by_cases hc : y < x₀ ∨ (y ∉ N.made ∧ y ≠ x₀)
      · rw [hconst y hc]; exact differentiableAt_const _
      · by_cases hx : y = x₀
        · subst hx
          have : (fun t => W t y) = p := funext hcut
          rw [this]; exact hp.differentiableAt
        · have hm : y ∈ N.made := by
            by_contra h; exact hc (.inr ⟨h, hx⟩)
          have hlt : x₀ < y := by
            by_contra h; exact hc (.inl (by omega))
          obtain ⟨J, hJ, -⟩ := hbk y hm hlt
          exact (hchain y hm hlt (fun a ha => ih a (hD.lt y hm a ha)) J hJ).differentiableAt
  let L : (y : Nat) → T →L[ℝ] Elems (N.shape y) := fun y => fderiv ℝ (fun t => W t y) t₀
  have hL : ∀ y, HasFDerivAt (fun t => W t y) (L y) t₀ := fun y => (hdiff y).hasFDerivAt
  have hL0 : ∀ y, (y < x₀ ∨ (y ∉ N.made ∧ y ≠ x₀)) → L y = 0 := fun y hy => by
    show fderiv ℝ (fun t => W t y) t₀ = 0
    rw [hconst y hy]; exact fderiv_const_apply _
  have hLx : L x₀ = p' := by
    have : (fun t => W t x₀) = p := funext hcut
    show fderiv ℝ (fun t => W t x₀) t₀ = p'
    rw [this]; exact hp.fderiv
  refine ⟨∑ o ∈ outs, ∑ i, gout o i • (ContinuousLinearMap.proj i).comp (L o), ?_, fun u => ?_⟩
  · unfold Net.loss
    refine HasFDerivAt.fun_sum fun o _ => HasFDerivAt.fun_sum fun i _ => ?_
    have h1 : HasFDerivAt (fun t => W t o i) ((ContinuousLinearMap.proj i).comp (L o)) t₀ :=
      (hasFDerivAt_pi'.1 (hL o)) i
    exact h1.const_mul (gout o i)
  · -- the sum of <G y, L y u> over all placeholders, computed in two ways
    have key : ∀ x ∈ N.made, ∑ j : Fin (N.args x).length, ∑ i, bk x (G x) j i * L (N.args x)[j] u i =
        if x = x₀ then 0 else ∑ i, G x i * L x u i := fun x hm => by
      by_cases hlt : x₀ < x
      · rw [if_neg (by omega)]
        obtain ⟨J, hJ, hadj⟩ := hbk x hm hlt
        have h1 := (hchain x hm hlt (fun a _ => hdiff a) J hJ).fderiv
        have h2 : L x u = J (fun j => L (N.args x)[j] u) := by
          show fderiv ℝ (fun t => W t x) t₀ u = _
          rw [h1]; rfl
        rw [h2]
        exact (hadj (G x) _).symm
      · have hz : ∀ a ∈ N.args x, L a = 0 := fun a ha => hL0 a (.inl (by
          have := hD.lt x hm a ha; omega))
        have h1 : ∑ j : Fin (N.args x).length, ∑ i, bk x (G x) j i * L (N.args x)[j] u i = 0 :=
          Finset.sum_eq_zero fun j _ => Finset.sum_eq_zero fun i _ => by
            have h0 : L (N.args x)[j] u = 0 := by rw [hz (N.args x)[j] (List.getElem_mem j.isLt)]; rfl
            rw [h0]; exact mul_zero _
        rw [h1]
        split
        · rfl
        · next hne =>
          rw [hL0 x (.inl (by omega))]; simp
    have split1 : ∑ y ∈ D, ∑ i, G y i * L y u i =
        ∑ o ∈ outs, ∑ i, gout o i * L o u i + ∑ x ∈ N.made, if x = x₀ then 0 else ∑ i, G x i * L x u i := by
      have h1 : ∀ y ∈ D, ∑ i, G y i * L y u i =
          (∑ i, base y i * L y u i) + ∑ x ∈ N.made, ∑ j : Fin (N.args x).length,
            if (N.args x)[j] = y then ∑ i, bk x (G x) j i * L (N.args x)[j] u i else 0 := fun y hy => by
        have : ∀ i, G y i * L y u i = base y i * L y u i + N.received bk G y i * L y u i := fun i => by
          rw [hG y hy i]; ring
        rw [Finset.sum_congr rfl fun i _ => this i, Finset.sum_add_distrib]
        congr 1
        simp only [Net.received, Finset.sum_mul]
        rw [Finset.sum_comm]
        refine Finset.sum_congr rfl fun x _ => ?_
        rw [Finset.sum_comm]
        refine Finset.sum_congr rfl fun j _ => ?_
        by_cases h : (N.args x)[j] = y
        · subst h
          simp only [if_true]
          rw [sum_entry _ _ rfl]
          rfl
        · simp only [if_neg h, zero_mul, Finset.sum_const_zero]
      rw [Finset.sum_congr rfl h1, Finset.sum_add_distrib]
      congr 1
      · have h2 : ∀ y ∈ D, ∑ i, base y i * L y u i = if y ∈ outs then ∑ i, gout y i * L y u i else 0 := fun y hy => by
          rw [hb y hy]
          split <;> simp
        rw [Finset.sum_congr rfl h2, ← Finset.sum_filter]
        congr 1
        ext y
        simp only [Finset.mem_filter]
        exact ⟨fun h => h.2, fun h => ⟨hout h, h⟩⟩
      · rw [Finset.sum_comm]
        refine Finset.sum_congr rfl fun x hx => ?_
        rw [← key x hx, Finset.sum_comm]
        refine Finset.sum_congr rfl fun j _ => ?_
        rw [Finset.sum_ite_eq]
        exact if_pos (hD.args x hx _ (List.getElem_mem j.isLt))
    have split2 : ∑ y ∈ D, ∑ i, G y i * L y u i =
        ∑ i, G x₀ i * p' u i + ∑ x ∈ N.made, if x = x₀ then 0 else ∑ i, G x i * L x u i := by
      have h1 : ∀ y ∈ D, ∑ i, G y i * L y u i = (if y = x₀ then ∑ i, G x₀ i * p' u i else 0) +
          if y ∈ N.made then (if y = x₀ then 0 else ∑ i, G y i * L y u i) else 0 := fun y _ => by
        by_cases hy : y = x₀
        · subst hy; simp [hLx]
        · by_cases hm : y ∈ N.made
          · simp [hy, hm]
          · rw [hL0 y (.inr ⟨hm, hy⟩)]; simp [hy, hm]
      rw [Finset.sum_congr rfl h1, Finset.sum_add_distrib, Finset.sum_ite_eq', if_pos hx₀]
      congr 1
      rw [← Finset.sum_filter]
      congr 1
      ext y
      simp only [Finset.mem_filter]
      exact ⟨fun h => h.2, fun h => ⟨hD.made h, h⟩⟩
    have : ∑ o ∈ outs, ∑ i, gout o i * L o u i = ∑ i, G x₀ i * p' u i := by
      have := split1.symm.trans split2
      linarith
    rw [← this]
    simp [ContinuousLinearMap.sum_apply]

/-- Only one family of gradients satisfies the accumulation equations. -/
theorem accumulates_unique (hD : Closed N D)
    {bk : (x : Nat) → Elems (N.shape x) → Args (fun j : Fin (N.args x).length => N.shape (N.args x)[j])} {G G' : N.Val}
    (h : ∀ y ∈ D, N.Accumulates bk base G y) (h' : ∀ y ∈ D, N.Accumulates bk base G' y) : ∀ y ∈ D, G y = G' y := by
  obtain ⟨B, hB⟩ : ∃ B, ∀ y ∈ D, y < B := ⟨D.sup id + 1, fun y hy => Nat.lt_succ_of_le (Finset.le_sup (f := id) hy)⟩
  have : ∀ d y, B - y = d → y ∈ D → G y = G' y := by
    intro d
    induction d using Nat.strong_induction_on with
    | _ d ih =>
      intro y hd hy
      funext i
      rw [h y hy i, h' y hy i]
      congr 1
      unfold Net.received
      refine Finset.sum_congr rfl fun x hx => Finset.sum_congr rfl fun j _ => ?_
      by_cases hj : (N.args x)[j] = y
      · have hlt : y < x := hj ▸ hD.lt x hx _ (List.getElem_mem _)
        have hxB := hB x (hD.made hx)
        rw [ih (B - x) (by omega) x rfl (hD.made hx)]
      · rw [if_neg hj, if_neg hj]
  exact fun y hy => this _ y rfl hy

/-- A placeholder can be varied. -/
theorem varies_exists (hD : Closed N D) {x₀ : Nat} {T : Type} (p : T → Elems (N.shape x₀)) : ∃ W, N.Varies θ v x₀ p W := by
  classical
  let N' : Net := { N with made := N.made.erase x₀ }
  have hD' : Closed N' D := ⟨fun x hx => hD.made (Finset.mem_of_mem_erase hx),
    fun x hx => hD.args x (Finset.mem_of_mem_erase hx), fun x hx => hD.lt x (Finset.mem_of_mem_erase hx)⟩
  refine ⟨fun t => eval N' θ (Function.update v x₀ (p t)), ⟨fun t => ?_, fun t y hy hne => ?_, fun t y hy hne => ?_⟩⟩
  · rw [eval_given (N := N') _ fun h => (Finset.mem_erase.1 h).1 rfl]
    exact Function.update_self (f := v) x₀ (p t)
  · exact eval_made (N := N') hD' _ y (Finset.mem_erase.2 ⟨hne, hy⟩)
  · rw [eval_given (N := N') _ fun h => hy (Finset.mem_of_mem_erase h)]
    exact Function.update_of_ne (f := v) hne (p t)

/-- The gradient of the parameters of one layer. -/
theorem reverse_mode_param (hD : Closed N D) (hv : N.Evaluates θ v)
    {bk : (x : Nat) → Elems (N.shape x) → Args (fun j : Fin (N.args x).length => N.shape (N.args x)[j])} {x₀ : Nat}
    (hbk : ∀ x ∈ N.made, x₀ < x → BackpropN (N.fn x (θ x)) (N.inputs v x) (bk x))
    (hout : outs ⊆ D) (hb : ∀ y ∈ D, base y = if y ∈ outs then gout y else 0)
    (hG : ∀ y ∈ D, N.Accumulates bk base G y) (hx₀ : x₀ ∈ N.made) {pk : Elems (N.shape x₀) → Fin (N.params x₀) → ℝ}
    (hpk : Backprop (fun t => N.fn x₀ t (N.inputs v x₀)) (θ x₀) pk) {W : (Fin (N.params x₀) → ℝ) → N.Val}
    (hW : ∀ t, N.Evaluates (Function.update θ x₀ t) (W t)) (hg : ∀ t, ∀ y ∈ D, y ∉ N.made → W t y = v y) :
    IsGradient (fun t => N.loss outs gout (W t)) (θ x₀) (pk (G x₀)) := by
  classical
  have hbefore : ∀ t y, y < x₀ → y ∈ D → W t y = v y := fun t y => by
    induction y using Nat.strong_induction_on with
    | _ y ih =>
      intro hlt hy
      by_cases hm : y ∈ N.made
      · rw [hW t y hm, hv y hm, inputs_congr fun a ha => ih a (hD.lt y hm a ha) ((hD.lt y hm a ha).trans hlt) (hD.args y hm a ha),
          Function.update_of_ne (Nat.ne_of_lt hlt)]
      · exact hg t y hy hm
  let W' : (Fin (N.params x₀) → ℝ) → N.Val := fun t y => if y ∈ D then W t y else v y
  have hin : ∀ t y, y ∈ N.made → N.inputs (W' t) y = N.inputs (W t) y := fun t y hy =>
    inputs_congr fun a ha => if_pos (hD.args y hy a ha)
  have hV : N.Varies θ v x₀ (fun t => N.fn x₀ t (N.inputs v x₀)) W' := by
    refine ⟨fun t => ?_, fun t y hy hne => ?_, fun t y hy hne => ?_⟩
    · show (if x₀ ∈ D then W t x₀ else v x₀) = _
      rw [if_pos (hD.made hx₀), hW t x₀ hx₀, Function.update_self,
        inputs_congr fun a ha => hbefore t a (hD.lt x₀ hx₀ a ha) (hD.args x₀ hx₀ a ha)]
    · rw [hin t y hy]
      show (if y ∈ D then W t y else v y) = _
      rw [if_pos (hD.made hy), hW t y hy, Function.update_of_ne hne]
    · show (if y ∈ D then W t y else v y) = _
      split
      next h => exact hg t y h hy
      next => rfl
  obtain ⟨J, hJ, hJe⟩ := hpk
  obtain ⟨J', h1, h2⟩ := reverse_mode hD hv hbk hout hb hG (hD.made hx₀) hJ (hv x₀ hx₀).symm hV
  refine ⟨J', ?_, fun u => (h2 u).trans (hJe (G x₀) u)⟩
  have : (fun t => N.loss outs gout (W t)) = fun t => N.loss outs gout (W' t) := by
    funext t
    refine Finset.sum_congr rfl fun o ho => ?_
    have : W' t o = W t o := if_pos (hout ho)
    rw [this]
  rw [this]
  exact h1

end DW.NetL
