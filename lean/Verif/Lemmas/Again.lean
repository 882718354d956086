import Verif.Props.LayerSpec
/-! # What determines what a layer computes -/

set_option autoImplicit false

namespace DW.AgainL

open DW DW.Spec

noncomputable section

/-- All parameters are trainable. -/
def Trainable (t : InfoTensors) : Prop := ∀ name p, t.params.lookup name = some p → p.trainable = true

variable {real : F32 → ℝ} {t t' : InfoTensors}

theorem axis_eq {a a' : Axis} (h : a.Plain) (h' : a'.Plain) (h1 : a.size = a'.size) (h2 : a.kernel = a'.kernel) (h3 : a.pad = a'.pad)
    (h4 : a.stride = a'.stride) (h5 : a.out = a'.out) : a = a' := by
  have h6 := h.dil.trans h'.dil.symm
  obtain ⟨s, k, p, st, d, o⟩ := a
  obtain ⟨s', k', p', st', d', o'⟩ := a'
  simp only at h1 h2 h3 h4 h5 h6
  subst h1 h2 h3 h4 h5 h6
  rfl

theorem unique1 {op op' : Op} {s s' o o' : Shape} {P P' : Nat} {f : (Nat → ℝ) → (Fin P → ℝ) → Elems s → Elems o}
    {f' : (Nat → ℝ) → (Fin P' → ℝ) → Elems s' → Elems o'} {θ : Fin P → ℝ} {θ' : Fin P' → ℝ} {ex ex' : Prop}
    (h : Computes1 real t op s o P f θ ex) (h' : Computes1 real t' op' s' o' P' f' θ' ex') (hop : op = op') (hs : s = s') (ho : o = o')
    (ht : Trainable t) (ht' : Trainable t') : P = P' ∧ HEq f f' ∧ ex = ex' := by
  cases h with
  | relu =>
    cases h' with
    | relu => subst hs; exact ⟨rfl, HEq.rfl, rfl⟩
    | _ => exact Op.noConfusion hop
  | leakyReLU =>
    cases h' with
    | leakyReLU => subst hs; cases hop; exact ⟨rfl, HEq.rfl, rfl⟩
    | _ => exact Op.noConfusion hop
  | elu =>
    cases h' with
    | elu => subst hs; cases hop; exact ⟨rfl, HEq.rfl, rfl⟩
    | _ => exact Op.noConfusion hop
  | sigmoid =>
    cases h' with
    | sigmoid => subst hs; exact ⟨rfl, HEq.rfl, rfl⟩
    | _ => exact Op.noConfusion hop
  | @softmax B n =>
    cases h' with
    | @softmax B' n' =>
      obtain ⟨rfl, rfl⟩ : B = B' ∧ n = n' := by simpa using hs
      exact ⟨rfl, HEq.rfl, rfl⟩
    | _ => exact Op.noConfusion hop
  | @linear B n u rest hne hst hf hc =>
    cases h' with
    | @linear B' n' u' rest' hne' hst' hf' hc' =>
      obtain rfl : u = u' := by cases hop; rfl
      obtain ⟨rfl, rfl⟩ : B = B' ∧ rest = rest' := by simpa using hs
      obtain rfl : n = n' := Int.natCast_inj.1 (hc.symm.trans hc')
      exact ⟨rfl, HEq.rfl, rfl⟩
    | _ => exact Op.noConfusion hop
  | @batchNorm1D B n eps alpha =>
    cases h' with
    | @batchNorm1D B' n' eps' alpha' =>
      cases hop
      obtain ⟨rfl, rfl⟩ : B = B' ∧ n = n' := by simpa using hs
      exact ⟨rfl, HEq.rfl, rfl⟩
    | @batchNorm1DEval B' n' eps' alpha' heps hn hf θ mu var hpos hg =>
      obtain ⟨g, hg, -⟩ := hg
      exact absurd (ht' _ _ hg) Bool.false_ne_true
    | _ => exact Op.noConfusion hop
  | @batchNorm1DEval B n eps alpha heps hn hf θ mu var hpos hg =>
    obtain ⟨g, hg, -⟩ := hg
    exact absurd (ht _ _ hg) Bool.false_ne_true
  | @batchNorm2D N C H W eps alpha =>
    cases h' with
    | @batchNorm2D N' C' H' W' eps' alpha' =>
      cases hop
      obtain ⟨rfl, rfl, rfl, rfl⟩ : N = N' ∧ C = C' ∧ H = H' ∧ W = W' := by simpa using hs
      exact ⟨rfl, HEq.rfl, rfl⟩
    | @batchNorm2DEval N' C' H' W' eps' alpha' heps hC hn hf θ mu var hpos hg =>
      obtain ⟨g, hg, -⟩ := hg
      exact absurd (ht' _ _ hg) Bool.false_ne_true
    | _ => exact Op.noConfusion hop
  | @batchNorm2DEval N C H W eps alpha heps hC hn hf θ mu var hpos hg =>
    obtain ⟨g, hg, -⟩ := hg
    exact absurd (ht _ _ hg) Bool.false_ne_true
  | @globalAvgPooling N C H W =>
    cases h' with
    | @globalAvgPooling N' C' H' W' =>
      obtain ⟨rfl, rfl, rfl, rfl⟩ : N = N' ∧ C = C' ∧ H = H' ∧ W = W' := by simpa using hs
      exact ⟨rfl, HEq.rfl, rfl⟩
    | _ => exact Op.noConfusion hop
  | dropout p =>
    cases h' with
    | dropout p' =>
      cases hop
      subst hs
      exact ⟨rfl, HEq.rfl, rfl⟩
    | dropoutEval _ _ _ _ hm =>
      obtain ⟨g, hm, -⟩ := hm
      exact absurd (ht' _ _ hm) Bool.false_ne_true
    | _ => exact Op.noConfusion hop
  | dropoutEval _ _ _ _ hm =>
    obtain ⟨g, hm, -⟩ := hm
    exact absurd (ht _ _ hm) Bool.false_ne_true
  | @convolution N C O a b ha hb =>
    cases h' with
    | @convolution N' C' O' a' b' ha' hb' =>
      obtain ⟨o1, o2, o3, o4⟩ := Op.convolution.inj hop
      obtain ⟨rfl, rfl, s1, s2⟩ : N = N' ∧ C = C' ∧ a.size = a'.size ∧ b.size = b'.size := by simpa using hs
      obtain ⟨rfl, t1, t2⟩ : O = O' ∧ a.out = a'.out ∧ b.out = b'.out := by simpa using ho
      simp only [Prod.mk.injEq, Nat.cast_inj] at o2 o3 o4
      obtain rfl : a = a' := axis_eq ha ha' s1 o2.1 o3.1 o4.1 t1
      obtain rfl : b = b' := axis_eq hb hb' s2 o2.2 o3.2 o4.2 t2
      exact ⟨rfl, HEq.rfl, rfl⟩
    | _ => exact Op.noConfusion hop
  | @maxPooling N C a b ha hb =>
    cases h' with
    | @maxPooling N' C' a' b' ha' hb' =>
      obtain ⟨o2, o3, o4⟩ := Op.maxPooling.inj hop
      obtain ⟨rfl, rfl, s1, s2⟩ : N = N' ∧ C = C' ∧ a.size = a'.size ∧ b.size = b'.size := by simpa using hs
      obtain ⟨t1, t2⟩ : a.out = a'.out ∧ b.out = b'.out := by simpa using ho
      simp only [Prod.mk.injEq, Nat.cast_inj] at o2 o3 o4
      obtain rfl : a = a' := axis_eq ha ha' s1 o2.1 o3.1 o4.1 t1
      obtain rfl : b = b' := axis_eq hb hb' s2 o2.2 o3.2 o4.2 t2
      exact ⟨rfl, HEq.rfl, rfl⟩
    | _ => exact Op.noConfusion hop

/-- All layers. -/
theorem unique {op : Op} {n : Nat} {ishape : Fin n → Shape} {o : Shape} {P P' : Nat}
    {f : (Nat → ℝ) → (Fin P → ℝ) → Args ishape → Elems o} {f' : (Nat → ℝ) → (Fin P' → ℝ) → Args ishape → Elems o}
    {θ : Fin P → ℝ} {θ' : Fin P' → ℝ} {ex ex' : Prop} (h : Computes real t op ishape o P f θ ex)
    (h' : Computes real t' op ishape o P' f' θ' ex') (ht : Trainable t) (ht' : Trainable t') : P = P' ∧ HEq f f' ∧ ex = ex' := by
  cases h with
  | @one _ _ _ s _ o₁ _ f _ _ hn hs ho h =>
    cases h' with
    | @one _ _ _ s' _ o₁' _ f' _ _ hn' hs' ho' h' =>
      subst hs ho
      subst hs' ho'
      obtain ⟨rfl, hf, rfl⟩ := unique1 h h' rfl rfl rfl ht ht'
      obtain rfl := eq_of_heq hf
      exact ⟨rfl, HEq.rfl, rfl⟩
    | add => cases h
  | add hn h0 h1 θ =>
    cases h' with
    | one hn' hs' ho' h' => cases h'
    | add => exact ⟨rfl, HEq.rfl, rfl⟩

/-- What `unique` says is equal may be replaced. -/
theorem computes_cast {op : Op} {n : Nat} {ishape : Fin n → Shape} {o : Shape} {P P' : Nat}
    {f : (Nat → ℝ) → (Fin P → ℝ) → Args ishape → Elems o} {f' : (Nat → ℝ) → (Fin P' → ℝ) → Args ishape → Elems o}
    {θ : Fin P → ℝ} {θ' : Fin P' → ℝ} {ex ex' : Prop} (h : Computes real t op ishape o P f θ ex) (hP : P = P') (hf : HEq f f')
    (hex : ex = ex') (hθ : List.ofFn θ = List.ofFn θ') : Computes real t op ishape o P' f' θ' ex' := by
  subst hP hex
  obtain rfl := eq_of_heq hf
  obtain rfl := List.ofFn_injective hθ
  exact h

/-! ### In evaluation mode, the running statistics matter too -/

/-- Batch normalisation. -/
def _root_.DW.Op.IsNorm : Op → Prop
  | .batchNorm1D _ _ | .batchNorm2D _ _ => True
  | _ => False

/-- The running statistics are the same. -/
def SameStats (t t' : InfoTensors) : Prop := ∀ (n : Nat) (mu var mu' var' : Fin n → ℝ),
  HasBuffer t "running_mean" [n] (List.ofFn mu) → HasBuffer t "running_var" [n] (List.ofFn var) →
  HasBuffer t' "running_mean" [n] (List.ofFn mu') → HasBuffer t' "running_var" [n] (List.ofFn var') → mu = mu' ∧ var = var'

theorem unique1_frozen {op op' : Op} {s s' o o' : Shape} {P P' : Nat} {f : (Nat → ℝ) → (Fin P → ℝ) → Elems s → Elems o}
    {f' : (Nat → ℝ) → (Fin P' → ℝ) → Elems s' → Elems o'} {θ : Fin P → ℝ} {θ' : Fin P' → ℝ} {ex ex' : Prop}
    (h : Computes1 real t op s o P f θ ex) (h' : Computes1 real t' op' s' o' P' f' θ' ex') (hop : op = op') (hs : s = s') (ho : o = o')
    (ht : Frozen t) (ht' : Frozen t')
    (hst : op.IsNorm → SameStats t t') : P = P' ∧ HEq f f' := by
  cases h with
  | relu =>
    cases h' with
    | relu => subst hs; exact ⟨rfl, HEq.rfl⟩
    | _ => exact Op.noConfusion hop
  | leakyReLU =>
    cases h' with
    | leakyReLU => subst hs; cases hop; exact ⟨rfl, HEq.rfl⟩
    | _ => exact Op.noConfusion hop
  | elu =>
    cases h' with
    | elu => subst hs; cases hop; exact ⟨rfl, HEq.rfl⟩
    | _ => exact Op.noConfusion hop
  | sigmoid =>
    cases h' with
    | sigmoid => subst hs; exact ⟨rfl, HEq.rfl⟩
    | _ => exact Op.noConfusion hop
  | @softmax B n =>
    cases h' with
    | @softmax B' n' =>
      obtain ⟨rfl, rfl⟩ : B = B' ∧ n = n' := by simpa using hs
      exact ⟨rfl, HEq.rfl⟩
    | _ => exact Op.noConfusion hop
  | @linear B n u rest hne hst hf hc =>
    cases h' with
    | @linear B' n' u' rest' hne' hst' hf' hc' =>
      obtain rfl : u = u' := by cases hop; rfl
      obtain ⟨rfl, rfl⟩ : B = B' ∧ rest = rest' := by simpa using hs
      obtain rfl : n = n' := Int.natCast_inj.1 (hc.symm.trans hc')
      exact ⟨rfl, HEq.rfl⟩
    | _ => exact Op.noConfusion hop
  | @batchNorm1D B n eps alpha heps hn hf θ mu var hg =>
    obtain ⟨g, hg, -⟩ := hg
    exact absurd (ht _ _ hg) (by simp)
  | @batchNorm1DEval B n eps alpha heps hn hf θ mu var hpos hg hbe hm hv =>
    cases h' with
    | @batchNorm1D B' n' eps' alpha' heps' hn' hf' θ' mu' var' hg' =>
      obtain ⟨g, hg', -⟩ := hg'
      exact absurd (ht' _ _ hg') (by simp)
    | @batchNorm1DEval B' n' eps' alpha' heps' hn' hf' θ' mu' var' hpos' hg' hbe' hm' hv' =>
      cases hop
      obtain ⟨rfl, rfl⟩ : B = B' ∧ n = n' := by simpa using hs
      obtain ⟨rfl, rfl⟩ := hst trivial n mu var mu' var' hm hv hm' hv'
      exact ⟨rfl, HEq.rfl⟩
    | _ => exact Op.noConfusion hop
  | @batchNorm2D N C H W eps alpha heps hC hn hf θ mu var hg =>
    obtain ⟨g, hg, -⟩ := hg
    exact absurd (ht _ _ hg) (by simp)
  | @batchNorm2DEval N C H W eps alpha heps hC hn hf θ mu var hpos hg hbe hm hv =>
    cases h' with
    | @batchNorm2D N' C' H' W' eps' alpha' heps' hC' hn' hf' θ' mu' var' hg' =>
      obtain ⟨g, hg', -⟩ := hg'
      exact absurd (ht' _ _ hg') (by simp)
    | @batchNorm2DEval N' C' H' W' eps' alpha' heps' hC' hn' hf' θ' mu' var' hpos' hg' hbe' hm' hv' =>
      cases hop
      obtain ⟨rfl, rfl, rfl, rfl⟩ : N = N' ∧ C = C' ∧ H = H' ∧ W = W' := by simpa using hs
      obtain ⟨rfl, rfl⟩ := hst trivial C mu var mu' var' hm hv hm' hv'
      exact ⟨rfl, HEq.rfl⟩
    | _ => exact Op.noConfusion hop
  | @globalAvgPooling N C H W =>
    cases h' with
    | @globalAvgPooling N' C' H' W' =>
      obtain ⟨rfl, rfl, rfl, rfl⟩ : N = N' ∧ C = C' ∧ H = H' ∧ W = W' := by simpa using hs
      exact ⟨rfl, HEq.rfl⟩
    | _ => exact Op.noConfusion hop
  | dropout p hp s m hm =>
    obtain ⟨g, hm, -⟩ := hm
    exact absurd (ht _ _ hm) (by simp)
  | dropoutEval p s hs' m hm =>
    cases h' with
    | dropout _ _ _ _ hm' =>
      obtain ⟨g, hm', -⟩ := hm'
      exact absurd (ht' _ _ hm') (by simp)
    | dropoutEval p' =>
      subst hs
      exact ⟨rfl, HEq.rfl⟩
    | _ => exact Op.noConfusion hop
  | @convolution N C O a b ha hb =>
    cases h' with
    | @convolution N' C' O' a' b' ha' hb' =>
      obtain ⟨o1, o2, o3, o4⟩ := Op.convolution.inj hop
      obtain ⟨rfl, rfl, s1, s2⟩ : N = N' ∧ C = C' ∧ a.size = a'.size ∧ b.size = b'.size := by simpa using hs
      obtain ⟨rfl, t1, t2⟩ : O = O' ∧ a.out = a'.out ∧ b.out = b'.out := by simpa using ho
      simp only [Prod.mk.injEq, Nat.cast_inj] at o2 o3 o4
      obtain rfl : a = a' := axis_eq ha ha' s1 o2.1 o3.1 o4.1 t1
      obtain rfl : b = b' := axis_eq hb hb' s2 o2.2 o3.2 o4.2 t2
      exact ⟨rfl, HEq.rfl⟩
    | _ => exact Op.noConfusion hop
  | @maxPooling N C a b ha hb =>
    cases h' with
    | @maxPooling N' C' a' b' ha' hb' =>
      obtain ⟨o2, o3, o4⟩ := Op.maxPooling.inj hop
      obtain ⟨rfl, rfl, s1, s2⟩ : N = N' ∧ C = C' ∧ a.size = a'.size ∧ b.size = b'.size := by simpa using hs
      obtain ⟨t1, t2⟩ : a.out = a'.out ∧ b.out = b'.out := by simpa using ho
      simp only [Prod.mk.injEq, Nat.cast_inj] at o2 o3 o4
      obtain rfl : a = a' := axis_eq ha ha' s1 o2.1 o3.1 o4.1 t1
      obtain rfl : b = b' := axis_eq hb hb' s2 o2.2 o3.2 o4.2 t2
      exact ⟨rfl, HEq.rfl⟩
    | _ => exact Op.noConfusion hop

/-- All layers in evaluation mode. -/
theorem unique_frozen {op : Op} {n : Nat} {ishape : Fin n → Shape} {o : Shape} {P P' : Nat}
    {f : (Nat → ℝ) → (Fin P → ℝ) → Args ishape → Elems o} {f' : (Nat → ℝ) → (Fin P' → ℝ) → Args ishape → Elems o}
    {θ : Fin P → ℝ} {θ' : Fin P' → ℝ} {ex ex' : Prop} (h : Computes real t op ishape o P f θ ex)
    (h' : Computes real t' op ishape o P' f' θ' ex') (ht : Frozen t) (ht' : Frozen t') (hb : op.IsNorm → SameStats t t') :
    P = P' ∧ HEq f f' := by
  cases h with
  | @one _ _ _ s _ o₁ _ f _ _ hn hs ho h =>
    cases h' with
    | @one _ _ _ s' _ o₁' _ f' _ _ hn' hs' ho' h' =>
      subst hs ho
      subst hs' ho'
      obtain ⟨rfl, hf⟩ := unique1_frozen h h' rfl rfl rfl ht ht' hb
      obtain rfl := eq_of_heq hf
      exact ⟨rfl, HEq.rfl⟩
    | add => cases h
  | add hn h0 h1 θ =>
    cases h' with
    | one hn' hs' ho' h' => cases h'
    | add => exact ⟨rfl, HEq.rfl⟩

end

end DW.AgainL
