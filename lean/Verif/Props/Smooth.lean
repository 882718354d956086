import Verif.Spec.Smooth
import Verif.Props.LayerSpec
import Verif.Lemmas.Values
/-! # Layers are differentiable away from their kinks -/

set_option autoImplicit false

namespace DW.Props.SmoothP

open DW DW.Spec DW.ValueL DW.ConvL DW.ContractL DW.MatL DW.FlatL DW.DerivL DW.NormL DW.Props.ElementwiseP DW.Props.MaxPoolP DW.Props.ContractP

noncomputable section

theorem map_differentiable {s : Shape} {f : ℝ → ℝ} {θ : Fin 0 → ℝ} {x : Elems s} (h : ∀ i, DifferentiableAt ℝ f (x i)) :
    DifferentiableAt ℝ (mapFn s f θ) x :=
  differentiableAt_pi.2 fun i => DifferentiableAt.comp x (g := f) (f := fun y : Elems s => y i) (h i) (differentiableAt_apply i x)

theorem relu_differentiable {x : ℝ} (hx : x ≠ 0) : DifferentiableAt ℝ relu x := by
  rcases lt_or_gt_of_ne hx with h | h
  · refine (differentiableAt_const (0 : ℝ)).congr_of_eventuallyEq ?_
    filter_upwards [eventually_lt_nhds h] with y hy
    exact max_eq_left hy.le
  · refine differentiableAt_id.congr_of_eventuallyEq ?_
    filter_upwards [eventually_gt_nhds h] with y hy
    exact max_eq_right hy.le

theorem leakyRelu_differentiable {a x : ℝ} (hx : x ≠ 0) : DifferentiableAt ℝ (leakyRelu a) x := by
  rcases lt_or_gt_of_ne hx with h | h
  · refine ((differentiableAt_id (x := x)).const_mul a).congr_of_eventuallyEq ?_
    filter_upwards [eventually_lt_nhds h] with y hy
    exact if_neg hy.not_ge
  · refine differentiableAt_id.congr_of_eventuallyEq ?_
    filter_upwards [eventually_gt_nhds h] with y hy
    exact if_pos hy.le

theorem elu_differentiable {a x : ℝ} (hx : x ≠ 0) : DifferentiableAt ℝ (elu a) x := by
  rcases lt_or_gt_of_ne hx with h | h
  · refine ((Real.differentiableAt_exp (x := x)).sub_const 1 |>.const_mul a).congr_of_eventuallyEq ?_
    filter_upwards [eventually_lt_nhds h] with y hy
    exact if_neg hy.not_ge
  · refine differentiableAt_id.congr_of_eventuallyEq ?_
    filter_upwards [eventually_gt_nhds h] with y hy
    exact if_pos hy.le

variable {N C : Nat} {a b : Axis}

/-- Pooling is differentiable if all largest elements of a window are the same function of the image. -/
theorem maxPool_differentiable' (fill : ℝ) (x : Fin N × Fin C × Fin a.size × Fin b.size → ℝ)
    (h : ∀ n c (r : Fin a.out) (q : Fin b.out), ∃ k : Fin a.kernel × Fin b.kernel, ∀ j : Fin a.kernel × Fin b.kernel,
      window a b (arr4 x n c) fill j.1 j.2 r q < window a b (arr4 x n c) fill k.1 k.2 r q ∨
      ∀ y : Fin N × Fin C × Fin a.size × Fin b.size → ℝ,
        window a b (arr4 y n c) fill j.1 j.2 r q = window a b (arr4 y n c) fill k.1 k.2 r q) :
    DifferentiableAt ℝ (fun (y : Fin N × Fin C × Fin a.size × Fin b.size → ℝ) (p : Fin N × Fin C × Fin a.out × Fin b.out) =>
        maxPool a b fill (arr4 y) p.1 p.2.1 p.2.2.1 p.2.2.2) x := by
  choose win hwin using h
  obtain ⟨J, hJ, -⟩ := select_backprop fill x win
  refine (hJ.congr_of_eventuallyEq ?_).differentiableAt
  have hev : ∀ᶠ y in nhds x, ∀ n c r q (k : Fin a.kernel × Fin b.kernel), window a b (arr4 y n c) fill k.1 k.2 r q ≤
      window a b (arr4 y n c) fill (win n c r q).1 (win n c r q).2 r q := by
    simp only [Filter.eventually_all]
    intro n c r q k
    rcases hwin n c r q k with hk | hk
    · exact (((continuous_window fill n c k.1 k.2 r q).continuousAt).eventually_lt
        ((continuous_window fill n c (win n c r q).1 (win n c r q).2 r q).continuousAt) hk).mono fun y hy => hy.le
    · exact Filter.Eventually.of_forall fun y => (hk y).le
  filter_upwards [hev] with y hy
  funext p
  obtain ⟨n, c, r, q⟩ := p
  exact maxPool_eq (arr4 y) (win n c r q) fun kh kw => hy n c r q (kh, kw)

theorem pixel_index {N C H W n c h w : Nat} (hh : h < H) (hw : w < W) :
    pixelPlane [(N : Int), C, H, W] (n * (C * (H * W)) + (c * (H * W) + (h * W + w))) = n * C + c ∧
    pixelRow [(N : Int), C, H, W] (n * (C * (H * W)) + (c * (H * W) + (h * W + w))) = h ∧
    pixelCol [(N : Int), C, H, W] (n * (C * (H * W)) + (c * (H * W) + (h * W + w))) = w := by
  have e : n * (C * (H * W)) + (c * (H * W) + (h * W + w)) = (n * C + c) * (H * W) + (h * W + w) := by ring
  have lt : h * W + w < H * W := by
    calc h * W + w < (h + 1) * W := by rw [Nat.succ_mul]; omega
      _ ≤ H * W := Nat.mul_le_mul_right _ hh
  have e' : (n * C + c) * (H * W) + (h * W + w) = ((n * C + c) * H + h) * W + w := by ring
  simp only [pixelPlane, pixelRow, pixelCol, List.getD_cons_succ, List.getD_cons_zero, Int.toNat_natCast]
  refine ⟨?_, ?_, ?_⟩
  · rw [e, Nat.mul_comm, Nat.mul_add_div (by omega), Nat.div_eq_of_lt lt, Nat.add_zero]
  · rw [e, e', Nat.mul_comm _ W, Nat.mul_add_div (by omega), Nat.div_eq_of_lt hw, Nat.add_zero, Nat.mul_add_mod', Nat.mod_eq_of_lt hh]
  · rw [e, e', Nat.mul_add_mod', Nat.mod_eq_of_lt hw]

/-- Without padding and with a window that is not larger than the image, the windows are inside the image. -/
theorem pos_inside {a : Axis} (ha : a.Plain) (hp : a.pad = 0) (hk : a.kernel ≤ a.size) (r : Fin a.out) (k : Fin a.kernel) :
    0 ≤ a.pos r k ∧ a.pos r k < a.size := by
  obtain ⟨hs, ho⟩ := ha.valid
  have hr := r.isLt
  have hk' := k.isLt
  unfold Axis.pos
  rw [ha.dil, hp]
  rw [ha.dil, hp] at ho
  have e1 : (a.size : Int) + 2 * (0 : Nat) - ((1 : Nat) * ((a.kernel : Int) - 1) + 1) = ((a.size - a.kernel : Nat) : Int) := by omega
  rw [e1, ← Int.ofNat_tdiv] at ho
  have h1 : (a.size - a.kernel) / a.stride + 1 = a.out := by exact_mod_cast ho
  have h2 : r.val * a.stride ≤ a.size - a.kernel :=
    Nat.le_trans (Nat.mul_le_mul_right _ (by omega : r.val ≤ (a.size - a.kernel) / a.stride)) (Nat.div_mul_le_self _ _)
  have h3 : ((r.val : Int) * a.stride) = ((r.val * a.stride : Nat) : Int) := by push_cast; rfl
  rw [h3]
  omega

theorem pool_differentiable (ha : a.Plain) (hb : b.Plain) {o : Shape} (ho : size o = N * (C * (a.out * b.out))) {θ : Fin 0 → ℝ}
    {x : Elems [(N : Int), C, a.size, b.size]}
    (hinj : ∀ i i' : Fin (size [(N : Int), C, a.size, b.size]), Together [(N : Int), C, a.size, b.size] (a.kernel, b.kernel) i i' → x i = x i' → i = i')
    (hx : (a.pad = 0 ∧ b.pad = 0) ∧ a.kernel ≤ a.size ∧ b.kernel ≤ b.size ∨ ∀ i, x i ≠ floatMin) :
    DifferentiableAt ℝ (poolFn a b (size_img N C a.size b.size) ho θ) x := by
  have hs := size_img N C a.size b.size
  have hx : ∀ n c (r : Fin a.out) (q : Fin b.out) (k : Fin a.kernel × Fin b.kernel),
      ¬ ((0 ≤ a.pos r k.1 ∧ a.pos r k.1 < a.size) ∧ 0 ≤ b.pos q k.2 ∧ b.pos q k.2 < b.size) →
      ∀ h w, arr (Spec.imgE hs) x (n, c, h, w) ≠ floatMin := by
    intro n c r q k hout h w
    rcases hx with ⟨⟨h1, h2⟩, h3, h4⟩ | hx
    · exact absurd ⟨pos_inside ha h1 h3 r k.1, pos_inside hb h2 h4 q k.2⟩ hout
    · exact hx _
  have key := maxPool_differentiable' (N := N) (C := C) (a := a) (b := b) floatMin (arr (Spec.imgE hs) x) fun n c r q => by
    haveI : Nonempty (Fin a.kernel × Fin b.kernel) := ⟨⟨0, ha.kernel⟩, ⟨0, hb.kernel⟩⟩
    obtain ⟨k, hk⟩ := Finite.exists_max fun j : Fin a.kernel × Fin b.kernel =>
      window a b (arr4 (arr (Spec.imgE hs) x) n c) floatMin j.1 j.2 r q
    refine ⟨k, fun j => ?_⟩
    rcases (hk j).lt_or_eq with h | h
    · exact .inl h
    · refine .inr fun y => ?_
      revert h
      unfold window pixel
      by_cases h1 : (0 ≤ a.pos r j.1 ∧ a.pos r j.1 < a.size) ∧ 0 ≤ b.pos q j.2 ∧ b.pos q j.2 < b.size <;>
        by_cases h2 : (0 ≤ a.pos r k.1 ∧ a.pos r k.1 < a.size) ∧ 0 ≤ b.pos q k.2 ∧ b.pos q k.2 < b.size
      · rw [dif_pos h1, dif_pos h2, dif_pos h1, dif_pos h2]
        intro h
        have := (Spec.imgE hs).symm.injective (hinj _ _ ?_ h)
        · simp only [Prod.mk.injEq, true_and] at this
          unfold arr4
          rw [this.1, this.2]
        · rw [imgE_val, imgE_val]
          have q1 := pixel_index (N := N) (C := C) (n := n.val) (c := c.val) (h := (a.pos r j.1).toNat) (w := (b.pos q j.2).toNat) (H := a.size)
            (W := b.size) (by omega) (by omega)
          have q2 := pixel_index (N := N) (C := C) (n := n.val) (c := c.val) (h := (a.pos r k.1).toNat) (w := (b.pos q k.2).toNat) (H := a.size)
            (W := b.size) (by omega) (by omega)
          unfold Together
          rw [q1.1, q1.2.1, q1.2.2, q2.1, q2.2.1, q2.2.2, Int.toNat_of_nonneg h1.1.1, Int.toNat_of_nonneg h1.2.1,
            Int.toNat_of_nonneg h2.1.1, Int.toNat_of_nonneg h2.2.1]
          unfold Axis.pos
          rw [ha.dil, hb.dil, abs_lt, abs_lt]
          have := j.1.isLt
          have := j.2.isLt
          have := k.1.isLt
          have := k.2.isLt
          refine ⟨rfl, ⟨?_, ?_⟩, ?_, ?_⟩ <;> push_cast <;> omega
      · rw [dif_pos h1, dif_neg h2]
        exact fun h => absurd h (hx n c r q k h2 _ _)
      · rw [dif_neg h1, dif_pos h2]
        exact fun h => absurd h.symm (hx n c r q j h1 _ _)
      · rw [dif_neg h1, dif_neg h2]
        exact fun _ => by rw [dif_neg h1, dif_neg h2]
  refine differentiableAt_pi.2 fun k => ?_
  have h1 := differentiableAt_pi.1 key (Spec.imgE ho k)
  have h2 : DifferentiableAt ℝ (fun y : Elems [(N : Int), C, a.size, b.size] => arr (Spec.imgE hs) y) x :=
    differentiableAt_pi.2 fun i => differentiableAt_apply ((Spec.imgE hs).symm i) _
  exact DifferentiableAt.comp x (g := fun y : Fin N × Fin C × Fin a.size × Fin b.size → ℝ =>
    maxPool a b floatMin (arr4 y) (Spec.imgE ho k).1 (Spec.imgE ho k).2.1 (Spec.imgE ho k).2.2.1 (Spec.imgE ho k).2.2.2)
    (f := fun y : Elems [(N : Int), C, a.size, b.size] => arr (Spec.imgE hs) y) h1 h2

theorem of_backprop {ι κ : Type} [Fintype ι] [Fintype κ] {f : (ι → ℝ) → (κ → ℝ)} {x : ι → ℝ} {bwd : (κ → ℝ) → (ι → ℝ)}
    (h : Backprop f x bwd) : DifferentiableAt ℝ f x := by
  obtain ⟨J, hJ, -⟩ := h
  exact hJ.differentiableAt

theorem normalise_differentiable {s : Shape} (mu var gamma beta : Fin (size s) → ℝ) (eps : ℝ) (σ : Fin (size s) → Fin (size s))
    (x : Elems s) : DifferentiableAt ℝ (fun (y : Elems s) i => normalise (mu i) (var i) eps (gamma i) (beta i) (y (σ i))) x :=
  differentiableAt_pi.2 fun i => by
    unfold normalise
    simp only [div_eq_mul_inv]
    exact ((((differentiableAt_apply (σ i) x).sub_const _).mul_const _).const_mul _).add_const _

/-- Layers with one argument. -/
theorem differentiable1 {real : F32 → ℝ} {t : InfoTensors} {op : Op} {s o : Shape} {P : Nat}
    {f : (Nat → ℝ) → (Fin P → ℝ) → Elems s → Elems o} {θ₀ : Fin P → ℝ} {ex : Prop} (h : Computes1 real t op s o P f θ₀ ex)
    (r : Nat → ℝ) (θ : Fin P → ℝ) {x : Elems s} (hk : AvoidsKinks op (fun _ : Fin 1 => x)) : DifferentiableAt ℝ (f r θ) x := by
  cases h with
  | relu => exact map_differentiable fun i => relu_differentiable (hk 0 i)
  | leakyReLU => exact map_differentiable fun i => leakyRelu_differentiable (hk 0 i)
  | elu => exact map_differentiable fun i => elu_differentiable (hk 0 i)
  | sigmoid => exact map_differentiable fun i => (sigmoid_deriv _).differentiableAt
  | softmax hn => exact of_backprop (backprop_unary _ _ (softmax_backprop _))
  | linear hne hs hf hc => exact of_backprop (backprop_unary _ _ (linear_backprop_input _ _ _))
  | batchNorm1D eps alpha heps => exact of_backprop (backprop_unary _ _ (batchNorm_backprop _ _ _ heps _))
  | @batchNorm1DEval B n eps alpha heps hn hf _ mu var =>
    exact normalise_differentiable (s := [(B : Int), n]) (fun k => mu (matE (size_mat B n) k).2)
      (fun k => var (matE (size_mat B n) k).2) (fun k => gammaOf θ (matE (size_mat B n) k).2) (fun k => betaOf θ (matE (size_mat B n) k).2) _
      (fun k => (matE (size_mat B n)).symm (matE (size_mat B n) k)) _
  | @batchNorm2D N C H W eps alpha heps =>
    have hb := backprop_reindex (batchNorm_backprop (real eps) (gammaOf θ) (betaOf θ) heps
      (fun p : (Fin N × Fin H × Fin W) × Fin C => pixels (arr4 (arr (Spec.imgE (size_img N C H W)) x)) p.1 p.2))
      (BatchNormP.imgE N C H W) (BatchNormP.imgE N C H W)
    exact of_backprop (backprop_unary (Spec.imgE (size_img N C H W)) (Spec.imgE (size_img N C H W)) hb)
  | @batchNorm2DEval N C H W eps alpha heps hC hn hf _ mu var =>
    exact normalise_differentiable (s := [(N : Int), C, H, W])
      (fun k => mu (Spec.imgE (size_img N C H W) k).2.1) (fun k => var (Spec.imgE (size_img N C H W) k).2.1)
      (fun k => gammaOf θ (Spec.imgE (size_img N C H W) k).2.1) (fun k => betaOf θ (Spec.imgE (size_img N C H W) k).2.1) _
      (fun k => (Spec.imgE (size_img N C H W)).symm (Spec.imgE (size_img N C H W) k)) _
  | @globalAvgPooling N C H W =>
    obtain ⟨bwd, hb, -⟩ := gap_backward (arr (Spec.imgE (size_img N C H W)) x)
    exact of_backprop (backprop_unary (Spec.imgE (size_img N C H W)) (matE (size_pooled N C)) hb)
  | dropout p => exact of_backprop (dropped_backprop (real p) (fun i : Fin (size s) => r i) x)
  | dropoutEval => exact differentiableAt_id
  | @convolution N C O a b =>
    exact of_backprop (backprop_unary (Spec.imgE (size_img N C a.size b.size)) (Spec.imgE (size_img N O a.out b.out))
      (conv_backprop_input _ _ _))
  | maxPooling ha hb =>
    refine pool_differentiable ha hb _ (hk 0).1 ((hk 0).2.imp_left fun h => ?_)
    obtain ⟨h1, h2, h3⟩ := h
    simp only [Prod.mk.injEq, List.getD_cons_succ, List.getD_cons_zero] at h1 h2 h3
    exact ⟨⟨by omega, by omega⟩, by omega, by omega⟩

/-- **C23**: every layer is differentiable at arguments that avoid its kinks. -/
theorem layer_differentiable {real : F32 → ℝ} {t : InfoTensors} {op : Op} {n : Nat} {ishape : Fin n → Shape} {o : Shape} {P : Nat}
    {f : (Nat → ℝ) → (Fin P → ℝ) → Args ishape → Elems o} {θ₀ : Fin P → ℝ} {ex : Prop} (h : Computes real t op ishape o P f θ₀ ex)
    (r : Nat → ℝ) (θ : Fin P → ℝ) {X : Args ishape} (hk : AvoidsKinks op X) : DifferentiableAt ℝ (f r θ) X := by
  cases h with
  | @one _ _ _ s _ o' _ f _ _ hn hs ho h =>
    subst hn ho
    obtain rfl : ishape = fun _ => s := by
      funext j
      rw [← hs]
      congr 1
      exact Subsingleton.elim _ _
    have hX : X = fun _ => X 0 := by
      funext j
      have : j = 0 := Subsingleton.elim _ _
      rw [this]
    rw [hX] at hk
    exact DifferentiableAt.comp X (g := f r θ) (f := fun X : Args fun _ : Fin 1 => s => X 0) (differentiable1 h r θ hk)
      (differentiableAt_apply 0 X)
  | @add _ _ _ hn h0 h1 _ =>
    subst hn
    obtain rfl : ishape = fun _ => o := by
      funext j
      match j with
      | 0 => exact h0
      | 1 => exact h1
    refine differentiableAt_pi.2 fun i => ?_
    have q : ∀ j : Fin 2, DifferentiableAt ℝ (fun X : Args fun _ : Fin 2 => o => X j i) X := fun j =>
      differentiableAt_pi.1 (differentiableAt_apply j X) i
    exact (q 0).add (q 1)

end

end DW.Props.SmoothP
