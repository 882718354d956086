import Verif.Lemmas.Conv
/-! The derivatives of convolution. -/

set_option autoImplicit false

namespace DW.ConvL

open DW.Spec DW.MatL DW.FlatL DW.NormL DW.DerivL DW.Im2colL

noncomputable section

theorem sum_swap33 {α β γ δ ε ζ : Type} [Fintype α] [Fintype β] [Fintype γ] [Fintype δ] [Fintype ε] [Fintype ζ]
    (F : α → β → γ → δ → ε → ζ → ℝ) :
    ∑ a, ∑ b, ∑ c, ∑ d, ∑ e, ∑ f, F a b c d e f = ∑ d, ∑ e, ∑ f, ∑ a, ∑ b, ∑ c, F a b c d e f := by
  have := Finset.sum_comm (s := Finset.univ) (t := Finset.univ)
    (f := fun (p : α × β × γ) (q : δ × ε × ζ) => F p.1 p.2.1 p.2.2 q.1 q.2.1 q.2.2)
  simpa only [Fintype.sum_prod_type] using this

theorem pixel_add {H W : Nat} (X Y : Fin H → Fin W → ℝ) (y x : Int) :
    pixel (fun i j => X i j + Y i j) 0 y x = pixel X 0 y x + pixel Y 0 y x := by
  unfold pixel; split <;> simp

theorem pixel_smul {H W : Nat} (k : ℝ) (X : Fin H → Fin W → ℝ) (y x : Int) :
    pixel (fun i j => k * X i j) 0 y x = k * pixel X 0 y x := by
  unfold pixel; split <;> simp

variable {N C O : Nat} {a b : Axis}

theorem conv_backprop_input (W : Fin O → Fin C → Fin a.kernel → Fin b.kernel → ℝ) (bias : Fin O → ℝ)
    (x : Fin N × Fin C × Fin a.size × Fin b.size → ℝ) :
    Backprop (fun (y : Fin N × Fin C × Fin a.size × Fin b.size → ℝ) (p : Fin N × Fin O × Fin a.out × Fin b.out) =>
        conv a b (arr4 y) W bias p.1 p.2.1 p.2.2.1 p.2.2.2) x
      (fun g p => convGradIn a b W (arr4 g) p.1 p.2.1 p.2.2.1 p.2.2.2) := by
  refine backprop_affine (fun y p => ∑ c, ∑ kh : Fin a.kernel, ∑ kw : Fin b.kernel,
      W p.2.1 c kh kw * pixel (arr4 y p.1 c) 0 (a.pos p.2.2.1 kh) (b.pos p.2.2.2 kw)) (fun p => bias p.2.1)
    (fun y z p => ?_) (fun k y p => ?_) (fun y p => by rw [conv, add_comm]) (fun g v => ?_)
  · have : ∀ n c, arr4 (y + z) n c = fun i j => arr4 y n c i j + arr4 z n c i j := fun n c => rfl
    simp only [this, pixel_add, mul_add, Finset.sum_add_distrib]
  · have : ∀ n c, arr4 (k • y) n c = fun i j => k * arr4 y n c i j := fun n c => rfl
    simp only [this, pixel_smul, Finset.mul_sum]
    refine Finset.sum_congr rfl fun c _ => Finset.sum_congr rfl fun kh _ => Finset.sum_congr rfl fun kw _ => by ring
  · simp only [Fintype.sum_prod_type]
    refine Finset.sum_congr rfl fun n _ => ?_
    have hadj : ∀ c : Fin C, ∑ y, ∑ w, convGradIn a b W (arr4 g) n c y w * v (n, c, y, w) =
        ∑ kh : Fin a.kernel, ∑ kw : Fin b.kernel, ∑ r : Fin a.out, ∑ q : Fin b.out,
          (∑ o, W o c kh kw * arr4 g n o r q) * window a b (arr4 v n c) 0 kh kw r q := fun c =>
      (window_adjoint a b (arr4 v n c) fun kh kw r q => ∑ o, W o c kh kw * arr4 g n o r q).symm
    rw [Finset.sum_congr rfl fun c _ => hadj c]
    simp only [Finset.mul_sum, Finset.sum_mul]
    rw [sum_swap33]
    refine Finset.sum_congr rfl fun c _ => Finset.sum_congr rfl fun kh _ => Finset.sum_congr rfl fun kw _ => ?_
    rw [Finset.sum_comm]
    refine Finset.sum_congr rfl fun r _ => ?_
    rw [Finset.sum_comm]
    refine Finset.sum_congr rfl fun q _ => Finset.sum_congr rfl fun o _ => ?_
    simp only [window, arr4]
    ring

theorem conv_backprop_weight (X : Fin N → Fin C → Fin a.size → Fin b.size → ℝ) (bias : Fin O → ℝ)
    (w : Fin O × Fin C × Fin a.kernel × Fin b.kernel → ℝ) :
    Backprop (fun (y : Fin O × Fin C × Fin a.kernel × Fin b.kernel → ℝ) (p : Fin N × Fin O × Fin a.out × Fin b.out) =>
        conv a b X (arr4 y) bias p.1 p.2.1 p.2.2.1 p.2.2.2) w
      (fun g p => ∑ n, ∑ r, ∑ q, arr4 g n p.1 r q * window a b (X n p.2.1) 0 p.2.2.1 p.2.2.2 r q) := by
  refine backprop_affine (fun y p => ∑ c, ∑ kh : Fin a.kernel, ∑ kw : Fin b.kernel,
      arr4 y p.2.1 c kh kw * pixel (X p.1 c) 0 (a.pos p.2.2.1 kh) (b.pos p.2.2.2 kw)) (fun p => bias p.2.1)
    (fun y z p => ?_) (fun k y p => ?_) (fun y p => by rw [conv, add_comm]) (fun g v => ?_)
  · simp only [arr4, Pi.add_apply, add_mul, Finset.sum_add_distrib]
  · simp only [arr4, Pi.smul_apply, smul_eq_mul, Finset.mul_sum, mul_assoc]
  · simp only [Fintype.sum_prod_type]
    rw [Finset.sum_comm]
    refine Finset.sum_congr rfl fun o _ => ?_
    simp only [Finset.mul_sum, Finset.sum_mul]
    rw [sum_swap33]
    refine Finset.sum_congr rfl fun c _ => Finset.sum_congr rfl fun kh _ => Finset.sum_congr rfl fun kw _ =>
      Finset.sum_congr rfl fun n _ => Finset.sum_congr rfl fun r _ => Finset.sum_congr rfl fun q _ => ?_
    simp only [window, arr4]
    ring

theorem conv_backprop_bias (X : Fin N → Fin C → Fin a.size → Fin b.size → ℝ)
    (W : Fin O → Fin C → Fin a.kernel → Fin b.kernel → ℝ) (bias : Fin O → ℝ) :
    Backprop (fun (y : Fin O → ℝ) (p : Fin N × Fin O × Fin a.out × Fin b.out) =>
        conv a b X W y p.1 p.2.1 p.2.2.1 p.2.2.2) bias (fun g o => ∑ n, ∑ r, ∑ q, arr4 g n o r q) := by
  refine backprop_affine (fun y p => y p.2.1) (fun p => conv a b X W 0 p.1 p.2.1 p.2.2.1 p.2.2.2)
    (fun y z p => rfl) (fun k y p => rfl) (fun y p => by simp [conv]) (fun g v => ?_)
  simp only [Fintype.sum_prod_type]
  rw [Finset.sum_comm]
  simp only [Finset.sum_mul, arr4]

end

end DW.ConvL
