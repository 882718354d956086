import Verif.Props.FloatBackRun
/-!
# C120: a training step of a deep classifier in `float`

Forward pass, `Softmax`, `CrossEntropyLoss`, backward pass and `SGD::step`, compared with a step of exact gradient descent on the exact loss.
-/

set_option autoImplicit false

namespace DW.Props.FloatBackP

open DW.Float DW.Props.FloatSoftmaxP DW.Props.FloatLossP DW.Props.FloatDotP DW.Props.FloatGradP DW.Props.FloatActP DW.Props.FloatAccuracyP
  DW.Props.FloatNetP DW.Props.FloatBatchNormP DW.Props.FloatAdamP DW.Props.FloatAdamStepP
open DW.Props.FloatTrainP hiding tiny slope
open scoped ENNReal

noncomputable section

variable {R : Rounding} {F : Libm R} {q : Sqrt} {ε ε' ρ : ℝ} {B n k m : ℕ}

/-! ## The exact loss -/

/-- The mean cross entropy of the classifier with the parameters `P`, in exact arithmetic. -/
def netLoss (c : Mlp n m) (P : Tensors ℝ c) (T : Fin B → Fin n → ℝ) (label : Fin B → Fin m) : ℝ :=
  -(∑ i, Real.log (softmax (run c P T i) (label i))) / B

/-- `P` is the gradient of the loss with respect to the parameters: it gives the derivative in every direction `V`. -/
def IsLossGradient (c : Mlp n m) (T : Fin B → Fin n → ℝ) (label : Fin B → Fin m) (P : Tensors ℝ c) : Prop :=
  ∀ V : Tensors ℝ c, HasDerivAt (fun t => netLoss c (shift c (values c) t V) T label) (pair c P V) 0

/-- The derivatives of all outputs. -/
theorem outputs_deriv (c : Mlp n m) {T : Fin B → Fin n → ℝ} (hs : Smooth c T) (V : Tensors ℝ c) :
    ∃ z : Fin B → Fin m → ℝ, (∀ i j, HasDerivAt (fun t => run c (shift c (values c) t V) T i j) (z i j) 0) ∧
      ∀ Γ, ∑ i, ∑ j, Γ i j * z i j = pair c (paramGrad c T Γ) V := by
  have key : ∀ Γ : Fin B → Fin m → ℝ, HasDerivAt (fun t => ∑ i, ∑ j, Γ i j * run c (shift c (values c) t V) T i j) (pair c (paramGrad c T Γ) V) 0 := fun Γ => by
    have := gradient_curve c Γ V (X := fun _ => T) (U := fun _ _ => 0) hs rfl fun i r => hasDerivAt_const _ _
    simpa using this
  refine ⟨fun i j => pair c (paramGrad c T fun i' j' => if i' = i ∧ j' = j then 1 else 0) V, fun i j => ?_, fun Γ => ?_⟩
  · have h := key fun i' j' => if i' = i ∧ j' = j then 1 else 0
    have e : (fun t => ∑ i', ∑ j', (if i' = i ∧ j' = j then (1 : ℝ) else 0) * run c (shift c (values c) t V) T i' j') =
        fun t => run c (shift c (values c) t V) T i j := by
      funext t
      rw [Finset.sum_eq_single i (fun i' _ hi => Finset.sum_eq_zero fun j' _ => by rw [if_neg (fun h => hi h.1), zero_mul]) (by simp),
        Finset.sum_eq_single j (fun j' _ hj => by rw [if_neg (fun h => hj h.2), zero_mul]) (by simp)]
      simp
    rw [e] at h
    exact h
  · have h1 := HasDerivAt.fun_sum (u := Finset.univ) fun i (_ : i ∈ Finset.univ) => HasDerivAt.fun_sum (u := Finset.univ) fun j (_ : j ∈ Finset.univ) =>
      (key fun i' j' => if i' = i ∧ j' = j then 1 else 0).const_mul (Γ i j)
    refine HasDerivAt.unique (h1.congr_of_eventuallyEq ?_) (key Γ)
    refine Filter.Eventually.of_forall fun t => Finset.sum_congr rfl fun i _ => Finset.sum_congr rfl fun j _ => ?_
    rw [Finset.sum_eq_single i (fun i' _ hi => Finset.sum_eq_zero fun j' _ => by rw [if_neg (fun h => hi h.1), zero_mul]) (by simp),
      Finset.sum_eq_single j (fun j' _ hj => by rw [if_neg (fun h => hj h.2), zero_mul]) (by simp)]
    simp

/-- The gradient of the loss with respect to the outputs. -/
def logitGrad (z : Fin B → Fin m → ℝ) (label : Fin B → Fin m) (i : Fin B) (j : Fin m) : ℝ := (softmax (z i) j - if j = label i then 1 else 0) / B

/-- The logarithm of a probability along a curve of logits. -/
theorem log_softmax_curve {y : ℝ → Fin m → ℝ} {z : Fin m → ℝ} (l : Fin m) (h : ∀ j, HasDerivAt (fun t => y t j) (z j) 0) :
    HasDerivAt (fun t => Real.log (softmax (y t) l)) (z l - ∑ j, softmax (y 0) j * z j) 0 := by
  simp only [log_softmax]
  have p : 0 < ∑ r, Real.exp (y 0 r) := Finset.sum_pos (fun r _ => Real.exp_pos _) ⟨l, Finset.mem_univ l⟩
  have hs : HasDerivAt (fun t => ∑ r, Real.exp (y t r)) (∑ r, Real.exp (y 0 r) * z r) 0 := HasDerivAt.fun_sum fun r _ => (h r).exp
  have e : ∑ j, softmax (y 0) j * z j = (∑ r, Real.exp (y 0 r) * z r) / ∑ r, Real.exp (y 0 r) := by
    rw [Finset.sum_div]
    exact Finset.sum_congr rfl fun j _ => by unfold softmax; ring
  rw [e]
  exact (h l).sub (hs.log p.ne')

theorem shift_zero (c : Mlp n m) (P V : Tensors ℝ c) : shift c P 0 V = P := by
  induction c with
  | nil => rfl
  | linear W b c ih =>
    have := ih P.2 V.2
    show (((fun j r => P.1.1 j r + 0 * V.1.1 j r, fun j => P.1.2 j + 0 * V.1.2 j), shift c P.2 0 V.2) : Tensors ℝ (.linear W b c)) = ((P.1.1, P.1.2), P.2)
    rw [this]
    simp
  | act a c ih => exact ih P V

/-- Backpropagation from `Softmax` and the loss gives the gradient of the loss. -/
theorem loss_gradient (c : Mlp n m) {T : Fin B → Fin n → ℝ} (hs : Smooth c T) (label : Fin B → Fin m) :
    IsLossGradient c T label (paramGrad c T (logitGrad (chain c.chain T) label)) := fun V => by
  obtain ⟨z, hz, hpair⟩ := outputs_deriv c hs V
  rw [← hpair]
  have h0 : run c (shift c (values c) 0 V) T = chain c.chain T := by
    rw [← run_values]
    rw [shift_zero]
  have h1 := fun i => log_softmax_curve (y := fun t => run c (shift c (values c) t V) T i) (label i) fun j => hz i j
  have h2 := (HasDerivAt.fun_sum (u := Finset.univ) fun i (_ : i ∈ Finset.univ) => h1 i).neg.div_const (B : ℝ)
  have e : ∑ i, ∑ j, logitGrad (chain c.chain T) label i j * z i j =
      -(∑ i, (z i (label i) - ∑ j, softmax (run c (shift c (values c) 0 V) T i) j * z i j)) / B := by
    rw [neg_div, Finset.sum_div, ← Finset.sum_neg_distrib]
    refine Finset.sum_congr rfl fun i _ => ?_
    rw [h0]
    unfold logitGrad
    have e1 : ∀ j, (softmax (chain c.chain T i) j - if j = label i then 1 else 0) / B * z i j =
        softmax (chain c.chain T i) j * z i j / B - if j = label i then z i j / B else 0 := fun j => by split_ifs <;> ring
    simp only [e1, Finset.sum_sub_distrib, Finset.sum_ite_eq', Finset.mem_univ, if_true, ← Finset.sum_div]
    ring
  rw [e]
  exact h2

/-! ## The step in `float` -/

/-- The bounds for the gradient of the loss with respect to the outputs, whose errors are up to `d`. -/
def lossBounds (B m : ℕ) (ε d : ℝ) : Bounds := ⟨1 / B, (2 * (m + 5) * u + 3 * ε + 3 * d) / B⟩

theorem logitGrad_le (hB : 0 < B) (z : Fin B → Fin m → ℝ) (label : Fin B → Fin m) (i : Fin B) (j : Fin m) : |logitGrad z label i j| ≤ 1 / B := by
  have hBr : (0 : ℝ) < B := by exact_mod_cast hB
  unfold logitGrad
  rw [abs_div, abs_of_pos hBr]
  refine div_le_div_of_nonneg_right ?_ hBr.le
  have h0 := softmax_nonneg (z i) j
  have h1 := softmax_le_one (z i) j
  split_ifs <;> rw [abs_le] <;> constructor <;> linarith

/-- The situations considered: a batch and classes of any size up to `2 ^ 18`, nothing overflows, the exact outputs and their errors are at most
31 and 1/4, and no exact input of ReLU, LeakyReLU or ELU is so near to 0 that the program may get its sign wrong. -/
structure Deep (F : Libm R) (q : Sqrt) (ε ε' ρ : ℝ) (lr : Flt) (X : Fin B → Fin n → Flt) (c : Mlp n m) (A : ℝ) : Prop where
  accurate : Accurate F q ε ρ
  log : LogAccurate F ε'
  log_nonneg : 0 ≤ ε'
  log_le : ε' ≤ 1 / 2 ^ 10
  batch : 0 < B
  batch_le : B ≤ 2 ^ 18
  classes : m ≤ 2 ^ 18
  rate : lr.Finite
  inputs : Within R X (fun i j => (X i j).val) ⟨A, 0⟩
  forward : FitsAll ε ρ c.chain ⟨A, 0⟩
  outputs : (afterAll ε ρ c.chain ⟨A, 0⟩).A + (afterAll ε ρ c.chain ⟨A, 0⟩).d ≤ 31
  errors : (afterAll ε ρ c.chain ⟨A, 0⟩).d ≤ 1 / 4
  backward : FitsBack B ε ρ c ⟨A, 0⟩ (lossBounds B m ε (afterAll ε ρ c.chain ⟨A, 0⟩).d)
  step : FitsStep B ε ρ lr.val c ⟨A, 0⟩ (lossBounds B m ε (afterAll ε ρ c.chain ⟨A, 0⟩).d)
  clear : Clear ε ρ c ⟨A, 0⟩ fun i j => (X i j).val

theorem backward_forward (c : Mlp n m) {X D : Fin B → Fin n → Flt} {Y G : Fin B → Fin m → Flt} {g : Tensors Flt c}
    (h : c.Backward R F q X Y G D g) : c.chain.Forward R F q X Y := by
  induction c with
  | nil => exact h.1
  | linear W b c ih => obtain ⟨Z, E, h1, h2, -⟩ := h; exact ⟨Z, h1, ih h2⟩
  | act a c ih => obtain ⟨Z, E, h1, h2, -⟩ := h; exact ⟨Z, h1, ih h2⟩

/-- **C120**. One training step of a classifier with any number of `Linear` layers and activations, `Softmax`, `CrossEntropyLoss` and `SGD`, in
`float`, whatever the orders of the additions: the reported loss is the exact one up to the given error, and all parameters are finite and within
the bounds of those of a step of exact gradient descent on the exact loss. -/
theorem deep_step {lr : Flt} {X : Fin B → Fin n → Flt} {c c' : Mlp n m} {A : ℝ} (hS : Deep F q ε ε' ρ lr X c A) {label : Fin B → Fin m} {loss : Flt}
    (h : c.Iteration R F q lr X label loss c') :
    (loss.Finite ∧ |loss.val - netLoss c (values c) (fun i j => (X i j).val) label| ≤
      (80 * B + 1.3 * m + 250) * u + 2 * (afterAll ε ρ c.chain ⟨A, 0⟩).d + 2.5 * ε + 76 * ε') ∧
    ∃ P₀, IsLossGradient c (fun i j => (X i j).val) label P₀ ∧
      StepNear B ε ρ lr.val c ⟨A, 0⟩ (lossBounds B m ε (afterAll ε ρ c.chain ⟨A, 0⟩).d) P₀ c' := by
  obtain ⟨Y, P, G, D, g, hP, hl, hG, hb, hs⟩ := h
  have hu := u_pos
  have hL := hS.accurate
  have hε := hL.exp_nonneg
  have hBr : (0 : ℝ) < B := by exact_mod_cast hS.batch
  have hY := network_near hL c.chain hS.inputs hS.forward (backward_forward c hb)
  have hYb : ∀ i j, |(Y i j).val| ≤ 31 := fun i j => (hY.val_le i j).trans hS.outputs
  have hgr := gradient_at (label := label) hS.batch hS.batch_le hY.finite hYb hY.error hS.errors hS.classes hL.exp.neg hε hL.exp_le hP hG
  have hd := hY.nonneg.2
  have hGw : Within R G (logitGrad (chain c.chain fun i j => (X i j).val) label) (lossBounds B m ε (afterAll ε ρ c.chain ⟨A, 0⟩).d) := by
    refine ⟨⟨by simp only [lossBounds]; positivity, by simp only [lossBounds]; positivity⟩, fun i j => (hgr i j).1, fun i j => ?_,
      logitGrad_le hS.batch _ _, fun i j => (hgr i j).2⟩
    obtain ⟨s, -, h2⟩ := hG i
    exact isFloat_mulAdd (h2 j)
  have hloss := loss_at (label := label) hS.batch hS.batch_le hY.finite hYb hY.error hS.classes hL.exp.neg hε hL.exp_le hS.log hS.log_nonneg hS.log_le hP hl
  rw [← run_values] at hloss
  have r := backward_near hL c hS.inputs hGw hS.forward hS.backward hS.clear hb
  exact ⟨hloss, _, loss_gradient c (clear_smooth c hS.inputs hL hS.forward hS.clear hb) label, sgd_near hS.rate hs hS.forward hS.step r.2.2⟩

/-- An iteration can always be executed. -/
theorem iteration_exists {lr : Flt} {X : Fin B → Fin n → Flt} {c : Mlp n m} {A : ℝ} (hS : Deep F q ε ε' ρ lr X c A) (hc : HasWidths c) (hm : 0 < m)
    (label : Fin B → Fin m) : ∃ loss c', c.Iteration R F q lr X label loss c' := by
  obtain ⟨Y, hY, h⟩ := backward_exists F q hS.batch c hc X
  have hw := network_near hS.accurate c.chain hS.inputs hS.forward hY
  obtain ⟨P, hP⟩ := softmax_exists (R := R) (F := F) hw.finite hm
  obtain ⟨s, hs⟩ := sum_exists (R := R) _ (ofFn_ne hS.batch fun i => F.log (P i (label i)))
  choose d hd using fun i : Fin B => dot_exists (R := R) _ (ofFn_ne hm fun j => (lossBackward R P label i j, P i j))
  obtain ⟨D, g, hg⟩ := h fun i j => add R 0 (mul R (P i j) (sub R (lossBackward R P label i j) (d i)))
  obtain ⟨c', hc'⟩ := sgd_exists (R := R) lr c g
  exact ⟨_, c', Y, P, _, D, g, hP, ⟨s, hs, rfl⟩, fun i => ⟨d i, hd i, fun j => .inl rfl⟩, hg, hc'⟩

/-! ## An example -/

/-- `Linear` with one input and two outputs, ReLU, `Linear` with two inputs and two outputs; all weights 1. -/
def classifier : Mlp 1 2 :=
  .linear (k := 2) (fun _ _ => 1) (fun _ => 0) (.act .relu (.linear (k := 2) (fun _ _ => 1) (fun _ => 0) .nil))

theorem rowNorm_ones (k n : ℕ) [Nonempty (Fin k)] : rowNorm (fun (_ : Fin k) (_ : Fin n) => (1 : Flt)) = n := by simp [rowNorm, val_one]

theorem biasNorm_zeros (k : ℕ) [Nonempty (Fin k)] : biasNorm (fun _ : Fin k => (0 : Flt)) = 0 := by simp [biasNorm, val_zero]

theorem gam_tiny {n : ℕ} (hn : n ≤ 2) : gam n ≤ 1 / 10 ^ 6 ∧ tiny n ≤ 1 / 10 ^ 6 :=
  ⟨(gam_mono hn).trans (by unfold gam u; norm_num), (tiny_mono hn).trans (by unfold tiny u η; norm_num)⟩

theorem ones_after {k n : ℕ} [Nonempty (Fin k)] (hn : n ≤ 2) {p : Bounds} (hA0 : 0 ≤ p.A) (hA : p.A ≤ 3) (hd0 : 0 ≤ p.d) (hd : p.d ≤ 1) :
    (after u u (.linear (fun (_ : Fin k) (_ : Fin n) => (1 : Flt)) fun _ => 0) p).A = n * p.A ∧
      0 ≤ (after u u (.linear (fun (_ : Fin k) (_ : Fin n) => (1 : Flt)) fun _ => 0) p).d ∧
      (after u u (.linear (fun (_ : Fin k) (_ : Fin n) => (1 : Flt)) fun _ => 0) p).d ≤ 2 * p.d + 1 / 10 ^ 5 := by
  obtain ⟨hg, ht⟩ := gam_tiny hn
  have hg0 := gam_nonneg n
  have ht0 := tiny_nonneg n
  have hn' : (n : ℝ) ≤ 2 := by exact_mod_cast hn
  have hn0 : (0 : ℝ) ≤ n := Nat.cast_nonneg n
  have m1 : (n : ℝ) * (p.A + p.d) ≤ 2 * 4 := mul_le_mul hn' (by linarith) (by linarith) (by norm_num)
  have m0 : 0 ≤ (n : ℝ) * (p.A + p.d) := mul_nonneg hn0 (by linarith)
  have m2 : gam n * ((n : ℝ) * (p.A + p.d)) ≤ 1 / 10 ^ 6 * 8 := mul_le_mul hg (by linarith) m0 (by norm_num)
  have m3 : 0 ≤ gam n * ((n : ℝ) * (p.A + p.d)) := mul_nonneg hg0 m0
  have m4 : (n : ℝ) * p.d ≤ 2 * p.d := mul_le_mul_of_nonneg_right hn' hd0
  have m5 : 0 ≤ (n : ℝ) * p.d := mul_nonneg hn0 hd0
  simp only [after, rowNorm_ones, biasNorm_zeros, add_zero]
  exact ⟨trivial, by linarith, by linarith⟩

theorem ones_back {k n : ℕ} [Nonempty (Fin n)] (hk : k ≤ 2) {p : Bounds} (hA0 : 0 ≤ p.A) (hA : p.A ≤ 3) (hd0 : 0 ≤ p.d) (hd : p.d ≤ 1) :
    (backLinear (fun (_ : Fin k) (_ : Fin n) => (1 : Flt)) p).A = k * p.A ∧ 0 ≤ (backLinear (fun (_ : Fin k) (_ : Fin n) => (1 : Flt)) p).d ∧
      (backLinear (fun (_ : Fin k) (_ : Fin n) => (1 : Flt)) p).d ≤ 2 * p.d + 1 / 10 ^ 5 := by
  have := ones_after (k := n) hk hA0 hA hd0 hd
  simp only [after, backLinear, rowNorm_ones, biasNorm_zeros, add_zero] at this ⊢
  exact this

/-- The input 1: everything C120 asks for holds. -/
theorem classifier_deep : Deep libm sqrtLib u u u 1 (fun (_ : Fin 1) (_ : Fin 1) => (1 : Flt)) classifier 1 := by
  have hu := u_small
  have hu0 := u_pos
  have hb : (2 : ℝ) ^ 100 ≤ big := by unfold big; norm_num
  have hη : η ≤ 1 / 10 ^ 6 := by unfold η; norm_num
  have hη0 := η_pos
  have hX : ∀ i j, IsFloat binary32 ((fun (_ : Fin 1) (_ : Fin 1) => (1 : Flt)) i j) := fun _ _ => by
    have := binary32.exact 1 0 (by norm_num) (by norm_num)
    rw [pow_zero, mul_one, Nat.cast_one] at this
    exact this
  set f0 : Bounds := ⟨1, 0⟩ with hf0
  set f1 := after u u (.linear (fun (_ : Fin 2) (_ : Fin 1) => (1 : Flt)) fun _ => 0) f0 with hf1
  set f2 := after u u (.linear (fun (_ : Fin 2) (_ : Fin 2) => (1 : Flt)) fun _ => 0) f1 with hf2
  obtain ⟨a1, a2, a3⟩ := ones_after (k := 2) (n := 1) (p := f0) (by norm_num) zero_le_one (by show (1 : ℝ) ≤ 3; norm_num) le_rfl zero_le_one
  rw [← hf1] at a1 a2 a3
  rw [show f0.A = 1 from rfl] at a1
  rw [show f0.d = 0 from rfl] at a3
  norm_num at a1
  obtain ⟨b1, b2, b3⟩ := ones_after (k := 2) (n := 2) (p := f1) le_rfl (by linarith) (by linarith) a2 (by linarith)
  rw [← hf2] at b1 b2 b3
  rw [a1] at b1
  norm_num at b1
  set p := lossBounds 1 2 u f2.d with hp
  have p1 : p.A = 1 := by rw [hp]; simp [lossBounds]
  have p2 : p.d = 17 * u + 3 * f2.d := by rw [hp]; simp only [lossBounds]; push_cast; ring
  set e1 := backLinear (fun (_ : Fin 2) (_ : Fin 2) => (1 : Flt)) p with he1
  obtain ⟨c1, c2, c3⟩ := ones_back (k := 2) (n := 2) (p := p) le_rfl (by linarith) (by linarith) (by linarith) (by linarith)
  rw [← he1] at c1 c2 c3
  rw [p1] at c1
  norm_num at c1
  have cap : ∀ x : ℝ, 0 ≤ x → x ≤ 1000 → ∀ j, j ≤ 5 → (1 + u) ^ j * x ≤ big := fun x h0 hx j hj => by
    have d1 : (1 + u) ^ j ≤ (1 + u) ^ 5 := pow_le_pow_right₀ (by linarith) hj
    have d2 : (1 + u) ^ 5 ≤ 2 := by unfold u; norm_num
    have d3 := mul_le_mul (d1.trans d2) hx h0 (by norm_num)
    exact d3.trans (le_trans (by norm_num) hb)
  have fitF : ∀ (n : ℕ) (p : Bounds), n ≤ 2 → 0 ≤ p.A → p.A ≤ 3 → 0 ≤ p.d → p.d ≤ 1 →
      Fits (.linear (fun (_ : Fin 2) (_ : Fin n) => (1 : Flt)) fun _ => 0) p := fun n p hn h0 h1 h2 h3 => by
    have hn' : (n : ℝ) ≤ 2 := by exact_mod_cast hn
    have hn0 : (0 : ℝ) ≤ n := Nat.cast_nonneg n
    have m1 : (n : ℝ) * (p.A + p.d) ≤ 2 * 4 := mul_le_mul hn' (by linarith) (by linarith) (by norm_num)
    have m0 : 0 ≤ (n : ℝ) * (p.A + p.d) := mul_nonneg hn0 (by linarith)
    have m2 : (n : ℝ) * η ≤ 2 * (1 / 10 ^ 6) := mul_le_mul hn' hη hη0.le (by norm_num)
    have m3 : 0 ≤ (n : ℝ) * η := mul_nonneg hn0 hη0.le
    refine ⟨fun _ _ => finite_one, fun _ => finite_zero, ?_⟩
    rw [rowNorm_ones, biasNorm_zeros]
    exact cap _ (by linarith) (by linarith) _ (by omega)
  have fitB : ∀ (n : ℕ) (_ : Nonempty (Fin n)) (f e : Bounds), 0 ≤ f.A → f.A ≤ 3 → 0 ≤ f.d → f.d ≤ 1 → 0 ≤ e.A → e.A ≤ 3 → 0 ≤ e.d → e.d ≤ 1 →
      FitsLinear 1 (fun (_ : Fin 2) (_ : Fin n) => (1 : Flt)) f e := fun n _ f e h1 h2 h3 h4 h5 h6 h7 h8 => by
    have m : (e.A + e.d) * (f.A + f.d) ≤ 4 * 4 := mul_le_mul (by linarith) (by linarith) (by linarith) (by norm_num)
    have m0 : 0 ≤ (e.A + e.d) * (f.A + f.d) := mul_nonneg (by linarith) (by linarith)
    refine ⟨?_, ?_, ?_⟩
    · rw [rowNorm_ones]
      push_cast
      exact cap _ (by linarith) (by linarith) _ (by norm_num)
    · push_cast
      exact cap _ (by linarith) (by linarith) _ (by norm_num)
    · push_cast
      exact cap _ (by linarith) (by linarith) _ (by norm_num)
  have fitS : ∀ f e : Bounds, 0 ≤ f.A → f.A ≤ 3 → 0 ≤ f.d → f.d ≤ 1 → 0 ≤ e.A → e.A ≤ 3 → 0 ≤ e.d → e.d ≤ 1 →
      |(1 : Flt).val| * (((1 : ℕ) : ℝ) * (e.A * f.A) + weightError 1 f e) ≤ 2 ^ 125 ∧ |(1 : Flt).val| * (((1 : ℕ) : ℝ) * e.A + biasError 1 e) ≤ 2 ^ 125 :=
    fun f e h1 h2 h3 h4 h5 h6 h7 h8 => by
      obtain ⟨hg, ht⟩ := gam_tiny (n := 1) (by norm_num)
      have m1 : e.A * f.A ≤ 3 * 3 := mul_le_mul h6 h2 h1 (by norm_num)
      have m2 : e.d * (f.A + f.d) ≤ 1 * 4 := mul_le_mul h8 (by linarith) (by linarith) (by norm_num)
      have m3 : e.A * f.d ≤ 3 * 1 := mul_le_mul h6 h4 h3 (by norm_num)
      have m4 : (e.A + e.d) * (f.A + f.d) ≤ 4 * 4 := mul_le_mul (by linarith) (by linarith) (by linarith) (by norm_num)
      have m5 : 0 ≤ (e.A + e.d) * (f.A + f.d) := mul_nonneg (by linarith) (by linarith)
      have m6 : gam 1 * ((e.A + e.d) * (f.A + f.d)) ≤ 1 * 16 := mul_le_mul (hg.trans (by norm_num)) (by linarith) m5 (by norm_num)
      have m7 : u * (e.A + e.d) ≤ 1 * 4 := mul_le_mul (by linarith) (by linarith) (by linarith) (by norm_num)
      have m8 : η * (1 + u) ≤ 1 * 2 := mul_le_mul (by linarith) (by linarith) (by linarith) (by norm_num)
      rw [val_one, abs_one]
      unfold weightError biasError
      push_cast
      rw [pow_one]
      have big : (100 : ℝ) ≤ 2 ^ 125 := by norm_num
      constructor <;> refine le_trans ?_ big <;> linarith
  have hw : ∀ j r, |((fun (_ : Fin 2) (_ : Fin 1) => (1 : Flt)) j r).val| ≤ 2 ^ 125 := fun _ _ => by rw [val_one]; norm_num
  have hw2 : ∀ j r, |((fun (_ : Fin 2) (_ : Fin 2) => (1 : Flt)) j r).val| ≤ 2 ^ 125 := fun _ _ => by rw [val_one]; norm_num
  have hz : ∀ j, |((fun (_ : Fin 2) => (0 : Flt)) j).val| ≤ 2 ^ 125 := fun _ => by rw [val_zero]; norm_num
  have s1 := fitS f0 e1 zero_le_one (by show (1 : ℝ) ≤ 3; norm_num) le_rfl zero_le_one (by linarith) (by linarith) c2 (by linarith)
  have s2 := fitS f1 p (by linarith) (by linarith) a2 (by linarith) (by linarith) (by linarith) (by linarith) (by linarith)
  refine
    { accurate := ⟨libm_full, hu0.le, hu.trans (by norm_num), sqrtLib_near, hu0.le, hu.trans (by norm_num)⟩
      log := libm_log
      log_nonneg := hu0.le
      log_le := hu.trans (by norm_num)
      batch := one_pos
      batch_le := by norm_num
      classes := by norm_num
      rate := finite_one
      inputs := inputs_within (fun _ _ => finite_one) hX zero_le_one (fun _ _ => by rw [val_one, abs_one])
      forward := ⟨fitF 1 f0 (by norm_num) zero_le_one (by show (1 : ℝ) ≤ 3; norm_num) le_rfl zero_le_one, trivial,
        fitF 2 f1 le_rfl (by linarith) (by linarith) a2 (by linarith), trivial⟩
      outputs := ?_
      errors := ?_
      backward := ⟨fitB 1 inferInstance f0 e1 zero_le_one (by show (1 : ℝ) ≤ 3; norm_num) le_rfl zero_le_one (by linarith) (by linarith) c2 (by linarith), trivial,
        fitB 2 inferInstance f1 p (by linarith) (by linarith) a2 (by linarith) (by linarith) (by linarith) (by linarith) (by linarith), trivial⟩
      step := ⟨hw, hz, s1.1, s1.2, hw2, hz, s2.1, s2.2, trivial⟩
      clear := ⟨Or.inr fun i j => ?_, trivial⟩ }
  · show f2.A + f2.d ≤ 31
    linarith
  · show f2.d ≤ 1 / 4
    linarith
  · show f1.d < |∑ r : Fin 1, (1 : Flt).val * (1 : Flt).val + (0 : Flt).val|
    rw [Fin.sum_univ_one, val_one, val_zero]
    norm_num
    linarith

/-- There is such an iteration, and its loss is finite. -/
example : ∃ loss c', classifier.Iteration binary32 libm sqrtLib 1 (fun (_ : Fin 1) (_ : Fin 1) => 1) (fun _ => 0) loss c' ∧ loss.Finite :=
  have ⟨loss, c', h⟩ := iteration_exists classifier_deep ⟨one_pos, two_pos, two_pos, two_pos, trivial⟩ two_pos fun _ => 0
  ⟨loss, c', h, (deep_step classifier_deep h).1.1⟩

end

end DW.Props.FloatBackP
