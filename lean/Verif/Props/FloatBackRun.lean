import Verif.Props.FloatBack
/-!
# C119: the step of `SGD`, two runs, and an example
-/

set_option autoImplicit false

namespace DW.Props.FloatBackP

open DW.Float DW.Props.FloatSoftmaxP DW.Props.FloatLossP DW.Props.FloatDotP DW.Props.FloatGradP DW.Props.FloatActP DW.Props.FloatAccuracyP
  DW.Props.FloatNetP DW.Props.FloatBatchNormP DW.Props.FloatAdamP DW.Props.FloatAdamStepP
open DW.Props.FloatTrainP hiding tiny slope
open scoped ENNReal

noncomputable section

variable {R : Rounding} {F : Libm R} {q : Sqrt} {ε ρ : ℝ} {B n k m : ℕ}

/-! ## The step -/

/-- The error of a parameter after the step: `w` is the parameter before it, `s` the exact gradient, `δ` the error of the gradient. -/
def stepError (lr w s δ : ℝ) : ℝ := |lr| * δ + u * |w| + 2.1 * u * (|lr| * (|s| + δ)) + 3 * η

/-- The network `c'` has the layers of `c` and parameters within the bounds of those of exact gradient descent with the gradients `P`. -/
inductive StepNear (B : ℕ) (ε ρ lr : ℝ) : {n m : ℕ} → (c : Mlp n m) → (f p : Bounds) → Tensors ℝ c → Mlp n m → Prop
  | nil {n : ℕ} {f p : Bounds} {P : Tensors ℝ (.nil (n := n))} : StepNear B ε ρ lr .nil f p P .nil
  | linear {n k m : ℕ} {f p : Bounds} {W W' : Fin k → Fin n → Flt} {b b' : Fin k → Flt} {c c' : Mlp k m} {P : Tensors ℝ (.linear W b c)}
      (hW : ∀ j r, (W' j r).Finite ∧ |(W' j r).val - ((W j r).val - lr * P.1.1 j r)| ≤
        stepError lr (W j r).val (P.1.1 j r) (weightError B f (backAll ε ρ c (after ε ρ (.linear W b) f) p)))
      (hb : ∀ j, (b' j).Finite ∧ |(b' j).val - ((b j).val - lr * P.1.2 j)| ≤
        stepError lr (b j).val (P.1.2 j) (biasError B (backAll ε ρ c (after ε ρ (.linear W b) f) p)))
      (h : StepNear B ε ρ lr c (after ε ρ (.linear W b) f) p P.2 c') : StepNear B ε ρ lr (.linear W b c) f p P (.linear W' b' c')
  | act {n m : ℕ} {f p : Bounds} {a : Act} {c c' : Mlp n m} {P : Tensors ℝ (.act a c)}
      (h : StepNear B ε ρ lr c (after ε ρ (a.layer (n := n)) f) p P c') : StepNear B ε ρ lr (.act a c) f p P (.act a c')

/-- Nothing overflows in the step. -/
def FitsStep (B : ℕ) (ε ρ lr : ℝ) : {n m : ℕ} → Mlp n m → (f p : Bounds) → Prop
  | _, _, .nil, _, _ => True
  | _, _, .linear W b c, f, p => (∀ j r, |(W j r).val| ≤ 2 ^ 125) ∧ (∀ j, |(b j).val| ≤ 2 ^ 125) ∧
    |lr| * (B * ((backAll ε ρ c (after ε ρ (.linear W b) f) p).A * f.A) + weightError B f (backAll ε ρ c (after ε ρ (.linear W b) f) p)) ≤ 2 ^ 125 ∧
    |lr| * (B * (backAll ε ρ c (after ε ρ (.linear W b) f) p).A + biasError B (backAll ε ρ c (after ε ρ (.linear W b) f) p)) ≤ 2 ^ 125 ∧
    FitsStep B ε ρ lr c (after ε ρ (.linear W b) f) p
  | n, _, .act a c, f, p => FitsStep B ε ρ lr c (after ε ρ (a.layer (n := n)) f) p

theorem step_near {lr w g w' : Flt} {s δ S : ℝ} (h : SgdStep R lr w g w') (hl : lr.Finite) (hw : w.Finite) (hW : |w.val| ≤ 2 ^ 125)
    (hg : g.Finite ∧ |g.val - s| ≤ δ ∧ |s| ≤ S) (hS : |lr.val| * (S + δ) ≤ 2 ^ 125) :
    w'.Finite ∧ |w'.val - (w.val - lr.val * s)| ≤ stepError lr.val w.val s δ := by
  have hu := u_pos
  obtain ⟨hg, he, hs⟩ := hg
  have h0 := abs_nonneg lr.val
  have h1 : |g.val| ≤ |s| + δ := by linarith [abs_sub_abs_le_abs_sub g.val s]
  have h2 : |lr.val * g.val| ≤ |lr.val| * (|s| + δ) := by rw [abs_mul]; exact mul_le_mul_of_nonneg_left h1 h0
  have h3 : |lr.val| * (|s| + δ) ≤ |lr.val| * (S + δ) := mul_le_mul_of_nonneg_left (by linarith) h0
  obtain ⟨f, e⟩ := sgd_error h hl hw hg hW (h2.trans (h3.trans hS))
  refine ⟨f, ?_⟩
  have e2 := abs_sub_le w'.val (w.val - lr.val * g.val) (w.val - lr.val * s)
  have e3 : |w.val - lr.val * g.val - (w.val - lr.val * s)| ≤ |lr.val| * δ := by
    rw [show w.val - lr.val * g.val - (w.val - lr.val * s) = -(lr.val * (g.val - s)) by ring, abs_neg, abs_mul]
    exact mul_le_mul_of_nonneg_left he h0
  have e4 := mul_le_mul_of_nonneg_left h2 (show 0 ≤ 2.1 * u by positivity)
  unfold stepError
  linarith

theorem sgd_near {lr : Flt} (hl : lr.Finite) {c c' : Mlp n m} {g : Tensors Flt c} (h : c.Sgd R lr g c') {f p : Bounds} {P : Tensors ℝ c}
    (hf : FitsAll ε ρ c.chain f) (hs : FitsStep B ε ρ lr.val c f p) (hP : ParamsNear B ε ρ c f p g P) : StepNear B ε ρ lr.val c f p P c' := by
  induction h generalizing f with
  | nil => exact .nil
  | linear hW hb _ ih =>
    exact .linear (fun j r => step_near (hW j r) hl (hf.1.1 j r) (hs.1 j r) (hP.1 j r) hs.2.2.1)
      (fun j => step_near (hb j) hl (hf.1.2.1 j) (hs.2.1 j) (hP.2.1 j) hs.2.2.2.1) (ih hf.2 hs.2.2.2.2 hP.2.2)
  | act _ ih => exact .act (ih hf.2 hs hP)

/-- **C119** (the step): after a forward and a backward pass and `SGD::step`, all parameters are within the bounds of those of a step of exact
gradient descent from the same parameters. -/
theorem step_follows (hL : Accurate F q ε ρ) {lr : Flt} (hl : lr.Finite) {c c' : Mlp n m} {X D : Fin B → Fin n → Flt} {Y G : Fin B → Fin m → Flt}
    {g : Tensors Flt c} {T : Fin B → Fin n → ℝ} {Γ : Fin B → Fin m → ℝ} {f p : Bounds} (hX : Within R X T f) (hG : Within R G Γ p)
    (hf : FitsAll ε ρ c.chain f) (hb : FitsBack B ε ρ c f p) (hst : FitsStep B ε ρ lr.val c f p) (hc : Clear ε ρ c f T)
    (h : c.Backward R F q X Y G D g) (hs : c.Sgd R lr g c') :
    ∃ D₀ P₀, IsGradient c T Γ D₀ P₀ ∧ StepNear B ε ρ lr.val c f p P₀ c' :=
  have r := backward_near hL c hX hG hf hb hc h
  ⟨_, _, gradient_exact c Γ (clear_smooth c hX hL hf hc h), sgd_near hl hs hf hst r.2.2⟩

/-! ## Two runs -/

/-- The two gradients of the parameters differ by at most twice the bounds. -/
def Agree (B : ℕ) (ε ρ : ℝ) : {n m : ℕ} → (c : Mlp n m) → (f p : Bounds) → Tensors Flt c → Tensors Flt c → Prop
  | _, _, .nil, _, _, _, _ => True
  | _, _, .linear W b c, f, p, g, g' =>
    (∀ j r, |(g.1.1 j r).val - (g'.1.1 j r).val| ≤ 2 * weightError B f (backAll ε ρ c (after ε ρ (.linear W b) f) p)) ∧
    (∀ j, |(g.1.2 j).val - (g'.1.2 j).val| ≤ 2 * biasError B (backAll ε ρ c (after ε ρ (.linear W b) f) p)) ∧
    Agree B ε ρ c (after ε ρ (.linear W b) f) p g.2 g'.2
  | n, _, .act a c, f, p, g, g' => Agree B ε ρ c (after ε ρ (a.layer (n := n)) f) p g g'

theorem twice {x y z d : ℝ} (h : |x - z| ≤ d) (h' : |y - z| ≤ d) : |x - y| ≤ 2 * d := by
  have := abs_sub_le x z y
  rw [abs_sub_comm z y] at this
  linarith

theorem agree_of_near (c : Mlp n m) {f p : Bounds} {g g' : Tensors Flt c} {P : Tensors ℝ c} (h : ParamsNear B ε ρ c f p g P)
    (h' : ParamsNear B ε ρ c f p g' P) : Agree B ε ρ c f p g g' := by
  induction c generalizing f with
  | nil => trivial
  | linear W b c ih =>
    exact ⟨fun j r => twice (h.1 j r).2.1 (h'.1 j r).2.1, fun j => twice (h.2.1 j).2.1 (h'.2.1 j).2.1, ih h.2.2 h'.2.2⟩
  | act a c ih => exact ih (P := P) h h'

/-- **C119** (reproducibility): the gradients of two runs, with different orders of summation, fused or not, agree up to twice the bounds. -/
theorem gradients_agree (hL : Accurate F q ε ρ) (c : Mlp n m) {X D D' : Fin B → Fin n → Flt} {Y Y' G : Fin B → Fin m → Flt} {g g' : Tensors Flt c}
    {T : Fin B → Fin n → ℝ} {Γ : Fin B → Fin m → ℝ} {f p : Bounds} (hX : Within R X T f) (hG : Within R G Γ p) (hf : FitsAll ε ρ c.chain f)
    (hb : FitsBack B ε ρ c f p) (hc : Clear ε ρ c f T) (h : c.Backward R F q X Y G D g) (h' : c.Backward R F q X Y' G D' g') :
    (∀ i r, |(D i r).val - (D' i r).val| ≤ 2 * (backAll ε ρ c f p).d) ∧ Agree B ε ρ c f p g g' := by
  have r := backward_near hL c hX hG hf hb hc h
  have r' := backward_near hL c hX hG hf hb hc h'
  exact ⟨fun i j => twice (r.2.1.error i j) (r'.2.1.error i j), agree_of_near c r.2.2 r'.2.2⟩

/-! ## There are such runs -/

/-- No layer `Linear` without inputs or outputs. -/
def HasWidths : {n m : ℕ} → Mlp n m → Prop
  | _, _, .nil => True
  | n, _, .linear (k := k) _ _ c => 0 < n ∧ 0 < k ∧ HasWidths c
  | _, _, .act _ c => HasWidths c

theorem act_exists (F : Libm R) (q : Sqrt) (a : Act) (X : Fin B → Fin n → Flt) : ∃ Z, a.layer.Forward R F q X Z := by
  cases a <;> exact ⟨_, fun _ _ => rfl⟩

theorem backward_exists (F : Libm R) (q : Sqrt) (hB : 0 < B) (c : Mlp n m) (hc : HasWidths c) (X : Fin B → Fin n → Flt) :
    ∃ Y, c.chain.Forward R F q X Y ∧ ∀ G, ∃ D g, c.Backward R F q X Y G D g := by
  induction c with
  | nil => exact ⟨X, rfl, fun G => ⟨G, (), rfl, rfl⟩⟩
  | linear W b c ih =>
    have hn : ∀ (i : Fin B) j, List.ofFn (fun r => (X i r, W j r)) ≠ [] := fun i j => by
      rw [Ne, List.ofFn_eq_nil_iff]
      exact hc.1.ne'
    choose z hz using fun i j => dot_exists (R := R) _ (hn i j)
    obtain ⟨Y, hY, h⟩ := ih hc.2.2 fun i j => add R (z i j) (b j)
    refine ⟨Y, ⟨_, fun i j => ⟨z i j, hz i j, rfl⟩, hY⟩, fun G => ?_⟩
    obtain ⟨E, g, hg⟩ := h G
    choose dW hdW using fun j r => dot_exists (R := R) (List.ofFn fun i => (E i j, X i r)) (by rw [Ne, List.ofFn_eq_nil_iff]; exact hB.ne')
    choose db hdb using fun j => sum_exists (R := R) (List.ofFn fun i => E i j) (by rw [Ne, List.ofFn_eq_nil_iff]; exact hB.ne')
    choose D hD using fun i r => dot_exists (R := R) (List.ofFn fun j => (E i j, W j r)) (by rw [Ne, List.ofFn_eq_nil_iff]; exact hc.2.1.ne')
    exact ⟨D, ((dW, db), g), _, E, fun i j => ⟨z i j, hz i j, rfl⟩, hg, ⟨hdW, hdb⟩, fun i r => ⟨D i r, hD i r, Or.inl rfl⟩⟩
  | act a c ih =>
    obtain ⟨Z, hZ⟩ := act_exists F q a X
    obtain ⟨Y, hY, h⟩ := ih hc Z
    refine ⟨Y, ⟨Z, hZ, hY⟩, fun G => ?_⟩
    obtain ⟨E, g, hg⟩ := h G
    exact ⟨_, g, Z, E, hZ, hg, fun _ _ => rfl⟩

theorem sgd_exists (lr : Flt) (c : Mlp n m) (g : Tensors Flt c) : ∃ c', c.Sgd R lr g c' := by
  induction c with
  | nil => exact ⟨_, .nil⟩
  | linear W b c ih =>
    obtain ⟨c', h⟩ := ih g.2
    exact ⟨_, .linear (fun _ _ => Or.inl rfl) (fun _ => Or.inl rfl) h⟩
  | act a c ih =>
    obtain ⟨c', h⟩ := ih g
    exact ⟨_, .act h⟩

/-! ## An example -/

/-- `Linear`, ReLU, `Linear` with one number in each layer and weights 1. -/
def tower : Mlp 1 1 :=
  .linear (k := 1) (fun _ _ => 1) (fun _ => 0) (.act .relu (.linear (k := 1) (fun _ _ => 1) (fun _ => 0) .nil))

theorem rowNorm_one : rowNorm (fun (_ : Fin 1) (_ : Fin 1) => (1 : Flt)) = 1 := by simp [rowNorm, val_one]

theorem biasNorm_zero : biasNorm (fun _ : Fin 1 => (0 : Flt)) = 0 := by simp [biasNorm, val_zero]

/-- The bounds after a layer with one weight 1, and before it. -/
theorem one_bounds {p : Bounds} (hp0 : 0 ≤ p.d) {d : ℝ} (hd : p.d ≤ d) (hA : p.A = 1) (h1 : d ≤ 1) :
    ((after u u (.linear (fun (_ : Fin 1) (_ : Fin 1) => (1 : Flt)) fun _ => 0) p).A = 1 ∧
      0 ≤ (after u u (.linear (fun (_ : Fin 1) (_ : Fin 1) => (1 : Flt)) fun _ => 0) p).d ∧
      (after u u (.linear (fun (_ : Fin 1) (_ : Fin 1) => (1 : Flt)) fun _ => 0) p).d ≤ d + 1 / 10 ^ 6) ∧
    (backLinear (fun (_ : Fin 1) (_ : Fin 1) => (1 : Flt)) p).A = 1 ∧ 0 ≤ (backLinear (fun (_ : Fin 1) (_ : Fin 1) => (1 : Flt)) p).d ∧
      (backLinear (fun (_ : Fin 1) (_ : Fin 1) => (1 : Flt)) p).d ≤ d + 1 / 10 ^ 6 := by
  have hg : gam 1 ≤ 4 / 10 ^ 7 := by unfold gam u; norm_num
  have hg0 := gam_nonneg 1
  have ht : tiny 1 ≤ 1 / 10 ^ 7 := by unfold tiny u η; norm_num
  have ht0 := tiny_nonneg 1
  have e := rowNorm_one
  have e' := biasNorm_zero
  have m0 : 0 ≤ gam 1 * (1 + p.d) := mul_nonneg hg0 (by linarith)
  have m1 : gam 1 * (1 + p.d) ≤ 4 / 10 ^ 7 * 2 := mul_le_mul hg (by linarith) (by linarith) (by norm_num)
  simp only [after, backLinear, e, e', hA]
  exact ⟨⟨by norm_num, by linarith, by linarith⟩, by norm_num, by linarith, by linarith⟩

/-- For the input 1 and the gradient 1 of the output, the gradient of the first weight is 1 up to the bound: all hypotheses of C119 can be met. -/
example : ∃ Y D g, tower.Backward (B := 1) binary32 libm sqrtLib (fun _ _ => 1) Y (fun _ _ => 1) D g ∧
    (g.1.1 0 0).Finite ∧ |(g.1.1 0 0).val - 1| ≤ 1 / 10 ^ 4 ∧ ∃ c', tower.Sgd binary32 1 g c' := by
  obtain ⟨Y, -, h⟩ := backward_exists (B := 1) (R := binary32) libm sqrtLib one_pos tower ⟨one_pos, one_pos, one_pos, one_pos, trivial⟩ fun _ _ => 1
  obtain ⟨D, g, hg⟩ := h fun _ _ => 1
  have hu := u_small
  have hb : (2 : ℝ) ^ 100 ≤ big := by unfold big; norm_num
  have hX : ∀ i j, IsFloat binary32 ((fun (_ : Fin 1) (_ : Fin 1) => (1 : Flt)) i j) := fun _ _ => by
    have := binary32.exact 1 0 (by norm_num) (by norm_num)
    rw [pow_zero, mul_one, Nat.cast_one] at this
    exact this
  have w := inputs_within (R := binary32) (X := fun (_ : Fin 1) (_ : Fin 1) => (1 : Flt)) (fun _ _ => finite_one) hX zero_le_one (fun _ _ => by rw [val_one, abs_one])
  set f0 : Bounds := ⟨1, 0⟩ with hf0
  set f1 := after u u (.linear (fun (_ : Fin 1) (_ : Fin 1) => (1 : Flt)) fun _ => 0) f0 with hf1
  set e1 := backLinear (fun (_ : Fin 1) (_ : Fin 1) => (1 : Flt)) f0 with he1
  obtain ⟨⟨a1, a2, a3⟩, b1, b2, b3⟩ := one_bounds (p := f0) (d := 0) le_rfl le_rfl rfl zero_le_one
  rw [← hf1] at a1 a2 a3
  rw [← he1] at b1 b2 b3
  have hη : η ≤ 1 / 10 ^ 6 := by unfold η; norm_num
  have hη0 := η_pos
  have cap : ∀ x : ℝ, 0 ≤ x → x ≤ 100 → ∀ j, j ≤ 3 → (1 + u) ^ j * x ≤ big := fun x h0 hx j hj => by
    have c1 : (1 + u) ^ j ≤ (1 + u) ^ 3 := pow_le_pow_right₀ (by linarith [u_pos]) hj
    have c2 : (1 + u) ^ 3 ≤ 2 := by unfold u; norm_num
    have c3 := mul_le_mul (c1.trans c2) hx h0 (by norm_num)
    refine c3.trans (le_trans (by norm_num) hb)
  have fitF : ∀ p : Bounds, p.A = 1 → 0 ≤ p.d → p.d ≤ 1 → Fits (.linear (fun (_ : Fin 1) (_ : Fin 1) => (1 : Flt)) fun _ => 0) p := fun p h1 h2 h3 => by
    refine ⟨fun _ _ => finite_one, fun _ => finite_zero, ?_⟩
    rw [rowNorm_one, biasNorm_zero, h1]
    push_cast
    exact cap _ (by linarith) (by linarith) _ (by norm_num)
  have fitB : ∀ p e : Bounds, p.A = 1 → 0 ≤ p.d → p.d ≤ 1 → e.A = 1 → 0 ≤ e.d → e.d ≤ 1 →
      FitsLinear 1 (fun (_ : Fin 1) (_ : Fin 1) => (1 : Flt)) p e := fun p e h1 h2 h3 h4 h5 h6 => by
    have m : (1 + e.d) * (1 + p.d) ≤ 2 * 2 := mul_le_mul (by linarith) (by linarith) (by linarith) (by norm_num)
    have m0 : 0 ≤ (1 + e.d) * (1 + p.d) := mul_nonneg (by linarith) (by linarith)
    refine ⟨?_, ?_, ?_⟩
    · rw [rowNorm_one, h4]
      push_cast
      exact cap _ (by linarith) (by linarith) _ (by norm_num)
    · rw [h1, h4]
      push_cast
      exact cap _ (by linarith) (by linarith) _ (by norm_num)
    · rw [h4]
      push_cast
      exact cap _ (by linarith) (by linarith) _ (by norm_num)
  have r := (backward_near (ε := u) (ρ := u) ⟨libm_full, u_pos.le, hu.trans (by norm_num), sqrtLib_near, u_pos.le, hu.trans (by norm_num)⟩ tower w
    (inputs_within (R := binary32) (fun _ _ => finite_one) hX zero_le_one (fun _ _ => by rw [val_one, abs_one])) (p := f0)
    ⟨fitF f0 rfl le_rfl zero_le_one, trivial, fitF f1 a1 a2 (by linarith), trivial⟩
    ⟨fitB f0 e1 rfl le_rfl zero_le_one b1 b2 (by linarith), trivial, fitB f1 f0 a1 a2 (by linarith) rfl le_rfl zero_le_one, trivial⟩ ⟨Or.inr fun i j => by
      show f1.d < |∑ r : Fin 1, (1 : Flt).val * (1 : Flt).val + (0 : Flt).val|
      rw [Fin.sum_univ_one, val_one, val_zero]
      norm_num
      linarith, trivial⟩ hg).2.2
  refine ⟨Y, D, g, hg, (r.1 0 0).1, ?_, sgd_exists 1 tower g⟩
  have r1 := (r.1 0 0).2.1
  have e : (paramGrad tower (fun (_ : Fin 1) (_ : Fin 1) => (1 : Flt).val) fun (_ : Fin 1) (_ : Fin 1) => (1 : Flt).val).1.1 0 0 = 1 := by
    show ∑ i : Fin 1, (∑ j : Fin 1, (1 : Flt).val * (1 : Flt).val) * slope .relu (∑ r : Fin 1, (1 : Flt).val * (1 : Flt).val + (0 : Flt).val) * (1 : Flt).val = 1
    simp only [Fin.sum_univ_one, val_one, val_zero, slope]
    norm_num
  rw [e] at r1
  refine r1.trans ?_
  show weightError 1 f0 e1 ≤ _
  have hg1 : gam 1 ≤ 4 / 10 ^ 7 := by unfold gam u; norm_num
  have hg0 := gam_nonneg 1
  have ht : tiny 1 ≤ 1 / 10 ^ 7 := by unfold tiny u η; norm_num
  have m1 : gam 1 * (1 + e1.d) ≤ 4 / 10 ^ 7 * 2 := mul_le_mul hg1 (by linarith) (by linarith) (by norm_num)
  unfold weightError
  rw [b1, show f0.A = 1 from rfl, show f0.d = 0 from rfl]
  push_cast
  linarith

end

end DW.Props.FloatBackP
