import Verif.Props.FloatBackExact
import Verif.Props.FloatStep
import Verif.Props.FloatBatchNormRun
/-!
# C119: backpropagation in `float`

The distance of the gradients of a chain of layers from those of exact arithmetic, and of the parameters after a step of `SGD`.
-/

set_option autoImplicit false

namespace DW.Props.FloatBackP

open DW.Float DW.Props.FloatSoftmaxP DW.Props.FloatLossP DW.Props.FloatDotP DW.Props.FloatGradP DW.Props.FloatActP DW.Props.FloatAccuracyP
  DW.Props.FloatNetP DW.Props.FloatBatchNormP
open DW.Props.FloatTrainP hiding tiny slope
open scoped ENNReal

noncomputable section

variable {R : Rounding} {F : Libm R} {q : Sqrt} {ε ρ : ℝ} {B n k m : ℕ}

/-! ## Sums of products -/

theorem isFloat_dot {l : List (Flt × Flt)} {s : Flt} (h : DotOf R l s) : IsFloat R s := by
  induction h with
  | one a b => exact isFloat_mul a b
  | start a b => exact isFloat_add _ _
  | fmaStart a b => exact isFloat_fma _ _ _
  | add _ _ => exact isFloat_add _ _
  | fma _ => exact isFloat_fma _ _ _
  | perm _ _ ih => exact ih

theorem dot_near {a b : Fin n → Flt} {s : Flt} (h : DotOf R (List.ofFn fun r => (a r, b r)) s) (ha : ∀ r, (a r).Finite) (hb : ∀ r, (b r).Finite)
    {S : ℝ} (hS : ∑ r, |(a r).val| * |(b r).val| ≤ S) (hmax : (1 + u) ^ (2 * n + 1) * (S + 3 * n * η) ≤ big) :
    s.Finite ∧ |s.val - ∑ r, (a r).val * (b r).val| ≤ gam n * S + tiny n := by
  have hu := u_pos
  have hη := η_pos
  have hsz : size (List.ofFn fun r => (a r, b r)) = ∑ r, |(a r).val| * |(b r).val| := by
    unfold size
    rw [List.map_ofFn, List.sum_ofFn]
    rfl
  have hex : exact (List.ofFn fun r => (a r, b r)) = ∑ r, (a r).val * (b r).val := by
    unfold exact
    rw [List.map_ofFn, List.sum_ofFn]
    rfl
  have hlen : (List.ofFn fun r => (a r, b r)).length = n := List.length_ofFn
  have hs0 := size_nonneg (List.ofFn fun r => (a r, b r))
  rw [hsz] at hs0
  have g1 : grow n ≤ (1 + u) ^ (2 * n + 1) := pow_le_pow_right₀ (by linarith) (by omega)
  have g0 := grow_ge n
  have hn : (0 : ℝ) ≤ n := Nat.cast_nonneg n
  have hS0 : 0 ≤ S := hs0.trans hS
  have t1 : (3 * (n : ℝ) - 1) * η ≤ 3 * n * η := mul_le_mul_of_nonneg_right (by linarith) hη.le
  obtain ⟨f, e⟩ := dot_good h (by
    simp only [List.mem_ofFn]
    rintro _ ⟨r, rfl⟩
    exact ⟨ha r, hb r⟩) (by
    rw [cap_eq, hlen, hsz]
    refine le_trans ?_ hmax
    have h1 : grow n * (∑ r, |(a r).val| * |(b r).val| + (3 * (n : ℝ) - 1) * η) ≤ grow n * (S + 3 * n * η) :=
      mul_le_mul_of_nonneg_left (by linarith) (by linarith)
    exact h1.trans (mul_le_mul_of_nonneg_right g1 (by positivity)))
  refine ⟨f, ?_⟩
  rw [hex] at e
  refine e.trans ?_
  unfold bound
  rw [hlen, hsz]
  have h1 : (grow n - 1) * ∑ r, |(a r).val| * |(b r).val| ≤ gam n * S := mul_le_mul (by unfold gam; linarith) hS hs0 (gam_nonneg n)
  have h2 : (3 * (n : ℝ) - 1) * η * grow n ≤ tiny n := by
    have h3 : (3 * (n : ℝ) - 1) * η * grow n ≤ 3 * n * η * grow n := mul_le_mul_of_nonneg_right t1 (by linarith)
    exact h3.trans (mul_le_mul_of_nonneg_left g1 (by positivity))
  linarith

theorem zero_accumulate {v : Flt} (hv : v.Finite) (hf : IsFloat R v) : (accumulate R 0 v).Finite ∧ (accumulate R 0 v).val = v.val := by
  have hz : (0 : Flt).val = 0 := by show (Flt.num false 0).val = 0; simp [Flt.val]
  have h := add_exact (R := R) (a := 0) (b := v) (by show (Flt.num false 0).Finite; simp [Flt.Finite]) hv (by
    rw [hz, zero_add]
    rcases v with _ | ⟨s, x⟩
    · exact hv.elim
    have e : ENNReal.ofReal |(Flt.num s x).val| = x := by
      have hx : x ≠ ⊤ := hv
      cases s <;> simp [Flt.val, ENNReal.ofReal_toReal hx]
    rw [e]
    exact hf)
  rw [hz, zero_add] at h
  exact h

/-! ## The bounds -/

/-- The bounds for the gradient of the input of a `Linear` layer with `k` outputs from those for the gradient of its output. -/
def backLinear (W : Fin k → Fin n → Flt) (e : Bounds) : Bounds :=
  ⟨rowNorm (fun r j => W j r) * e.A, rowNorm (fun r j => W j r) * e.d + gam k * (rowNorm (fun r j => W j r) * (e.A + e.d)) + tiny k⟩

/-- The same for an activation whose input has an error up to `d`. -/
def backAct (ε d : ℝ) : Act → Bounds → Bounds
  | .relu, e => e
  | .leakyRelu alpha, e => ⟨max 1 |alpha.val| * e.A, max 1 |alpha.val| * e.d + u * (max 1 |alpha.val| * (e.A + e.d)) + η⟩
  | .elu alpha, e => ⟨max 1 |alpha.val| * e.A, max 1 |alpha.val| * e.d + |alpha.val| * d * e.A +
      (2.1 * u + 1.1 * ε) * (max 1 |alpha.val| * (e.A + e.d)) + (3 * (max 1 |alpha.val| * (e.A + e.d)) + 1) * η⟩
  | .sigmoid, e => ⟨e.A / 4, e.d / 4 + d / 4 * e.A + (3 * u + 1.1 * ε) * (e.A + e.d) + η⟩

/-- The bounds for the gradient of the inputs of the network; `f` are the bounds for the inputs, `p` those for the gradient of the outputs. -/
def backAll (ε ρ : ℝ) : {n m : ℕ} → Mlp n m → (f p : Bounds) → Bounds
  | _, _, .nil, _, p => p
  | _, _, .linear W b c, f, p => backLinear W (backAll ε ρ c (after ε ρ (.linear W b) f) p)
  | n, _, .act a c, f, p => backAct ε f.d a (backAll ε ρ c (after ε ρ (a.layer (n := n)) f) p)

/-- The error of the gradients of weights, for a batch of `B`. -/
def weightError (B : ℕ) (f e : Bounds) : ℝ :=
  B * (e.d * (f.A + f.d) + e.A * f.d) + gam B * (B * ((e.A + e.d) * (f.A + f.d))) + tiny B

/-- The error of the gradients of biases, for a batch of `B`. -/
def biasError (B : ℕ) (e : Bounds) : ℝ := B * e.d + ((1 + u) ^ B - 1) * (B * (e.A + e.d)) + 2 * B * η * (1 + u) ^ B

/-- Nothing overflows in the backward pass of a `Linear` layer. -/
def FitsLinear (B : ℕ) (W : Fin k → Fin n → Flt) (f e : Bounds) : Prop :=
  (1 + u) ^ (2 * k + 1) * (rowNorm (fun r j => W j r) * (e.A + e.d) + 3 * k * η) ≤ big ∧
    (1 + u) ^ (2 * B + 1) * (B * ((e.A + e.d) * (f.A + f.d)) + 3 * B * η) ≤ big ∧ (1 + u) ^ B * (B * (e.A + e.d) + 2 * B * η) ≤ big

/-- Nothing overflows in the backward pass of an activation. -/
def FitsAct : Act → Bounds → Prop
  | .relu, _ => True
  | .leakyRelu alpha, e => |alpha.val| * (e.A + e.d) ≤ big
  | .elu alpha, e => |alpha.val| ≤ 2 ^ 60 ∧ e.A + e.d ≤ 2 ^ 60
  | .sigmoid, e => e.A + e.d ≤ 2 ^ 120

/-- Nothing overflows in the backward pass. -/
def FitsBack (B : ℕ) (ε ρ : ℝ) : {n m : ℕ} → Mlp n m → (f p : Bounds) → Prop
  | _, _, .nil, _, _ => True
  | _, _, .linear W b c, f, p =>
    FitsLinear B W f (backAll ε ρ c (after ε ρ (.linear W b) f) p) ∧ FitsBack B ε ρ c (after ε ρ (.linear W b) f) p
  | n, _, .act a c, f, p =>
    FitsAct a (backAll ε ρ c (after ε ρ (a.layer (n := n)) f) p) ∧ FitsBack B ε ρ c (after ε ρ (a.layer (n := n)) f) p

/-- The exact inputs of ReLU, LeakyReLU and ELU are farther from 0, where these have a kink, than the errors of the program's. -/
def Clear (ε ρ : ℝ) : {n m : ℕ} → Mlp n m → (f : Bounds) → (Fin B → Fin n → ℝ) → Prop
  | _, _, .nil, _, _ => True
  | _, _, .linear W b c, f, T => Clear ε ρ c (after ε ρ (.linear W b) f) (layer (.linear W b) T)
  | n, _, .act a c, f, T => (a = .sigmoid ∨ ∀ i j, f.d < |T i j|) ∧ Clear ε ρ c (after ε ρ (a.layer (n := n)) f) (layer a.layer T)

/-- The gradients `g` of the parameters are finite and within the bounds of `P`, which are not larger than these allow. -/
def ParamsNear (B : ℕ) (ε ρ : ℝ) : {n m : ℕ} → (c : Mlp n m) → (f p : Bounds) → Tensors Flt c → Tensors ℝ c → Prop
  | _, _, .nil, _, _, _, _ => True
  | _, _, .linear W b c, f, p, g, P =>
    (∀ j r, (g.1.1 j r).Finite ∧ |(g.1.1 j r).val - P.1.1 j r| ≤ weightError B f (backAll ε ρ c (after ε ρ (.linear W b) f) p) ∧
      |P.1.1 j r| ≤ B * ((backAll ε ρ c (after ε ρ (.linear W b) f) p).A * f.A)) ∧
    (∀ j, (g.1.2 j).Finite ∧ |(g.1.2 j).val - P.1.2 j| ≤ biasError B (backAll ε ρ c (after ε ρ (.linear W b) f) p) ∧
      |P.1.2 j| ≤ B * (backAll ε ρ c (after ε ρ (.linear W b) f) p).A) ∧
    ParamsNear B ε ρ c (after ε ρ (.linear W b) f) p g.2 P.2
  | n, _, .act a c, f, p, g, P => ParamsNear B ε ρ c (after ε ρ (a.layer (n := n)) f) p g P

/-! ## One layer -/

theorem linear_input_near {W : Fin k → Fin n → Flt} (hW : ∀ j r, (W j r).Finite) {E : Fin B → Fin k → Flt} {Γ : Fin B → Fin k → ℝ} {e : Bounds}
    (he : Within R E Γ e) (hmax : (1 + u) ^ (2 * k + 1) * (rowNorm (fun r j => W j r) * (e.A + e.d) + 3 * k * η) ≤ big) {D : Fin B → Fin n → Flt}
    (h : LinearInputGrad R W E D) : Within R D (fun i r => ∑ j, Γ i j * (W j r).val) (backLinear W e) := by
  have hu := u_pos
  have hη := η_pos
  obtain ⟨hA, hd⟩ := he.nonneg
  have hN := rowNorm_nonneg fun r j => W j r
  have hg0 := gam_nonneg k
  have ht0 := tiny_nonneg k
  have weigh : ∀ (r : Fin n) (z : Fin k → ℝ) (c : ℝ), 0 ≤ c → (∀ j, |z j| ≤ c) → ∑ j, |z j| * |(W j r).val| ≤ rowNorm (fun r j => W j r) * c := by
    intro r z c hc hz
    calc ∑ j, |z j| * |(W j r).val| ≤ ∑ j, c * |(W j r).val| := Finset.sum_le_sum fun j _ => mul_le_mul_of_nonneg_right (hz j) (abs_nonneg _)
      _ = (∑ j, |(W j r).val|) * c := by rw [← Finset.mul_sum, mul_comm]
      _ ≤ rowNorm (fun r j => W j r) * c := mul_le_mul_of_nonneg_right (le_rowNorm (fun r j => W j r) r) hc
  have key : ∀ i r, (D i r).Finite ∧ IsFloat R (D i r) ∧ |(D i r).val - ∑ j, (E i j).val * (W j r).val| ≤
      gam k * (rowNorm (fun r j => W j r) * (e.A + e.d)) + tiny k := fun i r => by
    obtain ⟨s, hs, hD⟩ := h i r
    obtain ⟨f, err⟩ := dot_near hs (he.finite i) (fun j => hW j r) (weigh r (fun j => (E i j).val) _ (by linarith) (he.val_le i)) hmax
    have hz := zero_accumulate f (isFloat_dot hs)
    rcases hD with hD | hD
    · rw [hD]; exact ⟨f, isFloat_dot hs, err⟩
    · rw [hD]; exact ⟨hz.1, isFloat_add _ _, by rw [hz.2]; exact err⟩
  refine ⟨⟨by simp only [backLinear]; positivity, by simp only [backLinear]; positivity⟩, fun i r => (key i r).1, fun i r => (key i r).2.1, fun i r => ?_,
    fun i r => ?_⟩
  · refine (Finset.abs_sum_le_sum_abs _ _).trans ?_
    simp only [abs_mul]
    exact weigh r (Γ i) _ hA (he.size i)
  · have e1 := (key i r).2.2
    have e2 : |∑ j, (E i j).val * (W j r).val - ∑ j, Γ i j * (W j r).val| ≤ rowNorm (fun r j => W j r) * e.d := by
      rw [← Finset.sum_sub_distrib]
      refine (Finset.abs_sum_le_sum_abs _ _).trans ?_
      simp only [← sub_mul, abs_mul]
      exact weigh r (fun j => (E i j).val - Γ i j) _ hd (he.error i)
    have e3 := abs_sub_le (D i r).val (∑ j, (E i j).val * (W j r).val) (∑ j, Γ i j * (W j r).val)
    simp only [backLinear]
    linarith

theorem sum_const_le {z : Fin B → ℝ} {c : ℝ} (h : ∀ i, z i ≤ c) : ∑ i, z i ≤ B * c := by
  refine (Finset.sum_le_sum fun i _ => h i).trans ?_
  rw [Finset.sum_const, Finset.card_univ, Fintype.card_fin, nsmul_eq_mul]

theorem weight_near {X : Fin B → Fin n → Flt} {T : Fin B → Fin n → ℝ} {f : Bounds} (hX : Within R X T f) {E : Fin B → Fin k → Flt}
    {Γ : Fin B → Fin k → ℝ} {e : Bounds} (he : Within R E Γ e)
    (hmax : (1 + u) ^ (2 * B + 1) * (B * ((e.A + e.d) * (f.A + f.d)) + 3 * B * η) ≤ big) {j : Fin k} {r : Fin n} {s : Flt}
    (h : DotOf R (List.ofFn fun i => (E i j, X i r)) s) :
    s.Finite ∧ |s.val - ∑ i, Γ i j * T i r| ≤ weightError B f e ∧ |∑ i, Γ i j * T i r| ≤ B * (e.A * f.A) := by
  obtain ⟨hA, hd⟩ := he.nonneg
  obtain ⟨hA', hd'⟩ := hX.nonneg
  obtain ⟨fin, err⟩ := dot_near h (fun i => he.finite i j) (fun i => hX.finite i r)
    (sum_const_le fun i => mul_le_mul (he.val_le i j) (hX.val_le i r) (abs_nonneg _) (by linarith)) hmax
  refine ⟨fin, ?_, (Finset.abs_sum_le_sum_abs _ _).trans (sum_const_le fun i => by
    rw [abs_mul]
    exact mul_le_mul (he.size i j) (hX.size i r) (abs_nonneg _) hA)⟩
  have e2 : |∑ i, (E i j).val * (X i r).val - ∑ i, Γ i j * T i r| ≤ B * (e.d * (f.A + f.d) + e.A * f.d) := by
    rw [← Finset.sum_sub_distrib]
    refine (Finset.abs_sum_le_sum_abs _ _).trans (sum_const_le fun i => ?_)
    rw [show (E i j).val * (X i r).val - Γ i j * T i r = ((E i j).val - Γ i j) * (X i r).val + Γ i j * ((X i r).val - T i r) by ring]
    refine (abs_add_le _ _).trans ?_
    rw [abs_mul, abs_mul]
    exact add_le_add (mul_le_mul (he.error i j) (hX.val_le i r) (abs_nonneg _) hd) (mul_le_mul (he.size i j) (hX.error i r) (abs_nonneg _) hA)
  have e3 := abs_sub_le s.val (∑ i, (E i j).val * (X i r).val) (∑ i, Γ i j * T i r)
  unfold weightError
  linarith

theorem bias_near {E : Fin B → Fin k → Flt} {Γ : Fin B → Fin k → ℝ} {e : Bounds} (he : Within R E Γ e)
    (hmax : (1 + u) ^ B * (B * (e.A + e.d) + 2 * B * η) ≤ big) {j : Fin k} {s : Flt} (h : SumOf R (List.ofFn fun i => E i j) s) :
    s.Finite ∧ |s.val - ∑ i, Γ i j| ≤ biasError B e ∧ |∑ i, Γ i j| ≤ B * e.A := by
  have hu := u_pos
  have hη := η_pos
  have hm : mass (List.ofFn fun i => E i j) ≤ B * (e.A + e.d) := by
    unfold mass
    rw [List.map_ofFn, List.sum_ofFn]
    exact sum_const_le fun i => he.val_le i j
  have ht : total (List.ofFn fun i => E i j) = ∑ i, (E i j).val := by
    unfold total
    rw [List.map_ofFn, List.sum_ofFn]
    rfl
  have hlen : (List.ofFn fun i => E i j).length = B := List.length_ofFn
  have g0 : 1 ≤ (1 + u) ^ B := one_le_pow₀ (by linarith)
  obtain ⟨f, err⟩ := sum_good h (g := (1 + u) ^ B) (by
    simp only [List.mem_ofFn]
    rintro _ ⟨i, rfl⟩
    exact he.finite i j) (by rw [hlen]) (by
    rw [hlen]
    exact (mul_le_mul_of_nonneg_left (by linarith) (by linarith)).trans hmax)
  refine ⟨f, ?_, (Finset.abs_sum_le_sum_abs _ _).trans (sum_const_le fun i => he.size i j)⟩
  rw [hlen, ht] at err
  have a1 := mul_le_mul_of_nonneg_left hm (sub_nonneg.2 g0)
  have a2 : (2 * (B : ℝ) - 1) * η * (1 + u) ^ B ≤ 2 * B * η * (1 + u) ^ B :=
    mul_le_mul_of_nonneg_right (mul_le_mul_of_nonneg_right (by linarith) hη.le) (by linarith)
  have d : |∑ i, (E i j).val - ∑ i, Γ i j| ≤ B * e.d := by
    rw [← Finset.sum_sub_distrib]
    exact (Finset.abs_sum_le_sum_abs _ _).trans (sum_const_le fun i => he.error i j)
  have t := abs_sub_le s.val (∑ i, (E i j).val) (∑ i, Γ i j)
  unfold biasError
  linarith

/-- The error of a product with two factors that have errors. -/
theorem product_error {g x g' x' A M d δ : ℝ} (hg : |g'| ≤ A) (hx : |x| ≤ M) (hd : |g - g'| ≤ d) (hδ : |x - x'| ≤ δ) :
    |g * x - g' * x'| ≤ M * d + δ * A := by
  rw [show g * x - g' * x' = (g - g') * x + g' * (x - x') by ring]
  refine (abs_add_le _ _).trans ?_
  rw [abs_mul, abs_mul]
  have h1 := mul_le_mul hd hx (abs_nonneg _) ((abs_nonneg _).trans hd)
  have h2 := mul_le_mul hg hδ (abs_nonneg _) ((abs_nonneg _).trans hg)
  linarith

theorem same_side {x t d : ℝ} (h : |x - t| ≤ d) (ht : d < |t|) : (x < 0 ↔ t < 0) ∧ (0 < x ↔ 0 < t) := by
  obtain ⟨h1, h2⟩ := abs_le.1 h
  rcases le_total 0 t with h0 | h0
  · rw [abs_of_nonneg h0] at ht
    exact ⟨⟨fun _ => by linarith, fun _ => by linarith⟩, ⟨fun _ => by linarith, fun _ => by linarith⟩⟩
  · rw [abs_of_nonpos h0] at ht
    exact ⟨⟨fun _ => by linarith, fun _ => by linarith⟩, ⟨fun _ => by linarith, fun _ => by linarith⟩⟩

theorem sigmoid_unit (x : ℝ) : 0 ≤ Spec.sigmoid x ∧ Spec.sigmoid x ≤ 1 := by
  unfold Spec.sigmoid
  refine ⟨by positivity, ?_⟩
  rw [div_le_one (by positivity)]
  linarith [Real.exp_pos (-x)]

theorem act_back_near (hL : Accurate F q ε ρ) (a : Act) {X Z E : Fin B → Fin n → Flt} {T Γ : Fin B → Fin n → ℝ} {f e : Bounds} (hX : Within R X T f)
    (hf : Fits (a.layer (n := n)) f) (hZ : a.layer.Forward R F q X Z) (he : Within R E Γ e) (hfit : FitsAct a e)
    (hc : a = .sigmoid ∨ ∀ i j, f.d < |T i j|) :
    (0 ≤ (backAct ε f.d a e).A ∧ 0 ≤ (backAct ε f.d a e).d) ∧ ∀ i j, (a.back R F (X i j) (Z i j) (E i j)).Finite ∧
      IsFloat R (a.back R F (X i j) (Z i j) (E i j)) ∧ |Γ i j * slope a (T i j)| ≤ (backAct ε f.d a e).A ∧
      |(a.back R F (X i j) (Z i j) (E i j)).val - Γ i j * slope a (T i j)| ≤ (backAct ε f.d a e).d := by
  have hu := u_pos
  have hη := η_pos
  obtain ⟨hF, hε, hε', hq, hρ, hρ'⟩ := hL
  obtain ⟨hA, hd⟩ := he.nonneg
  obtain ⟨hA', hd'⟩ := hX.nonneg
  have side : a ≠ .sigmoid → ∀ i j, ((X i j).val < 0 ↔ T i j < 0) ∧ (0 < (X i j).val ↔ 0 < T i j) := fun ha i j =>
    same_side (hX.error i j) (hc.resolve_left ha i j)
  cases a with
  | relu =>
    refine ⟨⟨hA, hd⟩, fun i j => ?_⟩
    obtain ⟨f1, f2⟩ := reluBack_exact (hX.finite i j) (he.finite i j)
    have hs := (side (by simp) i j).2
    refine ⟨f1, ?_, ?_, ?_⟩
    · show IsFloat R (reluBack (X i j) (E i j))
      unfold reluBack
      split_ifs
      · exact he.isFloat i j
      · exact isFloat_zero
    · show |Γ i j * slope .relu (T i j)| ≤ e.A
      simp only [slope]
      split_ifs
      · rw [mul_one]; exact he.size i j
      · rw [mul_zero, abs_zero]; exact hA
    · show |(reluBack (X i j) (E i j)).val - Γ i j * slope .relu (T i j)| ≤ e.d
      rw [f2]
      simp only [slope, hs]
      split_ifs
      · rw [mul_one]; exact he.error i j
      · rw [mul_zero, sub_zero, abs_zero]; exact hd
  | leakyRelu alpha =>
    have l1 := le_max_left 1 |alpha.val|
    have l2 := le_max_right 1 |alpha.val|
    set M := max 1 |alpha.val| with hM
    have hM0 : 0 ≤ M := by linarith
    have hsl : ∀ x, |slope (.leakyRelu alpha) x| ≤ M := fun x => by
      simp only [slope]
      split_ifs
      · exact l2
      · rw [abs_one]; exact l1
    refine ⟨⟨by simp only [backAct]; positivity, by simp only [backAct]; positivity⟩, fun i j => ?_⟩
    have near := leakyReluBack_near (R := R) hf.1 (hX.finite i j) (he.finite i j) (by
      rw [abs_mul, mul_comm]
      exact (mul_le_mul_of_nonneg_left (he.val_le i j) (abs_nonneg _)).trans hfit)
    have hs : (if (X i j).val < 0 then alpha.val else 1) = slope (.leakyRelu alpha) (T i j) := by
      simp only [slope, (side (by simp) i j).1]
    rw [hs] at near
    refine ⟨near.1, ?_, ?_, ?_⟩
    · show IsFloat R (leakyReluBack R alpha (X i j) (E i j))
      unfold leakyReluBack
      split_ifs
      · exact isFloat_mul _ _
      · exact he.isFloat i j
    · rw [abs_mul, mul_comm]
      exact mul_le_mul (hsl _) (he.size i j) (abs_nonneg _) hM0
    · show |(leakyReluBack R alpha (X i j) (E i j)).val - _| ≤ _
      have e1 := near.2
      have e2 : |(E i j).val * slope (.leakyRelu alpha) (T i j)| ≤ M * (e.A + e.d) := by
        rw [abs_mul, mul_comm]
        exact mul_le_mul (hsl _) (he.val_le i j) (abs_nonneg _) hM0
      have e3 := product_error (he.size i j) (hsl (T i j)) (he.error i j) (x' := slope (.leakyRelu alpha) (T i j)) (δ := 0) (by simp)
      have e4 := mul_le_mul_of_nonneg_left e2 hu.le
      have e5 := abs_sub_le (leakyReluBack R alpha (X i j) (E i j)).val ((E i j).val * slope (.leakyRelu alpha) (T i j)) (Γ i j * slope (.leakyRelu alpha) (T i j))
      simp only [backAct]
      linarith
  | elu alpha =>
    obtain ⟨hα, hG⟩ := hfit
    have l1 := le_max_left 1 |alpha.val|
    have l2 := le_max_right 1 |alpha.val|
    have hcomm : max |alpha.val| 1 = max 1 |alpha.val| := max_comm _ _
    set M := max 1 |alpha.val| with hM
    have hM0 : 0 ≤ M := by linarith
    have hsl : ∀ x, |slope (.elu alpha) x| ≤ M := fun x => by
      simp only [slope]
      split_ifs with h0
      · rw [abs_mul, abs_of_pos (Real.exp_pos x)]
        have h1 : Real.exp x ≤ 1 := Real.exp_le_one_iff.2 h0.le
        have h2 : |alpha.val| * Real.exp x ≤ |alpha.val| * 1 := mul_le_mul_of_nonneg_left h1 (abs_nonneg _)
        linarith
      · rw [abs_one]; exact l1
    refine ⟨⟨by simp only [backAct]; positivity, by simp only [backAct]; positivity⟩, fun i j => ?_⟩
    have hEb := he.val_le i j
    obtain ⟨f1, err⟩ := eluBack_error hF hε hε' hf.1 (hX.finite i j) (he.finite i j) hα (hEb.trans hG)
    rw [hcomm] at err
    have hs : |slope (.elu alpha) (X i j).val - slope (.elu alpha) (T i j)| ≤ |alpha.val| * f.d := by
      simp only [slope, (side (by simp) i j).1]
      split_ifs with h0
      · rw [← mul_sub, abs_mul]
        exact mul_le_mul_of_nonneg_left ((exp_lipschitz ((side (by simp) i j).1.2 h0).le h0.le).trans (hX.error i j)) (abs_nonneg _)
      · rw [sub_self, abs_zero]; positivity
    refine ⟨f1, isFloat_mul _ _, ?_, ?_⟩
    · rw [abs_mul, mul_comm]
      exact mul_le_mul (hsl _) (he.size i j) (abs_nonneg _) hM0
    · show |(eluBack R F alpha (X i j) (E i j)).val - _| ≤ _
      have err' : |(eluBack R F alpha (X i j) (E i j)).val - (E i j).val * slope (.elu alpha) (X i j).val| ≤
          (2.1 * u + 1.1 * ε) * (M * |(E i j).val|) + (3 * |(E i j).val| * M + 1) * η := err
      have e3 := product_error (he.size i j) (hsl (X i j).val) (he.error i j) hs
      have e4 : M * |(E i j).val| ≤ M * (e.A + e.d) := mul_le_mul_of_nonneg_left hEb hM0
      have e5 := mul_le_mul_of_nonneg_left e4 (show 0 ≤ 2.1 * u + 1.1 * ε by positivity)
      have e6 : (3 * |(E i j).val| * M + 1) * η ≤ (3 * (M * (e.A + e.d)) + 1) * η := mul_le_mul_of_nonneg_right (by linarith) hη.le
      have e7 := abs_sub_le (eluBack R F alpha (X i j) (E i j)).val ((E i j).val * slope (.elu alpha) (X i j).val) (Γ i j * slope (.elu alpha) (T i j))
      simp only [backAct]
      linarith
  | sigmoid =>
    have hsl : ∀ x, |slope .sigmoid x| ≤ 1 / 4 := fun x => by
      obtain ⟨h0, h1⟩ := sigmoid_unit x
      simp only [slope]
      rw [abs_of_nonneg (mul_nonneg h0 (by linarith))]
      have := sq_nonneg (Spec.sigmoid x - 1 / 2)
      linarith
    refine ⟨⟨by simp only [backAct]; positivity, by simp only [backAct]; positivity⟩, fun i j => ?_⟩
    have hEb := he.val_le i j
    have hz : Z i j = Float.sigmoid R F (X i j) := hZ i j
    obtain ⟨f1, err⟩ := sigmoid_gradient_error hF hε hε' (hX.finite i j) (hX.isFloat i j) (he.finite i j) (hEb.trans hfit)
    rw [(DerivL.sigmoid_deriv _).deriv] at err
    have hs : |slope .sigmoid (X i j).val - slope .sigmoid (T i j)| ≤ f.d / 4 := by
      obtain ⟨h0, h1⟩ := sigmoid_unit (X i j).val
      obtain ⟨h2, h3⟩ := sigmoid_unit (T i j)
      have h4 := (sigmoid_lipschitz (X i j).val (T i j)).trans (div_le_div_of_nonneg_right (hX.error i j) (by norm_num))
      simp only [slope]
      rw [show Spec.sigmoid (X i j).val * (1 - Spec.sigmoid (X i j).val) - Spec.sigmoid (T i j) * (1 - Spec.sigmoid (T i j)) =
        (Spec.sigmoid (X i j).val - Spec.sigmoid (T i j)) * (1 - Spec.sigmoid (X i j).val - Spec.sigmoid (T i j)) by ring, abs_mul]
      have h5 : |1 - Spec.sigmoid (X i j).val - Spec.sigmoid (T i j)| ≤ 1 := abs_le.2 ⟨by linarith, by linarith⟩
      have h6 := mul_le_mul h4 h5 (abs_nonneg _) (by positivity)
      linarith
    show (sigmoidBack R (Z i j) (E i j)).Finite ∧ IsFloat R (sigmoidBack R (Z i j) (E i j)) ∧ _ ∧ |(sigmoidBack R (Z i j) (E i j)).val - _| ≤ _
    rw [hz]
    refine ⟨f1, isFloat_mul _ _, ?_, ?_⟩
    · rw [abs_mul]
      have := mul_le_mul (he.size i j) (hsl (T i j)) (abs_nonneg _) hA
      simp only [backAct]
      linarith
    · have err' : |(sigmoidBack R (Float.sigmoid R F (X i j)) (E i j)).val - (E i j).val * slope .sigmoid (X i j).val| ≤
          (3 * u + 1.1 * ε) * |(E i j).val| + η := err
      have e3 := product_error (he.size i j) (hsl (X i j).val) (he.error i j) hs
      have e5 := mul_le_mul_of_nonneg_left hEb (show 0 ≤ 3 * u + 1.1 * ε by positivity)
      have e7 := abs_sub_le (sigmoidBack R (Float.sigmoid R F (X i j)) (E i j)).val ((E i j).val * slope .sigmoid (X i j).val) (Γ i j * slope .sigmoid (T i j))
      simp only [backAct]
      linarith

theorem act_near (hL : Accurate F q ε ρ) (a : Act) {X Z E D : Fin B → Fin n → Flt} {T Γ : Fin B → Fin n → ℝ} {f e : Bounds} (hX : Within R X T f)
    (hf : Fits (a.layer (n := n)) f) (hZ : a.layer.Forward R F q X Z) (he : Within R E Γ e) (hfit : FitsAct a e)
    (hc : a = .sigmoid ∨ ∀ i j, f.d < |T i j|) (h : ∀ i j, D i j = accumulate R 0 (a.back R F (X i j) (Z i j) (E i j))) :
    Within R D (fun i j => Γ i j * slope a (T i j)) (backAct ε f.d a e) := by
  obtain ⟨k1, k2⟩ := act_back_near hL a hX hf hZ he hfit hc
  refine ⟨k1, fun i j => ?_, fun i j => ?_, fun i j => (k2 i j).2.2.1, fun i j => ?_⟩
  · rw [h i j]; exact (zero_accumulate (k2 i j).1 (k2 i j).2.1).1
  · rw [h i j]; exact isFloat_add _ _
  · rw [h i j, (zero_accumulate (k2 i j).1 (k2 i j).2.1).2]; exact (k2 i j).2.2.2

/-! ## All layers -/

theorem clear_smooth (c : Mlp n m) {f : Bounds} {T : Fin B → Fin n → ℝ} {X : Fin B → Fin n → Flt} (hX : Within R X T f)
    (hL : Accurate F q ε ρ) (hf : FitsAll ε ρ c.chain f) (hc : Clear ε ρ c f T) {Y G : Fin B → Fin m → Flt} {D : Fin B → Fin n → Flt} {g : Tensors Flt c}
    (h : c.Backward R F q X Y G D g) : Smooth c T := by
  induction c generalizing f with
  | nil => trivial
  | linear W b c ih =>
    obtain ⟨Z, E, h1, h2, -⟩ := h
    exact ih (layer_near hL _ hX hf.1 h1) hf.2 hc h2
  | act a c ih =>
    obtain ⟨Z, E, h1, h2, -⟩ := h
    refine ⟨hc.1.imp_right fun h0 i j h3 => ?_, ih (layer_near hL _ hX hf.1 h1) hf.2 hc.2 h2⟩
    have := h0 i j
    rw [h3, abs_zero] at this
    linarith [hX.nonneg.2]

theorem backward_near (hL : Accurate F q ε ρ) (c : Mlp n m) {X D : Fin B → Fin n → Flt} {Y G : Fin B → Fin m → Flt} {g : Tensors Flt c}
    {T : Fin B → Fin n → ℝ} {Γ : Fin B → Fin m → ℝ} {f p : Bounds} (hX : Within R X T f) (hG : Within R G Γ p) (hf : FitsAll ε ρ c.chain f)
    (hb : FitsBack B ε ρ c f p) (hc : Clear ε ρ c f T) (h : c.Backward R F q X Y G D g) :
    Within R Y (chain c.chain T) (afterAll ε ρ c.chain f) ∧ Within R D (inputGrad c T Γ) (backAll ε ρ c f p) ∧
      ParamsNear B ε ρ c f p g (paramGrad c T Γ) := by
  induction c generalizing f with
  | nil =>
    obtain ⟨rfl, rfl⟩ := h
    exact ⟨hX, hG, trivial⟩
  | linear W b c ih =>
    obtain ⟨Z, E, h1, h2, h3, h4⟩ := h
    obtain ⟨r1, r2, r3⟩ := ih (layer_near hL _ hX hf.1 h1) hG hf.2 hb.2 hc h2
    exact ⟨r1, linear_input_near hf.1.1 r2 hb.1.1 h4, fun j r => weight_near hX r2 hb.1.2.1 (h3.1 j r), fun j => bias_near r2 hb.1.2.2 (h3.2 j), r3⟩
  | act a c ih =>
    obtain ⟨Z, E, h1, h2, h3⟩ := h
    obtain ⟨r1, r2, r3⟩ := ih (layer_near hL _ hX hf.1 h1) hG hf.2 hb.2 hc.2 h2
    exact ⟨r1, act_near hL a hX hf.1 h1 r2 hb.1 hc.1 h3, r3⟩

/-- **C119**. If nothing can overflow and no exact input of ReLU, LeakyReLU or ELU is so near to 0 that the program may get its sign wrong, then
the gradients the program computes, with respect to the inputs and to all parameters of a network of any depth, are finite and within the
bounds of the exact gradients, whatever the orders in which the sums are computed. -/
theorem gradients_near (hL : Accurate F q ε ρ) (c : Mlp n m) {X D : Fin B → Fin n → Flt} {Y G : Fin B → Fin m → Flt} {g : Tensors Flt c}
    {T : Fin B → Fin n → ℝ} {Γ : Fin B → Fin m → ℝ} {f p : Bounds} (hX : Within R X T f) (hG : Within R G Γ p) (hf : FitsAll ε ρ c.chain f)
    (hb : FitsBack B ε ρ c f p) (hc : Clear ε ρ c f T) (h : c.Backward R F q X Y G D g) :
    ∃ D₀ P₀, IsGradient c T Γ D₀ P₀ ∧ Within R D D₀ (backAll ε ρ c f p) ∧ ParamsNear B ε ρ c f p g P₀ :=
  have r := backward_near hL c hX hG hf hb hc h
  ⟨_, _, gradient_exact c Γ (clear_smooth c hX hL hf hc h), r.2⟩

end

end DW.Props.FloatBackP
