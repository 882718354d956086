import Verif.Model.FloatValidate
import Verif.Props.FloatMean
import Verif.Props.FloatImage
/-!
# Validation of a network in `float` and in exact arithmetic (C127)
-/

set_option autoImplicit false

namespace DW.Props.FloatValidateP

open DW.Float DW.Props.FloatSoftmaxP DW.Props.FloatLossP DW.Props.FloatDotP DW.Props.FloatActP DW.Props.FloatNormP DW.Props.FloatNetP DW.Props.FloatTrainP
  DW.Props.FloatAdamP DW.Props.FloatAdamStepP DW.Props.FloatImageP DW.Props.FloatCountP DW.Props.FloatMeanP
open scoped ENNReal

noncomputable section

variable {R : Rounding} {F : Libm R} {q : Sqrt} {ε ρ : ℝ} {ι : Type} {B m N : ℕ}

/-- The probabilities of the exact network: those of its outputs' softmax. -/
def prob (f : Net ι (Fin m)) (x : ι → ℝ) (j : Fin m) : ℝ := Real.exp (net f x j) / ∑ r, Real.exp (net f x r)

/-- The exact network chooses `c`, and by more than `e`. -/
def Right (f : Net ι (Fin m)) (e : ℝ) (x : ι → ℝ) (c : Fin m) : Prop := ∀ j, j ≠ c → prob f x j + e < prob f x c

/-- The exact network prefers another class to `c`, and by more than `e`. -/
def Wrong (f : Net ι (Fin m)) (e : ℝ) (x : ι → ℝ) (c : Fin m) : Prop := ∃ j, prob f x c + e < prob f x j

/-- Twice the error of the probabilities (C115), if the outputs before `Softmax` have errors up to `d`. -/
def margin (m : ℕ) (ε d : ℝ) : ℝ := 2 * (Real.exp (2 * d) - 1 + (2 * (m + 1) * u + 3 * ε))

/-- What the loop chooses for an image, if the exact network is not undecided. -/
theorem picks (hL : Accurate F q ε ρ) (hmin : IsFloat R fltMin) (f : Net ι (Fin m)) {X : Fin B → ι → Flt} {Y P : Fin B → Fin m → Flt}
    {T : Fin B → ι → ℝ} {p : Bounds} (hp : ∀ i, Close R (X i) (T i) p) (hf : Fits' ε ρ f p) (h : ∀ i, f.Forward R F q (X i) (Y i))
    (hs : SoftmaxForward R F Y P) (hm : m ≤ 2 ^ 20) (i : Fin B) {k c : Fin m} (hk : IsMax (P i) (P i k)) :
    (Right f (margin m ε (after' ε ρ f p).d) (T i) c → k = c) ∧ (Wrong f (margin m ε (after' ε ρ f p).d) (T i) c → k ≠ c) := by
  have fin : ∀ j, (P i j).Finite := fun j => by
    obtain ⟨y, hy, -, e⟩ := softmax_range hs (fun i => (image_near hL hmin f (hp i) hf (h i)).finite) (hm.trans (by norm_num)) i j
    rw [e]
    exact ne_top_of_le_ne_top ENNReal.one_ne_top hy
  have err : ∀ j, |(P i j).val - prob f (T i) j| ≤ margin m ε (after' ε ρ f p).d / 2 := fun j => by
    have := image_softmax hL hmin f hp hf h hs hm i j
    unfold margin
    rw [mul_div_cancel_left₀ _ (two_ne_zero)]
    exact this
  have big : ∀ j, (P i j).val ≤ (P i k).val := fun j => by
    have := hk.2 j
    rw [lt_iff (fin k) (fin j)] at this
    exact not_lt.1 this
  refine ⟨fun hr => ?_, fun ⟨j, hj⟩ hkc => ?_⟩
  · by_contra hne
    have h1 := hr k hne
    have h2 := (abs_le.1 (err k)).2
    have h3 := (abs_le.1 (err c)).1
    have h4 := big c
    linarith
  · subst hkc
    have h2 := (abs_le.1 (err k)).2
    have h3 := (abs_le.1 (err j)).1
    have h4 := big j
    linarith

open Classical in
/-- **C127.** The accuracy that is printed for a network in `float` and the images that the network in exact arithmetic classifies
right or wrong, with a margin: at least the fraction of the former and at most 1 without the fraction of the latter, up to rounding
of the average. If all are right with a margin, 1 is printed, and if all are wrong with a margin, 0 is. -/
theorem validated (hL : Accurate F q ε ρ) (hmin : IsFloat R fltMin) (f : Net ι (Fin m)) {X : ℕ → Fin B → ι → Flt} {T : ℕ → Fin B → ι → ℝ}
    {p : Bounds} (hp : ∀ t < N, ∀ i, Close R (X t i) (T t i) p) (hf : Fits' ε ρ f p) (hm : m ≤ 2 ^ 20) (hB : 0 < B) (hB' : B ≤ 2 ^ 24) (hN : 0 < N)
    (hN' : N ≤ 2 ^ 20) {c : ℕ → Fin B → Fin m} {r : Flt} (h : NetValidation R F q f X (fun t i => ofNat R (c t i)) N r) :
    r.Finite ∧ 0 ≤ r.val ∧ r.val ≤ 1 ∧
      ((∑ t ∈ Finset.range N, (Finset.univ.filter fun i => Right f (margin m ε (after' ε ρ f p).d) (T t i) (c t i)).card : ℕ) : ℝ) / (N * B)
        - (1.3 * N + 2.5) * u ≤ r.val ∧
      r.val ≤ 1 - ((∑ t ∈ Finset.range N, (Finset.univ.filter fun i => Wrong f (margin m ε (after' ε ρ f p).d) (T t i) (c t i)).card : ℕ) : ℝ) / (N * B)
        + (1.3 * N + 2.5) * u ∧
      ((∀ t < N, ∀ i, Right f (margin m ε (after' ε ρ f p).d) (T t i) (c t i)) → r = 1) ∧
      ((∀ t < N, ∀ i, Wrong f (margin m ε (after' ε ρ f p).d) (T t i) (c t i)) → r.val = 0) := by
  obtain ⟨P, hP, hv⟩ := h
  obtain ⟨pick, h1, h2, h3, h4, h5, h6, h7⟩ := validation hB hB' (hm.trans (by norm_num)) hN hN' hv
  have key : ∀ t < N, ∀ i, (Right f (margin m ε (after' ε ρ f p).d) (T t i) (c t i) → pick t i = c t i) ∧
      (Wrong f (margin m ε (after' ε ρ f p).d) (T t i) (c t i) → pick t i ≠ c t i) := fun t ht i => by
    obtain ⟨Y, hY, hS⟩ := hP t ht
    exact picks hL hmin f (hp t ht) hf hY hS hm i (h1 t ht i)
  have hNB : (0 : ℝ) < N * B := by
    have : (0 : ℝ) < N := by exact_mod_cast hN
    have : (0 : ℝ) < B := by exact_mod_cast hB
    positivity
  have lo : ((∑ t ∈ Finset.range N, (Finset.univ.filter fun i => Right f (margin m ε (after' ε ρ f p).d) (T t i) (c t i)).card : ℕ) : ℝ) ≤
      ((∑ t ∈ Finset.range N, (Finset.univ.filter fun i => pick t i = c t i).card : ℕ) : ℝ) := by
    refine Nat.cast_le.2 (Finset.sum_le_sum fun t ht => Finset.card_le_card fun i hi => ?_)
    rw [Finset.mem_filter] at hi ⊢
    exact ⟨Finset.mem_univ i, (key t (Finset.mem_range.1 ht) i).1 hi.2⟩
  have hi : ((∑ t ∈ Finset.range N, (Finset.univ.filter fun i => pick t i = c t i).card : ℕ) : ℝ) +
      ((∑ t ∈ Finset.range N, (Finset.univ.filter fun i => Wrong f (margin m ε (after' ε ρ f p).d) (T t i) (c t i)).card : ℕ) : ℝ) ≤ N * B := by
    have : (∑ t ∈ Finset.range N, (Finset.univ.filter fun i => pick t i = c t i).card) +
        (∑ t ∈ Finset.range N, (Finset.univ.filter fun i => Wrong f (margin m ε (after' ε ρ f p).d) (T t i) (c t i)).card) ≤ N * B := by
      rw [← Finset.sum_add_distrib]
      refine (Finset.sum_le_sum (g := fun _ => B) fun t ht => ?_).trans (by simp)
      rw [← Finset.card_union_of_disjoint]
      · exact (Finset.card_le_univ _).trans (by simp)
      · refine Finset.disjoint_filter.2 fun i _ e hw => (key t (Finset.mem_range.1 ht) i).2 hw e
    exact_mod_cast this
  have lo' := div_le_div_of_nonneg_right lo hNB.le
  have hi' := div_le_div_of_nonneg_right hi hNB.le
  rw [add_div, div_self hNB.ne'] at hi'
  have e := abs_le.1 h5
  refine ⟨h2, h3, h4, by linarith [e.1], by linarith [e.2], fun h => h6 fun t ht i => (key t ht i).1 (h t ht i),
    fun h => h7.2 fun t ht i => (key t ht i).2 (h t ht i)⟩

/-- There are such runs. -/
theorem validation_exists (hL : Accurate F q ε ρ) (hmin : IsFloat R fltMin) (f : Net ι (Fin m)) (hr : NotEmpty f) {X : ℕ → Fin B → ι → Flt}
    {T : ℕ → Fin B → ι → ℝ} {p : Bounds} (hp : ∀ t i, Close R (X t i) (T t i) p) (hf : Fits' ε ρ f p) (hm0 : 0 < m) (hm : m ≤ 2 ^ 24)
    (label : ℕ → Fin B → Flt) (N : ℕ) : ∃ r, NetValidation R F q f X label N r := by
  choose Y hY using fun t i => image_exists hL hmin f hr (hp t i) hf
  have hYf := fun t i => (image_near hL hmin f (hp t i) hf (hY t i)).finite
  choose P hP using fun t => softmax_exists (R := R) (F := F) (hYf t) hm0
  have fin : ∀ t i j, (P t i j).Finite := fun t i j => by
    obtain ⟨y, hy, -, e⟩ := softmax_range (hP t) (hYf t) hm i j
    rw [e]
    exact ne_top_of_le_ne_top ENNReal.one_ne_top hy
  have : Nonempty (Fin m) := ⟨⟨0, hm0⟩⟩
  choose pick hpick using fun t i => Finite.exists_max fun j => (P t i j).val
  refine ⟨_, P, fun t _ => ⟨Y t, hY t, hP t⟩, _, fun t _ => ⟨pick t, fun i => ⟨⟨_, rfl⟩, fun j => ?_⟩, rfl⟩, rfl⟩
  rw [lt_iff (fin _ _ _) (fin _ _ _)]
  exact not_lt.2 (hpick t i j)

/-- Two batches of three rows with 1 and 0, through a `ReLU` and a `Softmax`: whatever `float` does, all are classified right. -/
example : (∃ r, NetValidation binary32 libm sqrtLib (.act .relu : Net (Fin 2) (Fin 2)) (fun _ (_ : Fin 3) j => if j = 0 then 1 else 0)
      (fun _ _ => ofNat binary32 (0 : Fin 2)) 2 r) ∧
    ∀ r, NetValidation binary32 libm sqrtLib (.act .relu : Net (Fin 2) (Fin 2)) (fun _ (_ : Fin 3) j => if j = 0 then 1 else 0)
      (fun _ _ => ofNat binary32 (0 : Fin 2)) 2 r → r = 1 := by
  have hus := FloatGradP.u_small
  have hu := u_pos
  have hL : Accurate libm sqrtLib u u := ⟨libm_full, hu.le, hus.trans (by norm_num), sqrtLib_near, hu.le, hus.trans (by norm_num)⟩
  have one : IsFloat binary32 1 := by
    have := binary32.exact 1 0 (by norm_num) (by norm_num)
    rw [pow_zero, mul_one, Nat.cast_one] at this
    exact this
  have zero : IsFloat binary32 0 := by
    have := binary32.exact 0 0 (by norm_num) (by norm_num)
    rw [pow_zero, mul_one, Nat.cast_zero] at this
    exact this
  have hp : Close binary32 (fun j : Fin 2 => if j = 0 then (1 : Flt) else 0) (fun j => (if j = 0 then (1 : Flt) else 0).val) ⟨1, 0⟩ := by
    refine inputs_close (fun i => ?_) (fun i => ?_) zero_le_one fun i => ?_
    · split_ifs
      exacts [finite_one, finite_zero]
    · split_ifs
      exacts [one, zero]
    · split_ifs
      · rw [val_one, abs_one]
      · rw [val_zero, abs_zero]
        exact zero_le_one
  refine ⟨validation_exists hL fltMin_isFloat (.act .relu : Net (Fin 2) (Fin 2)) trivial (fun _ _ => hp) trivial (by norm_num) (by norm_num) _ _, fun r h => ?_⟩
  refine (validated hL fltMin_isFloat (.act .relu) (T := fun _ _ j => (if j = 0 then (1 : Flt) else 0).val) (fun _ _ _ => hp) trivial (by norm_num) (by norm_num)
    (by norm_num) (by norm_num) (by norm_num) (c := fun _ _ => 0) h).2.2.2.2.2.1 fun _ _ _ j hj => ?_
  have hj1 : j = 1 := by omega
  have e : margin 2 u (after' u u (.act .relu : Net (Fin 2) (Fin 2)) ⟨1, 0⟩).d ≤ 1 / 100 := by
    show 2 * (Real.exp (2 * 0) - 1 + (2 * ((2 : ℕ) + 1) * u + 3 * u)) ≤ _
    rw [mul_zero, Real.exp_zero]
    push_cast
    linarith
  have n0 : net (.act .relu : Net (Fin 2) (Fin 2)) (fun j => (if j = 0 then (1 : Flt) else 0).val) 0 = 1 := by
    show max _ _ = _
    simp [val_one]
  have n1 : net (.act .relu : Net (Fin 2) (Fin 2)) (fun j => (if j = 0 then (1 : Flt) else 0).val) 1 = 0 := by
    show max _ _ = _
    simp [val_zero]
  subst hj1
  unfold prob
  rw [Fin.sum_univ_two, n0, n1, Real.exp_zero]
  have h2 : (2 : ℝ) ≤ Real.exp 1 := by linarith [Real.add_one_le_exp (1 : ℝ)]
  refine (add_le_add_right e _).trans_lt ?_
  rw [← sub_pos, show Real.exp 1 / (Real.exp 1 + 1) - (1 / (Real.exp 1 + 1) + 1 / 100) = (0.99 * Real.exp 1 - 1.01) / (Real.exp 1 + 1) by field_simp; ring]
  exact div_pos (by linarith) (by linarith)

end

end DW.Props.FloatValidateP
