import Verif.Props.FloatBatchNormBack
import Verif.Props.FloatBatchNormRun
/-!
# C123: the gradients of batch normalization in `float` are those of the exact layer, up to small errors

The layer has `n` columns; `forward` runs in training mode on `X` and stores the centred columns `C` and the deviations `S`; then `backward` adds to `G₀`, and
`updateGradients` stores `dgamma` and `dbeta`.
-/

set_option autoImplicit false

namespace DW.Props.FloatBatchNormP

open DW.Float DW.Props.FloatSoftmaxP DW.Props.FloatLossP DW.Props.FloatDotP DW.Props.FloatGradP DW.Props.FloatActP DW.Props.FloatAccuracyP DW.Props.FloatNormP
  DW.Props.FloatMomentumP DW.Props.FloatTrainP DW.Props.FloatAdamP DW.Props.FloatAdamStepP DW.NormL
open scoped ENNReal

noncomputable section

variable {R : Rounding} {q : Sqrt} {ρ : ℝ} {B n : ℕ} {gamma S : Flt} {C G : Fin B → Flt} {g : ℝ}

/-! ## One column -/

theorem Stored.given {beta eps : Flt} {X : Fin B → Flt} {e A : ℝ} (hs : Setting gamma beta eps X A) (h : Stored eps.val X C S e) (hB : 0 < B)
    (hG : ∀ i, (G i).Finite ∧ |(G i).val| ≤ g) (hg : g ≤ 2 ^ 30) : Given gamma S C G g := by
  obtain ⟨en, ef, e1, e2⟩ := hs.eps
  have sσ0 : 1 / 2 ^ 20 ≤ √eps.val := by
    refine Real.le_sqrt_of_sq_le ?_
    have : ((1 : ℝ) / 2 ^ 20) ^ 2 = 1 / 2 ^ 40 := by norm_num
    linarith
  have := h.lower
  exact ⟨hB, hs.rows, hs.gamma, ⟨h.finite, by linarith, h.upper⟩, fun i => ⟨(h.column i).1, (h.column i).2.1⟩, h.square, hG, hg⟩

/-- The largest error of the gradient with respect to the input. -/
def inputGradError (B : ℕ) (A eps gamma g ρ : ℝ) : ℝ := |gamma| * g / √eps * √B * (53 * (B + 8) * u * (1 + A / √eps) + 16 * ρ) + 1 / 2 ^ 60

theorem exact_square (X : Fin B → ℝ) {eps : ℝ} (he : 0 ≤ eps) : √(Spec.mean fun i => (X i - Spec.mean X) ^ 2) ≤ 1 * √(Spec.variance X + eps) := by
  rw [one_mul]
  exact Real.sqrt_le_sqrt (le_add_of_nonneg_right he)

theorem input_calc {o D D' d Q N b a ρ γ g s : ℝ} (hN : 1 ≤ N) (hb : 1 ≤ b) (hb' : b ≤ 2 ^ 10) (hNu : N * u ≤ 0.0625) (ha : 0 ≤ a) (hρ : 0 ≤ ρ) (hQ : 0 ≤ Q)
    (h1 : |o - D'| ≤ b * (7 * (N + 8) * u * Q + 7 * ζ)) (h2 : |D' - D| ≤ 2 * (6.4 * (3.5 * (N + 3) * u * (1 + a) + 1.2 * ρ) * b * Q)) (hD' : |D'| ≤ b * (4.9 * Q))
    (hd : |d - (s + o)| ≤ u * |s + o| + η) (hQγ : Q ≤ 1.0102 * (γ * g)) :
    |d - (s + D)| ≤ u * |s| + (γ * g * b * (53 * (N + 8) * u * (1 + a) + 16 * ρ) + 1 / 2 ^ 60) := by
  have hu := u_pos
  have hus := u_small
  have hζ : 0 < ζ := by unfold ζ; positivity
  have hηζ : η ≤ 1 / 10 ^ 3 * ζ := by unfold η ζ; norm_num
  have b0 : 0 ≤ b := by linarith
  have p1 : 0 ≤ b * (u * Q) := by positivity
  have p2 : 0 ≤ b * (N * (u * Q)) := by positivity
  have p3 : 0 ≤ b * (u * Q) * a := by positivity
  have p4 : 0 ≤ b * (N * (u * Q)) * a := by positivity
  have p5 : 0 ≤ b * (ρ * Q) := by positivity
  have p6 : ζ ≤ b * ζ := le_mul_of_one_le_left hζ.le hb
  have p7 : u * (b * ζ) ≤ 1 / 10 ^ 7 * (b * ζ) := mul_le_mul_of_nonneg_right hus (by positivity)
  have p8 : N * u * (b * Q) ≤ 0.0625 * (b * Q) := mul_le_mul_of_nonneg_right hNu (by positivity)
  have p9 : u * (b * Q) ≤ 1 / 10 ^ 7 * (b * Q) := mul_le_mul_of_nonneg_right hus (by positivity)
  have p10 : 0 ≤ b * Q := by positivity
  have o1 : |o| ≤ b * (5.4 * Q + 7 * ζ) := by
    have := abs_sub_abs_le_abs_sub o D'
    linarith
  have e1 : u * |s + o| ≤ u * (|s| + b * (5.4 * Q + 7 * ζ)) := mul_le_mul_of_nonneg_left ((abs_add_le _ _).trans (by linarith)) hu.le
  have e2 := abs_sub_le d (s + o) (s + D)
  rw [show s + o - (s + D) = (o - D') + (D' - D) by ring] at e2
  have e3 := abs_add_le (o - D') (D' - D)
  have e4 : b * ζ ≤ 2 ^ 10 * ζ := mul_le_mul_of_nonneg_right hb' hζ.le
  have e5 : 8 * (2 ^ 10 * ζ) ≤ 1 / 2 ^ 60 := by unfold ζ; norm_num
  have e6 : |d - (s + D)| ≤ u * |s| + (Q * (b * (52.4 * (N + 8) * u * (1 + a) + 15.4 * ρ)) + 1 / 2 ^ 60) := by linarith
  refine e6.trans (by
    have f1 := mul_le_mul_of_nonneg_right hQγ (by positivity : 0 ≤ b * (52.4 * (N + 8) * u * (1 + a) + 15.4 * ρ))
    have f2 : 0 ≤ γ * g := by linarith
    have f3 : 1.0102 * (b * (52.4 * (N + 8) * u * (1 + a) + 15.4 * ρ)) ≤ b * (53 * (N + 8) * u * (1 + a) + 16 * ρ) := by
      have g1 : 1.0102 * (52.4 * (N + 8) * u * (1 + a) + 15.4 * ρ) ≤ 53 * (N + 8) * u * (1 + a) + 16 * ρ := by
        have g2 : 0 ≤ (N + 8) * u * (1 + a) := by positivity
        linarith
      have := mul_le_mul_of_nonneg_left g1 b0
      linarith
    have f4 := mul_le_mul_of_nonneg_left f3 f2
    linarith)

theorem scale_le {eps : ℝ} (he : 0 < eps) (h : 0.99 * √eps ≤ S.val) (hg : 0 ≤ g) : gradScale gamma S g ≤ 1.0102 * (|gamma.val| / √eps * g) := by
  have s0 : 0 < √eps := Real.sqrt_pos.2 he
  have S0 : 0 < S.val := lt_of_lt_of_le (by linarith) h
  unfold gradScale
  rw [div_le_iff₀ S0]
  have e1 := mul_le_mul_of_nonneg_left h (by positivity : 0 ≤ 1.0102 * (|gamma.val| / √eps * g))
  have e2 : 1.0102 * (|gamma.val| / √eps * g) * (0.99 * √eps) = 1.0102 * 0.99 * (|gamma.val| * g) := by
    field_simp
  have e3 : 0 ≤ |gamma.val| * g := by positivity
  linarith

/-- One element of the gradient with respect to the input. -/
theorem input_column {beta eps : Flt} {X Y G₀ G' : Fin B → Flt} {A : ℝ} (hq : SqrtNear q ρ) (hρ : 0 ≤ ρ) (hρ' : ρ ≤ 1 / 2 ^ 10) (hs : Setting gamma beta eps X A)
    (h : BatchNormTrain R q gamma beta eps X C S Y) (hG : ∀ i, (G i).Finite ∧ |(G i).val| ≤ g) (hg : g ≤ 2 ^ 30)
    (hG₀ : ∀ i, (G₀ i).Finite ∧ |(G₀ i).val| ≤ 2 ^ 100) (hb : BatchNormInputGrad R gamma S C G G₀ G') (i : Fin B) :
    (G' i).Finite ∧ |(G' i).val - ((G₀ i).val + columnGrad gamma.val √((Spec.variance fun i => (X i).val) + eps.val)
      (fun i => (X i).val - Spec.mean fun i => (X i).val) (fun i => (G i).val) i)| ≤ u * |(G₀ i).val| + inputGradError B A eps.val gamma.val g ρ := by
  have hu := u_pos
  have hζ : 0 < ζ := by unfold ζ; positivity
  have hζ1 : ζ ≤ 1 := by unfold ζ; norm_num
  have hA0 : 0 ≤ A := (abs_nonneg _).trans (hs.size i)
  have st := forward_stored hq hρ hρ' hs i.pos h
  have hgv := st.given hs i.pos hG hg
  obtain ⟨s0, g0, hN1, hN2, hBu, r1, r2, Q0, Q1⟩ := hgv.facts
  obtain ⟨z, m, hz, hm, hi⟩ := hb i
  obtain ⟨of, oe⟩ := column_near hgv hz hm
  obtain ⟨en, ef, e1, e2⟩ := hs.eps
  have he : 0 < eps.val := lt_of_lt_of_le (by positivity) e1
  have hV : 0 ≤ Spec.variance fun i => (X i).val := div_nonneg (Finset.sum_nonneg fun i _ => sq_nonneg _) (Nat.cast_nonneg _)
  have hT : 0 < √((Spec.variance fun i => (X i).val) + eps.val) := Real.sqrt_pos.2 (by linarith)
  have hE : 0 ≤ storedError B A eps.val ρ := by unfold storedError; positivity
  have k1 := fun i => (centredGrad_change (γ := gamma.val) s0 hT hE (fun j => (st.column j).2.2) st.below st.above (exact_square (fun i => (X i).val) he.le) st.square g0
    (fun j => (hG j).2) i).1
  have k2 := columnGrad_change k1 (by unfold gradScale at Q0; positivity) i
  have k3 : |columnGrad gamma.val S.val (fun i => (C i).val) (fun i => (G i).val) i| ≤ √B * (4.9 * gradScale gamma S g) := by
    have a1 := fun i => centredGrad_le (γ := gamma.val) s0 hgv.square g0 (fun j => (hG j).2) i
    change ∀ i, _ ≤ gradScale gamma S g * (1 + √B * 1.2 * 1.2) at a1
    have a2 := mean_le (by positivity) a1
    have a3 : gradScale gamma S g ≤ √B * gradScale gamma S g := le_mul_of_one_le_left Q0 r1
    unfold columnGrad
    refine (abs_sub _ _).trans ?_
    have a4 := a1 i
    have a5 : |Spec.mean (centredGrad gamma.val S.val (fun i => (C i).val) (fun i => (G i).val))| ≤ gradScale gamma S g * (1 + √B * 1.2 * 1.2) := a2
    linarith
  set D' := columnGrad gamma.val S.val (fun i => (C i).val) (fun i => (G i).val) i
  have ob : |(sub R z m).val| ≤ 2 ^ 100 := by
    have a1 := abs_sub_abs_le_abs_sub (sub R z m).val D'
    have a2 : √B * (7 * (B + 8) * u * gradScale gamma S g) ≤ √B * (1 * gradScale gamma S g) :=
      mul_le_mul_of_nonneg_left (mul_le_mul_of_nonneg_right (by linarith [u_small]) Q0) (by linarith)
    have a3 := mul_le_mul r2 (by linarith : 6 * gradScale gamma S g + 7 * ζ ≤ 2 ^ 74) (by positivity) (by norm_num)
    have a4 : 0 ≤ √B * gradScale gamma S g := by positivity
    linarith
  have nn := near_addWith (R := R) (hG₀ i).1 of (by
    refine (abs_add_le _ _).trans ((add_le_add (hG₀ i).2 ob).trans ?_)
    unfold big
    norm_num)
  have hi' : G' i = addWith R.rd (G₀ i) (sub R z m) := hi
  rw [← hi'] at nn
  refine ⟨nn.1, ?_⟩
  have fin := input_calc (N := B) (a := A / √eps.val) (γ := |gamma.val| / √eps.val) hN1 r1 r2 hBu (by positivity) hρ Q0 oe k2 k3 nn.2 (scale_le he st.lower g0)
  refine fin.trans (le_of_eq ?_)
  unfold inputGradError
  ring

/-! ## The gradients of the parameters -/

/-- The largest error of the gradient with respect to `beta`. -/
def betaGradError (B : ℕ) (g : ℝ) : ℝ := 1.2 * B ^ 2 * u * g + 1 / 2 ^ 60

/-- The largest error of the gradient with respect to `gamma`. -/
def gammaGradError (B : ℕ) (A eps g ρ : ℝ) : ℝ := B * g * (10 * (B + 3) * u * (1 + A / √eps) + 2.4 * ρ) + 1 / 2 ^ 60

theorem beta_column (hB : 0 < B) (hB' : B ≤ 2 ^ 20) (hG : ∀ i, (G i).Finite ∧ |(G i).val| ≤ g) (hg : g ≤ 2 ^ 30) {s : Flt} (h : SumOf R (List.ofFn G) s) :
    s.Finite ∧ |s.val - ∑ i, (G i).val| ≤ betaGradError B g := by
  have hu := u_pos
  have hη := η_pos
  have g0 : 0 ≤ g := (abs_nonneg _).trans (hG ⟨0, hB⟩).2
  have hN1 : (1 : ℝ) ≤ B := by exact_mod_cast hB
  have hN2 : (B : ℝ) ≤ 2 ^ 20 := by exact_mod_cast hB'
  have hBu : (B : ℝ) * u ≤ 0.0625 := by
    have := mul_le_mul_of_nonneg_right hN2 hu.le
    have h2 : (2 : ℝ) ^ 20 * u ≤ 0.0625 := by unfold u; norm_num
    linarith
  set l := List.ofFn G with hl
  have hlen : l.length = B := by simp [hl]
  have hK := pow_small (k := B) (by omega)
  have hK1 : 1 ≤ (1 + u) ^ B := one_le_pow₀ (by linarith)
  have hmass : mass l ≤ B * g := by
    have : mass l = ∑ t, |(G t).val| := by simp [mass, hl, List.map_ofFn, List.sum_ofFn]
    rw [this]
    refine (Finset.sum_le_sum fun t _ => (hG t).2).trans (le_of_eq ?_)
    rw [Finset.sum_const, Finset.card_univ, Fintype.card_fin, nsmul_eq_mul]
  have htot : total l = ∑ i, (G i).val := by simp [total, hl, List.map_ofFn, List.sum_ofFn]
  have hm0 := mass_nonneg l
  have hηs : 2 * B * η ≤ 1 / 2 ^ 70 := by
    have a1 := mul_le_mul_of_nonneg_right hN2 hη.le
    have a2 : 2 * (2 ^ 20 * η) ≤ 1 / 2 ^ 70 := by unfold η; norm_num
    linarith
  obtain ⟨sf, se⟩ := sum_good h (g := (1 + u) ^ B) (fun x hx => by
    obtain ⟨t, rfl⟩ := List.mem_ofFn.1 hx
    exact (hG _).1) (by rw [hlen]) (by
      rw [hlen]
      have e1 : mass l + 2 * B * η ≤ 2 ^ 60 := by
        have := mul_le_mul hN2 hg g0 (by norm_num)
        have : (1 : ℝ) / 2 ^ 70 ≤ 1 := by norm_num
        linarith
      have e2 := mul_le_mul (by linarith : (1 + u) ^ B ≤ 2) e1 (by positivity) (by norm_num)
      refine e2.trans ?_
      unfold big
      norm_num)
  refine ⟨sf, ?_⟩
  rw [hlen, htot] at se
  refine se.trans ?_
  unfold betaGradError
  set K := (1 + u) ^ B
  have e1 := mul_le_mul (by linarith : K - 1 ≤ 1.15 * (B * u)) hmass hm0 (by positivity)
  have e2 : (2 * (B : ℝ) - 1) * η * K ≤ 1 / 2 ^ 70 * 2 := by
    have : (2 * (B : ℝ) - 1) * η ≤ 2 * B * η := by linarith
    exact mul_le_mul (this.trans hηs) (by linarith) (by linarith) (by norm_num)
  have e3 : (1 : ℝ) / 2 ^ 70 * 2 ≤ 1 / 2 ^ 60 := by norm_num
  have e4 : 0 ≤ (B : ℝ) ^ 2 * u * g := by positivity
  have e5 : 1.15 * (B * u) * (B * g) = 1.15 * ((B : ℝ) ^ 2 * u * g) := by ring
  linarith

theorem gamma_calc {t E E' x N g a ρ sz K : ℝ} (hN : 1 ≤ N) (hN' : N ≤ 2 ^ 20) (hg : 0 ≤ g) (hg' : g ≤ 2 ^ 30) (ha : 0 ≤ a) (hK1 : 1 ≤ K) (hK : K ≤ 1 + 1.15 * (2 * N * u))
    (hNu : N * u ≤ 0.0625) (hsz0 : 0 ≤ sz) (hsz : sz ≤ N * (1.201 + η) * g) (h1 : |t - E'| ≤ (K - 1) * sz + (3 * N - 1) * η * K) (h2 : |E' - E| ≤ N * (1.2 * u + η) * g)
    (h3 : |E - x| ≤ N * (2 * (3.5 * (N + 3) * u * (1 + a) + 1.2 * ρ)) * g) : |t - x| ≤ N * g * (10 * (N + 3) * u * (1 + a) + 2.4 * ρ) + 1 / 2 ^ 60 := by
  have hu := u_pos
  have hη := η_pos
  have hη1 : η ≤ 0.001 := by unfold η; norm_num
  have N0 : 0 ≤ N := by linarith
  have Ng : 0 ≤ N * g := by positivity
  have e1 : sz ≤ 1.202 * (N * g) := by
    have := mul_le_mul_of_nonneg_right hη1 Ng
    linarith
  have e2 := mul_le_mul (by linarith : K - 1 ≤ 2.3 * (N * u)) e1 hsz0 (by positivity)
  have e3 : (3 * N - 1) * η * K ≤ 3 * 2 ^ 20 * η * 2 := by
    refine mul_le_mul (mul_le_mul_of_nonneg_right (by linarith) hη.le) (by linarith) (by linarith) (by positivity)
  have e4 : 3 * 2 ^ 20 * η * 2 ≤ 1 / 2 ^ 70 := by unfold η; norm_num
  have e5 : N * g * η ≤ 1 / 2 ^ 70 := by
    have a1 := mul_le_mul_of_nonneg_right (mul_le_mul hN' hg' hg (by norm_num)) hη.le
    have a2 : (2 : ℝ) ^ 20 * 2 ^ 30 * η ≤ 1 / 2 ^ 70 := by unfold η; norm_num
    linarith
  have e6 : 2 * ((1 : ℝ) / 2 ^ 70) ≤ 1 / 2 ^ 60 := by norm_num
  have e7 := abs_sub_le t E' x
  have e8 := abs_sub_le E' E x
  have p1 : 0 ≤ N * g * u := by positivity
  have p2 : 0 ≤ N * g * u * a := by positivity
  have p3 : 0 ≤ N * g * (N * u) := by positivity
  have p4 : 0 ≤ N * g * (N * u) * a := by positivity
  linarith

theorem gamma_column {beta eps : Flt} {X Y : Fin B → Flt} {A : ℝ} (hq : SqrtNear q ρ) (hρ : 0 ≤ ρ) (hρ' : ρ ≤ 1 / 2 ^ 10) (hs : Setting gamma beta eps X A)
    (h : BatchNormTrain R q gamma beta eps X C S Y) (hB : 0 < B) (hG : ∀ i, (G i).Finite ∧ |(G i).val| ≤ g) (hg : g ≤ 2 ^ 30) {t : Flt}
    (ht : DotOf R (List.ofFn fun i => (div R (C i) S, G i)) t) :
    t.Finite ∧ |t.val - ∑ i, ((X i).val - Spec.mean fun i => (X i).val) / √((Spec.variance fun i => (X i).val) + eps.val) * (G i).val| ≤
      gammaGradError B A eps.val g ρ := by
  have hu := u_pos
  have hη := η_pos
  have hus := u_small
  have hA0 : 0 ≤ A := (abs_nonneg _).trans (hs.size ⟨0, hB⟩)
  have st := forward_stored hq hρ hρ' hs hB h
  have hgv := st.given hs hB hG hg
  obtain ⟨s0, g0, hN1, hN2, hBu, r1, r2, Q0, Q1⟩ := hgv.facts
  obtain ⟨en, ef, e1, e2⟩ := hs.eps
  have he : 0 < eps.val := lt_of_lt_of_le (by positivity) e1
  have hV : 0 ≤ Spec.variance fun i => (X i).val := div_nonneg (Finset.sum_nonneg fun i _ => sq_nonneg _) (Nat.cast_nonneg _)
  have hT : 0 < √((Spec.variance fun i => (X i).val) + eps.val) := Real.sqrt_pos.2 (by linarith)
  have hE : 0 ≤ storedError B A eps.val ρ := by unfold storedError; positivity
  have k1 := (centredGrad_change (γ := gamma.val) s0 hT hE (fun j => (st.column j).2.2) st.below st.above (exact_square (fun i => (X i).val) he.le) st.square g0
    (fun j => (hG j).2) ⟨0, hB⟩).2
  obtain ⟨m1, m2⟩ := unit_bound s0 hgv.square
  have nd : ∀ i, Near (div R (C i) S) ((C i).val / S.val) := fun i => near_div (st.column i).1 st.finite s0.ne' ((m2 i).trans (by
    have : (2 : ℝ) ^ 12 ≤ big := by unfold big; norm_num
    linarith))
  set l := List.ofFn fun i => (div R (C i) S, G i) with hl
  have hlen : l.length = B := by simp [hl]
  have hex : exact l = ∑ i, (div R (C i) S).val * (G i).val := by simp [exact, hl, List.map_ofFn, List.sum_ofFn]
  have hsize : size l = ∑ i, |(div R (C i) S).val| * |(G i).val| := by simp [size, hl, List.map_ofFn, List.sum_ofFn]
  have sumC : ∑ i, |(C i).val / S.val| ≤ B * 1.2 := by
    rw [← mul_mean hB]
    exact mul_le_mul_of_nonneg_left m1 (by linarith)
  have sumD : ∑ i, |(div R (C i) S).val - (C i).val / S.val| ≤ B * (1.2 * u + η) := by
    refine (Finset.sum_le_sum fun i _ => (nd i).2).trans ?_
    rw [Finset.sum_add_distrib, ← Finset.mul_sum, Finset.sum_const, Finset.card_univ, Fintype.card_fin, nsmul_eq_mul]
    have := mul_le_mul_of_nonneg_left sumC hu.le
    linarith
  have hsz : size l ≤ B * (1.201 + η) * g := by
    rw [hsize]
    have a1 : ∑ i, |(div R (C i) S).val| ≤ B * (1.201 + η) := by
      have a2 : ∑ i, |(div R (C i) S).val| ≤ ∑ i, (|(div R (C i) S).val - (C i).val / S.val| + |(C i).val / S.val|) := Finset.sum_le_sum fun i _ => by
        have := abs_sub_abs_le_abs_sub (div R (C i) S).val ((C i).val / S.val)
        linarith
      rw [Finset.sum_add_distrib] at a2
      have a3 : (B : ℝ) * (1.2 * u) ≤ B * 0.001 := mul_le_mul_of_nonneg_left (by linarith) (by linarith)
      linarith
    refine (Finset.sum_le_sum fun i _ => mul_le_mul_of_nonneg_left (hG i).2 (abs_nonneg _)).trans ?_
    rw [← Finset.sum_mul]
    exact mul_le_mul_of_nonneg_right a1 g0
  have hK1 := grow_ge B
  have hK : grow B ≤ 1 + 1.15 * (2 * B * u) := by
    have := pow_small (k := 2 * B) (by have := hs.rows; omega)
    push_cast at this
    exact this
  have gd := dot_good ht (fun z hz => by
    obtain ⟨i, rfl⟩ := List.mem_ofFn.1 hz
    exact ⟨(nd i).1, (hG i).1⟩) (by
      rw [cap_eq, hlen]
      have a1 : B * (1.201 + η) * g ≤ 2 ^ 20 * 2 * 2 ^ 30 := by
        have b1 : η ≤ 0.1 := by unfold η; norm_num
        refine mul_le_mul (mul_le_mul hN2 (by linarith) (by positivity) (by norm_num)) hg g0 (by norm_num)
      have a2 : (3 * (B : ℝ) - 1) * η ≤ 2 ^ 30 := by
        have b1 : η ≤ 0.1 := by unfold η; norm_num
        have := mul_le_mul (by linarith : 3 * (B : ℝ) - 1 ≤ 3 * 2 ^ 20) b1 hη.le (by norm_num)
        linarith
      have a3 : 0 ≤ (3 * (B : ℝ) - 1) * η := mul_nonneg (by linarith) hη.le
      have a4 := mul_le_mul (by linarith : grow B ≤ 2) (by linarith : size l + (3 * (B : ℝ) - 1) * η ≤ 2 ^ 60) (add_nonneg (size_nonneg l) a3) (by norm_num)
      refine a4.trans ?_
      unfold big
      norm_num)
  refine ⟨gd.1, ?_⟩
  have hb := gd.2
  unfold bound at hb
  rw [hlen, hex] at hb
  have h2 : |∑ i, (div R (C i) S).val * (G i).val - ∑ i, (C i).val / S.val * (G i).val| ≤ B * (1.2 * u + η) * g := by
    rw [← Finset.sum_sub_distrib]
    refine (Finset.abs_sum_le_sum_abs _ _).trans ?_
    refine le_trans ?_ (mul_le_mul_of_nonneg_right sumD g0)
    rw [Finset.sum_mul]
    refine Finset.sum_le_sum fun i _ => ?_
    rw [← sub_mul, abs_mul]
    exact mul_le_mul_of_nonneg_left (hG i).2 (abs_nonneg _)
  have h3 : |∑ i, (C i).val / S.val * (G i).val - ∑ i, ((X i).val - Spec.mean fun i => (X i).val) / √((Spec.variance fun i => (X i).val) + eps.val) * (G i).val| ≤
      B * (2 * (3.5 * (B + 3) * u * (1 + A / √eps.val) + 1.2 * ρ)) * g := by
    have a1 := weighted g0 (fun j => (hG j).2) k1
    have a2 := mul_le_mul_of_nonneg_left a1 (by linarith : (0 : ℝ) ≤ B)
    rw [← Finset.sum_sub_distrib]
    have a3 : ∑ i, ((C i).val / S.val * (G i).val - ((X i).val - Spec.mean fun i => (X i).val) / √((Spec.variance fun i => (X i).val) + eps.val) * (G i).val) =
        B * Spec.mean fun j => ((C j).val / S.val - ((X j).val - Spec.mean fun i => (X i).val) / √((Spec.variance fun i => (X i).val) + eps.val)) * (G j).val := by
      rw [mul_mean hB]
      exact Finset.sum_congr rfl fun j _ => by ring
    rw [a3, abs_mul, Nat.abs_cast, mul_assoc]
    exact a2
  exact gamma_calc hN1 hN2 g0 hg (by positivity) hK1 hK hBu (size_nonneg l) hsz hb h2 h3

/-! ## C123 -/

/-- A pass of the layer in training mode, with everything that `backward` and `updateGradients` need. -/
structure Pass (R : Rounding) (q : Sqrt) (ρ : ℝ) (gamma beta : Fin n → Flt) (eps : Flt) (X C Y : Fin B → Fin n → Flt) (S : Fin n → Flt) (A : ℝ) : Prop where
  root : SqrtNear q ρ
  small : 0 ≤ ρ ∧ ρ ≤ 1 / 2 ^ 10
  rows : 0 < B
  positive : 0 < eps.val
  setting : ∀ j, Setting (gamma j) (beta j) eps (fun i => X i j) A
  forward : ∀ j, BatchNormTrain R q (gamma j) (beta j) eps (fun i => X i j) (fun i => C i j) (S j) fun i => Y i j

variable {gamma' beta' : Fin n → Flt} {eps : Flt} {X C' Y G' G₀ G'' : Fin B → Fin n → Flt} {S' : Fin n → Flt} {A : ℝ}

/-- **C123**: after a pass of `BatchNorm` in training mode in `float`, `backward` adds to the gradient of the input what backpropagation through the exact layer adds, including the
dependence of mean and variance on the input, up to an error given by the number of rows and the sizes of the numbers. -/
theorem input_gradient (hp : Pass R q ρ gamma' beta' eps X C' Y S' A) (hG : ∀ i j, (G' i j).Finite ∧ |(G' i j).val| ≤ g) (hg : g ≤ 2 ^ 30)
    (hG₀ : ∀ i j, (G₀ i j).Finite ∧ |(G₀ i j).val| ≤ 2 ^ 100)
    (hb : ∀ j, BatchNormInputGrad R (gamma' j) (S' j) (fun i => C' i j) (fun i => G' i j) (fun i => G₀ i j) fun i => G'' i j) :
    ∃ bwd, Spec.Backprop (fun y : Fin B × Fin n → ℝ => Function.uncurry (Spec.batchNorm eps.val (fun j => (gamma' j).val) (fun j => (beta' j).val) (Function.curry y)))
        (fun p => (X p.1 p.2).val) bwd ∧
      ∀ i j, (G'' i j).Finite ∧ |(G'' i j).val - ((G₀ i j).val + bwd (fun p => (G' p.1 p.2).val) (i, j))| ≤
        u * |(G₀ i j).val| + inputGradError B A eps.val (gamma' j).val g ρ := by
  refine ⟨_, batchNorm_backprop eps.val (fun j => (gamma' j).val) (fun j => (beta' j).val) hp.positive fun p => (X p.1 p.2).val, fun i j => ?_⟩
  have k := input_column hp.root hp.small.1 hp.small.2 (hp.setting j) (hp.forward j) (fun i => hG i j) hg (fun i => hG₀ i j) (hb j) i
  refine ⟨k.1, ?_⟩
  have hpos : ∀ j, √((Spec.variance fun i => (X i j).val) + eps.val) ≠ 0 := fun j => by
    have hV : 0 ≤ Spec.variance fun i => (X i j).val := div_nonneg (Finset.sum_nonneg fun i _ => sq_nonneg _) (Nat.cast_nonneg _)
    have := hp.positive
    exact (Real.sqrt_pos.2 (by linarith)).ne'
  have e := columnGrad_eq (fun i j => (X i j).val - Spec.mean fun i => (X i j).val) (fun j => √((Spec.variance fun i => (X i j).val) + eps.val))
    (fun j => (gamma' j).val) (fun i j => (G' i j).val) hpos i j
  have k2 := k.2
  rw [← e] at k2
  exact k2

/-- **C123**: and `updateGradients` stores the gradients of the exact layer with respect to `gamma` and `beta`, up to such errors. -/
theorem parameter_gradients (hp : Pass R q ρ gamma' beta' eps X C' Y S' A) (hG : ∀ i j, (G' i j).Finite ∧ |(G' i j).val| ≤ g) (hg : g ≤ 2 ^ 30) {dgamma dbeta : Fin n → Flt}
    (hb : ∀ j, BatchNormParamGrad R (S' j) (fun i => C' i j) (fun i => G' i j) (dgamma j) (dbeta j)) :
    ∃ bg bb, Spec.Backprop (fun y => Function.uncurry (Spec.batchNorm eps.val y (fun j => (beta' j).val) fun i j => (X i j).val)) (fun j => (gamma' j).val) bg ∧
      Spec.Backprop (fun y => Function.uncurry (Spec.batchNorm eps.val (fun j => (gamma' j).val) y fun i j => (X i j).val)) (fun j => (beta' j).val) bb ∧
      ∀ j, ((dgamma j).Finite ∧ |(dgamma j).val - bg (fun p => (G' p.1 p.2).val) j| ≤ gammaGradError B A eps.val g ρ) ∧
        (dbeta j).Finite ∧ |(dbeta j).val - bb (fun p => (G' p.1 p.2).val) j| ≤ betaGradError B g :=
  ⟨_, _, batchNorm_backprop_gamma eps.val _ _ _, batchNorm_backprop_beta eps.val _ _ _, fun j =>
    ⟨gamma_column hp.root hp.small.1 hp.small.2 (hp.setting j) (hp.forward j) hp.rows (fun i => hG i j) hg (hb j).2,
      beta_column hp.rows (hp.setting j).rows (fun i => hG i j) hg (hb j).1⟩⟩

/-- The kernels have results. -/
theorem grads_exist (R : Rounding) (gamma S : Flt) (hB : 0 < B) (C G G₀ : Fin B → Flt) :
    ∃ G' dgamma dbeta, BatchNormInputGrad R gamma S C G G₀ G' ∧ BatchNormParamGrad R S C G dgamma dbeta := by
  have ne : ∀ {α : Type} (f : Fin B → α), List.ofFn f ≠ [] := fun f h => hB.ne' (by simpa using congrArg List.length h)
  obtain ⟨t, ht⟩ := sum_exists (R := R) _ (ne fun i => div R (mul R (C i) (gradNorm R gamma G i)) (mul R S S))
  have hv : GradVar R gamma S C G _ := ⟨_, ⟨t, ht, rfl⟩, rfl⟩
  have hf : IsTwoOver R B (.num false (R.rd (2 / B))) := ⟨2 / B, le_self_add, le_self_add, rfl⟩
  have hz : ∀ i, ∃ z, GradCentered R gamma S C G i z := fun i => ⟨_, _, _, hv, hf, .inl rfl⟩
  choose Z hZ using hz
  obtain ⟨w, hw⟩ := sum_exists (R := R) _ (ne Z)
  have hm : GradMean R gamma S C G _ := ⟨Z, hZ, w, hw, rfl⟩
  obtain ⟨b, hb⟩ := sum_exists (R := R) _ (ne G)
  obtain ⟨a, ha⟩ := dot_exists (R := R) _ (ne fun i => (div R (C i) S, G i))
  exact ⟨fun i => add R (G₀ i) (sub R (Z i) (div R w (ofNat R B))), a, b, fun i => ⟨Z i, _, hZ i, hm, rfl⟩, hb, ha⟩

/-- A layer with `gamma` 1 on the column 0, 1, 2, with the gradient 1 for the first row and 0 for the others: the gradient of the
input is that of the exact layer up to `10⁻³` and the gradient of `beta` is 1 up to `10⁻⁵`. -/
example : ∃ (eps : Flt) (X C Y G G₀ G' : Fin 3 → Fin 1 → Flt) (S dgamma dbeta : Fin 1 → Flt), Pass binary32 sqrtLib u (fun _ => 1) (fun _ => 0) eps X C Y S 2 ∧
    (∀ j, BatchNormInputGrad binary32 1 (S j) (fun i => C i j) (fun i => G i j) (fun i => G₀ i j) fun i => G' i j) ∧
    (∀ j, BatchNormParamGrad binary32 (S j) (fun i => C i j) (fun i => G i j) (dgamma j) (dbeta j)) ∧
    (∃ bwd, Spec.Backprop (fun y : Fin 3 × Fin 1 → ℝ => Function.uncurry (Spec.batchNorm (1 / 4) (fun _ => 1) (fun _ => 0) (Function.curry y))) (fun p => p.1.val) bwd ∧
      ∀ i j, |(G' i j).val - bwd (fun p => if p.1 = 0 then 1 else 0) (i, j)| ≤ 1 / 10 ^ 3) ∧
    ∀ j, |(dbeta j).val - 1| ≤ 1 / 10 ^ 5 := by
  have hu := u_pos
  have hus := u_small
  let eps : Flt := .num false (4 : ℝ≥0∞)⁻¹
  have ev : eps.val = 1 / 4 := by simp [eps, Flt.val]
  obtain ⟨C, S, Y, h⟩ := train_exists binary32 sqrtLib 1 0 eps (by norm_num : 0 < 3) fun i => .num false (i.val : ℕ)
  have xv : ∀ i : Fin 3, (Flt.num false (i.val : ℕ)).val = i.val := fun i => by simp [Flt.val]
  have hset : Setting 1 0 eps (fun i : Fin 3 => .num false (i.val : ℕ)) 2 := by
    refine ⟨by norm_num, ⟨finite_one, by rw [val_one]; norm_num⟩, ⟨finite_zero, by rw [val_zero]; norm_num⟩, ⟨⟨_, rfl⟩, ?_, ?_, ?_⟩, fun _ => ?_, fun i => ?_, by norm_num⟩
    · show (4 : ℝ≥0∞)⁻¹ ≠ ⊤
      exact ENNReal.inv_ne_top.2 (by norm_num)
    · rw [ev]; norm_num
    · rw [ev]; norm_num
    · exact ENNReal.natCast_ne_top _
    · rw [xv, Nat.abs_cast]
      have : i.val ≤ 2 := by omega
      exact_mod_cast this
  let G : Fin 3 → Flt := fun i => if i = 0 then 1 else 0
  have gv : ∀ i, (G i).val = if i = 0 then 1 else 0 := fun i => by
    by_cases hi : i = 0
    · simp only [G, hi, if_true]; exact val_one
    · simp only [G, hi, if_false]; exact val_zero
  have hG : ∀ i, (G i).Finite ∧ |(G i).val| ≤ 1 := fun i => by
    refine ⟨?_, ?_⟩
    · by_cases hi : i = 0
      · simp only [G, hi, if_true]; exact finite_one
      · simp only [G, hi, if_false]; exact finite_zero
    · rw [gv]
      split <;> simp
  obtain ⟨G', dg, db, h1, h2⟩ := grads_exist binary32 1 S (by norm_num : 0 < 3) C G fun _ => 0
  have hp : Pass binary32 sqrtLib u (fun _ : Fin 1 => 1) (fun _ => 0) eps (fun i _ => .num false (i.val : ℕ)) (fun i _ => C i) (fun i _ => Y i) (fun _ => S) 2 :=
    ⟨sqrtLib_near, ⟨hu.le, hus.trans (by norm_num)⟩, by norm_num, by rw [ev]; norm_num, fun _ => hset, fun _ => h⟩
  refine ⟨eps, _, _, _, fun i _ => G i, fun _ _ => 0, fun i _ => G' i, _, fun _ => dg, fun _ => db, hp, fun _ => h1, fun _ => h2, ?_, ?_⟩
  · obtain ⟨bwd, b1, b2⟩ := input_gradient (G' := fun i _ => G i) (G₀ := fun _ _ => 0) (G'' := fun i _ => G' i) (g := 1) hp (fun i _ => hG i) (by norm_num)
      (fun _ _ => ⟨finite_zero, by rw [val_zero]; norm_num⟩) fun _ => h1
    simp only [ev, val_one, val_zero, xv] at b1
    refine ⟨bwd, b1, fun i j => ?_⟩
    have k := (b2 i j).2
    simp only [val_zero, abs_zero, mul_zero, zero_add, gv, ev, val_one] at k
    refine k.trans ?_
    unfold inputGradError
    have s4 : √(1 / 4 : ℝ) = 1 / 2 := by
      rw [show (1 / 4 : ℝ) = (1 / 2) ^ 2 by norm_num]
      exact Real.sqrt_sq (by norm_num)
    have s3 : √((3 : ℕ) : ℝ) ≤ 2 := by
      rw [Real.sqrt_le_left (by norm_num)]
      norm_num
    rw [s4, abs_one]
    have e1 := mul_le_mul_of_nonneg_right s3 (by positivity : 0 ≤ 53 * (((3 : ℕ) : ℝ) + 8) * u * (1 + 2 / (1 / 2)) + 16 * u)
    have e2 : ((3 : ℕ) : ℝ) = 3 := by norm_num
    rw [e2] at e1 ⊢
    have e3 : u ≤ 1 / 2 ^ 24 := le_of_eq rfl
    have e4 : (1 : ℝ) / 2 ^ 60 ≤ 1 / 10 ^ 6 := by norm_num
    have e5 : 4 * ((53 * (3 + 8) * (1 + 2 / (1 / 2)) + 16) * u) ≤ 9 / 10 ^ 4 := by
      unfold u
      norm_num
    linarith
  · intro j
    have k := beta_column (by norm_num) (by norm_num) hG (by norm_num) h2.1
    have e : ∑ i, (G i).val = 1 := by simp [gv]
    rw [e] at k
    refine k.2.trans ?_
    unfold betaGradError u
    norm_num

end

end DW.Props.FloatBatchNormP
