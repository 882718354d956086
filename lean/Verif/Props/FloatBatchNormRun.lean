import Verif.Props.FloatBatchNorm
/-!
# C116, C117, C118: batch normalization in training mode, in `float`

The theorems; the estimates are in `Verif.Props.FloatBatchNorm`.
-/

set_option autoImplicit false

namespace DW.Props.FloatBatchNormP

open DW.Float DW.Props.FloatSoftmaxP DW.Props.FloatLossP DW.Props.FloatDotP DW.Props.FloatGradP DW.Props.FloatActP DW.Props.FloatAccuracyP DW.Props.FloatNormP
  DW.Props.FloatMomentumP DW.Props.FloatTrainP DW.Props.FloatAdamP DW.Props.FloatAdamStepP
open scoped ENNReal

noncomputable section

variable {R : Rounding} {q : Sqrt} {ρ : ℝ} {B : ℕ} {gamma beta eps : Flt} {X C Y : Fin B → Flt} {S : Flt} {A : ℝ}

/-- **C116**: the outputs in training mode are near those of exact arithmetic. -/
theorem train_near (hq : SqrtNear q ρ) (hρ : 0 ≤ ρ) (hρ' : ρ ≤ 1 / 2 ^ 10) (hs : Setting gamma beta eps X A)
    (h : BatchNormTrain R q gamma beta eps X C S Y) (i : Fin B) :
    (Y i).Finite ∧
    |(Y i).val - Spec.normalise (Spec.mean fun i => (X i).val) (Spec.variance fun i => (X i).val) eps.val gamma.val beta.val (X i).val| ≤
      |gamma.val| * √B * (4 * (B + 3) * u * (1 + A / √eps.val) + 1.5 * ρ) + (8 * u + 1.2 * ρ) * |beta.val| + 1 / 2 ^ 80 :=
  let k := train_core hq hρ hρ' hs h i
  ⟨k.1, k.2.2⟩

/-- **C116** (size): whatever the inputs are, the outputs are not larger than about `√B` times gamma, and beta. -/
theorem train_bounded (hq : SqrtNear q ρ) (hρ : 0 ≤ ρ) (hρ' : ρ ≤ 1 / 2 ^ 10) (hs : Setting gamma beta eps X A)
    (h : BatchNormTrain R q gamma beta eps X C S Y) (i : Fin B) : |(Y i).val| ≤ 1.21 * |gamma.val| * √B + 1.01 * |beta.val| + 1 / 2 ^ 80 :=
  (train_core hq hρ hρ' hs h i).2.1

/-- **C116**: there is a result. -/
theorem train_exists (R : Rounding) (q : Sqrt) (gamma beta eps : Flt) (hB : 0 < B) (X : Fin B → Flt) : ∃ C S Y, BatchNormTrain R q gamma beta eps X C S Y := by
  obtain ⟨s, hs⟩ := sum_exists (R := R) (List.ofFn X) (by rw [Ne, List.ofFn_eq_nil_iff]; exact hB.ne')
  obtain ⟨d, hd⟩ := dot_exists (R := R) (List.ofFn fun i => (sub R (X i) (div R s (ofNat R B)), sub R (X i) (div R s (ofNat R B))))
    (by rw [Ne, List.ofFn_eq_nil_iff]; exact hB.ne')
  exact ⟨_, _, _, ⟨fun i => ⟨_, ⟨s, hs, rfl⟩, rfl⟩, ⟨_, ⟨d, hd, rfl⟩, rfl⟩, fun i => Or.inl rfl⟩⟩

/-! ## Constant columns -/

/-- **C117**: a feature that has the same value in all rows is normalised to beta. -/
def ConstantToBeta (R : Rounding) (q : Sqrt) : Prop :=
  ∀ (B : ℕ) (gamma beta eps : Flt) (X C Y : Fin B → Flt) (S : Flt), Setting gamma beta eps X (2 ^ 24) → IsFloat R beta → (∀ i, IsFloat R (X i)) →
    (∀ i j, X i = X j) → BatchNormTrain R q gamma beta eps X C S Y → ∀ i, (Y i).val = beta.val

theorem mean_const {c : ℝ} (hB : 0 < B) : Spec.mean (fun _ : Fin B => c) = c := by
  have hN : (B : ℝ) ≠ 0 := by exact_mod_cast hB.ne'
  unfold Spec.mean
  rw [Finset.sum_const, Finset.card_univ, Fintype.card_fin, nsmul_eq_mul]
  field_simp

/-- **C117** (part): up to rounding, with an error that grows with the size of the value. -/
theorem constant_partial (hq : SqrtNear q ρ) (hρ : 0 ≤ ρ) (hρ' : ρ ≤ 1 / 2 ^ 10) {x : Flt} (hs : Setting gamma beta eps (fun _ : Fin B => x) |x.val|)
    (h : BatchNormTrain R q gamma beta eps (fun _ => x) C S Y) (i : Fin B) :
    (Y i).Finite ∧ |(Y i).val - beta.val| ≤
      |gamma.val| * √B * (4 * (B + 3) * u * (1 + |x.val| / √eps.val) + 1.5 * ρ) + (8 * u + 1.2 * ρ) * |beta.val| + 1 / 2 ^ 80 := by
  have k := train_near hq hρ hρ' hs h i
  rw [mean_const i.pos] at k
  unfold Spec.normalise at k
  rw [sub_self, zero_div, mul_zero, zero_add] at k
  exact k

theorem lastBit_eq {x : ℝ} {e : ℕ} (h1 : 2 ^ (e + 23) ≤ x) (h2 : x < 2 ^ (e + 24)) : lastBit x = e := by
  have hx : 0 < x := lt_of_lt_of_le (by positivity) h1
  have a : ((e + 23 : ℕ) : ℤ) ≤ Int.log 2 x := (Int.zpow_le_iff_le_log (by norm_num) hx).1 (by rw [zpow_natCast]; exact_mod_cast h1)
  have b : Int.log 2 x < ((e + 24 : ℕ) : ℤ) := (Int.lt_zpow_iff_log_lt (by norm_num) hx).1 (by rw [zpow_natCast]; exact_mod_cast h2)
  unfold lastBit
  push_cast at a b
  omega

/-- A number that is nearer to `n * 2 ^ e` than to the other `float`s. -/
theorem roundReal_near {x : ℝ} {e : ℕ} {n : ℤ} (h1 : 2 ^ (e + 23) ≤ x) (h2 : x < 2 ^ (e + 24)) (h : |x - n * 2 ^ e| < 2 ^ e / 2) : roundReal x = n * 2 ^ e := by
  have p : (0 : ℝ) < 2 ^ e := by positivity
  rw [roundReal, lastBit_eq h1 h2, zpow_natCast]
  congr 2
  have d : |x / 2 ^ e - n| < 1 / 2 := by
    rw [show x / 2 ^ e - n = (x - n * 2 ^ e) / 2 ^ e by field_simp, abs_div, abs_of_pos p, div_lt_iff₀ p]
    linarith
  have c := nearest_error (x / 2 ^ e)
  have : |((nearest (x / 2 ^ e) - n : ℤ) : ℝ)| < 1 := by
    push_cast
    have := abs_sub_le (nearest (x / 2 ^ e) : ℝ) (x / 2 ^ e) n
    linarith
  have h3 : |nearest (x / 2 ^ e) - n| < 1 := by exact_mod_cast this
  have := Int.abs_lt_one_iff.1 h3
  omega

/-- A number between two `float`s goes to the even one. -/
theorem roundReal_tie {x : ℝ} {e : ℕ} {n : ℤ} (h1 : 2 ^ (e + 23) ≤ x) (h2 : x < 2 ^ (e + 24)) (hn : Even n) (h : x = (n + 1 / 2) * 2 ^ e) :
    roundReal x = n * 2 ^ e := by
  have p : (0 : ℝ) < 2 ^ e := by positivity
  rw [roundReal, lastBit_eq h1 h2, zpow_natCast]
  congr 2
  have d : x / 2 ^ e = n + 1 / 2 := by rw [h]; field_simp
  have f : ⌊x / 2 ^ e⌋ = n := by
    rw [d, Int.floor_eq_iff]
    constructor <;> linarith
  have g : Int.fract (x / 2 ^ e) = 1 / 2 := by
    rw [Int.fract, f, d]
    ring
  rw [nearest, g, f, if_neg (lt_irrefl _), if_neg (lt_irrefl _), if_pos hn]

/-- The mean of three numbers 11184814 is 11184813. -/
theorem mean_wrong : MeanOf binary32 (fun _ : Fin 3 => .num false (11184814 : ℕ)) (.num false (11184813 : ℕ)) := by
  have s1 : binary32.rd (22369628 : ℕ) = (22369628 : ℕ) := by
    have := binary32.exact 11184814 1 (by norm_num) (by norm_num)
    have e : ((11184814 : ℕ) : ℝ≥0∞) * 2 ^ 1 = (22369628 : ℕ) := by norm_num
    rwa [e] at this
  have s2 : binary32.rd (33554442 : ℕ) = (33554440 : ℕ) := by
    have h := roundReal_tie (x := 33554442) (e := 2) (n := 8388610) (by norm_num) (by norm_num) (by decide) (by norm_num)
    have h' : roundReal 33554442 = 33554440 := by rw [h]; norm_num
    have := rd32_ofReal (x := 33554442) (by norm_num) (by rw [h']; norm_num)
    rw [h'] at this
    show rd32 _ = _
    rw [← ENNReal.ofReal_natCast, ← ENNReal.ofReal_natCast]
    exact_mod_cast this
  have s3 : binary32.rd ((33554440 : ℕ) / (3 : ℕ)) = (11184813 : ℕ) := by
    have h := roundReal_near (x := 33554440 / 3) (e := 0) (n := 11184813) (by norm_num) (by norm_num) (by rw [abs_lt]; constructor <;> norm_num)
    have h' : roundReal (33554440 / 3) = 11184813 := by rw [h]; norm_num
    have := rd32_ofReal (x := 33554440 / 3) (by norm_num) (by rw [h']; norm_num)
    rw [h', ENNReal.ofReal_div_of_pos (by norm_num)] at this
    show rd32 _ = _
    rw [← ENNReal.ofReal_natCast, ← ENNReal.ofReal_natCast, ← ENNReal.ofReal_natCast]
    exact_mod_cast this
  refine ⟨.num false (33554440 : ℕ), ?_, ?_⟩
  · have a := SumOf.add (R := binary32) (.add (.one (.num false (11184814 : ℕ))) (.one (.num false (11184814 : ℕ)))) (.one (.num false (11184814 : ℕ)))
    have e1 : add binary32 (.num false (11184814 : ℕ)) (.num false (11184814 : ℕ)) = .num false (22369628 : ℕ) := by
      simp only [add, addWith, if_true]
      rw [← s1]
      congr 2
      norm_num
    have e2 : add binary32 (.num false (22369628 : ℕ)) (.num false (11184814 : ℕ)) = .num false (33554440 : ℕ) := by
      simp only [add, addWith, if_true]
      rw [← s2]
      congr 2
      norm_num
    rw [e1, e2] at a
    exact a
  · rw [FloatCountP.ofNat_exact (by norm_num)]
    simp only [div, divWith]
    rw [if_neg (by simp), s3]
    rfl

/-- A column of three numbers 11184814, with gamma 1 and beta 0. -/
theorem constant_off : ∃ (eps : Flt) (C Y : Fin 3 → Flt) (S : Flt), Setting 1 0 eps (fun _ : Fin 3 => .num false (11184814 : ℕ)) (2 ^ 24) ∧
    BatchNormTrain binary32 sqrtLib 1 0 eps (fun _ => .num false (11184814 : ℕ)) C S Y ∧ ∀ i, 0.9 ≤ (Y i).val := by
  have hus := u_small
  set x : Flt := .num false (11184814 : ℕ) with hx
  have xv : x.val = 11184814 := by simp [hx, Flt.val]
  set m : Flt := .num false (11184813 : ℕ) with hm
  have mv : m.val = 11184813 := by simp [hm, Flt.val]
  let eps : Flt := .num false ((2 ^ 17)⁻¹)
  have ev : eps.val = 1 / 2 ^ 17 := by simp [eps, Flt.val]
  have hset : Setting 1 0 eps (fun _ : Fin 3 => x) (2 ^ 24) := by
    refine ⟨by norm_num, ⟨finite_one, by rw [val_one]; norm_num⟩, ⟨finite_zero, by rw [val_zero]; norm_num⟩, ⟨⟨_, rfl⟩, ?_, ?_, ?_⟩, fun _ => ?_, fun _ => ?_, by norm_num⟩
    · show ((2 : ℝ≥0∞) ^ 17)⁻¹ ≠ ⊤
      exact ENNReal.inv_ne_top.2 (by positivity)
    · rw [ev]; norm_num
    · rw [ev]; norm_num
    · exact ENNReal.natCast_ne_top _
    · rw [xv]; norm_num
  have one1 : binary32.rd 1 = 1 := rd32_one
  have hsub : sub binary32 x m = 1 := by
    show addWith binary32.rd (.num false _) (.num true _) = .num false 1
    have n1 : ¬((11184814 : ℕ) : ℝ≥0∞) = ((11184813 : ℕ) : ℝ≥0∞) := by norm_num
    have n2 : ((11184813 : ℕ) : ℝ≥0∞) < ((11184814 : ℕ) : ℝ≥0∞) := by exact_mod_cast (by norm_num : 11184813 < 11184814)
    have n3 : ((11184814 : ℕ) : ℝ≥0∞) - ((11184813 : ℕ) : ℝ≥0∞) = 1 := by
      rw [← ENNReal.natCast_sub]
      norm_num
    simp only [addWith]
    rw [if_neg (by simp), if_neg n1, if_pos n2, n3, one1]
  have hv : SquareMeanOf binary32 (fun _ : Fin 3 => (1 : Flt)) 1 := by
    have m1 : mul binary32 1 1 = 1 := by
      show mulWith binary32.rd (.num false 1) (.num false 1) = .num false 1
      simp only [mulWith]
      rw [if_neg (by simp), one_mul, one1]
      rfl
    have a2 : add binary32 1 1 = .num false (2 : ℕ) := by
      show addWith binary32.rd (.num false 1) (.num false 1) = _
      simp only [addWith, if_true]
      rw [show (1 : ℝ≥0∞) + 1 = (2 : ℕ) by norm_num, rd_nat (by norm_num)]
    have a3 : add binary32 (.num false (2 : ℕ)) 1 = .num false (3 : ℕ) := by
      show addWith binary32.rd (.num false _) (.num false 1) = _
      simp only [addWith, if_true]
      rw [show ((2 : ℕ) : ℝ≥0∞) + 1 = (3 : ℕ) by norm_num, rd_nat (by norm_num)]
    have d := DotOf.add (R := binary32) (.add (.one 1 1) (.one 1 1)) (.one 1 1)
    rw [m1, a2, a3] at d
    refine ⟨_, d, ?_⟩
    rw [FloatCountP.ofNat_exact (by norm_num)]
    show Flt.num false 1 = divWith binary32.rd (.num false _) (.num false _)
    simp only [divWith]
    rw [if_neg (by simp), ENNReal.div_self (by norm_num) (by norm_num), one1]
    rfl
  let f := div binary32 1 (sqrtLib.fn (add binary32 1 eps))
  refine ⟨eps, fun _ => 1, fun _ => add binary32 0 (mul binary32 1 f), sqrtLib.fn (add binary32 1 eps), hset,
    ⟨fun i => ⟨m, mean_wrong, hsub.symm⟩, ⟨1, hv, rfl⟩, fun i => Or.inl rfl⟩, fun _ => ?_⟩
  have hout : BatchNormEval binary32 sqrtLib m 1 1 0 eps x (add binary32 0 (mul binary32 1 f)) := by
    unfold BatchNormEval
    rw [hsub]
    exact Or.inl rfl
  have s1 : 1 ≤ √(1 + (1 : ℝ) / 2 ^ 17) := Real.one_le_sqrt.2 (by norm_num)
  have s2 : √(1 + (1 : ℝ) / 2 ^ 17) ≤ 1.01 := by
    rw [Real.sqrt_le_left (by norm_num)]
    norm_num
  have c1 : (1 : ℝ) / √(1 + 1 / 2 ^ 17) ≤ 1 := by rw [div_le_one (by linarith)]; exact s1
  have c2 : 0.98 ≤ (1 : ℝ) / √(1 + 1 / 2 ^ 17) := by
    rw [le_div_iff₀ (by linarith)]
    linarith
  have hus' : Usable 1 1 eps := ⟨⟨⟨1, rfl⟩, finite_one, by rw [val_one]; norm_num⟩, ⟨finite_one, by rw [val_one]; norm_num⟩, hset.eps⟩
  have mf : m.Finite := ENNReal.natCast_ne_top _
  have xf : x.Finite := ENNReal.natCast_ne_top _
  have key := (batchNorm_error (R := binary32) sqrtLib_near u_pos.le (hus.trans (by norm_num)) (M := 1) (C := 1) (β := 0)
    hus' mf finite_zero xf hout (by rw [xv, mv]; norm_num) (by rw [val_one, ev, abs_of_pos (by linarith)]; exact c1) (by rw [val_zero]; norm_num)
    (by norm_num) (by norm_num) (by norm_num)).2
  unfold scaled at key
  rw [xv, mv, val_one, val_zero, ev] at key
  have hη : η ≤ 1 / 10 ^ 9 := by unfold η; norm_num
  have := (abs_le.1 key).1
  linarith

/-- **C117** (refuted): a constant column is normalised to numbers near 1, although gamma is 1 and beta is 0. -/
theorem constant_refuted : ¬ConstantToBeta binary32 sqrtLib := by
  intro h
  obtain ⟨eps, C, Y, S, h1, h2, h3⟩ := constant_off
  have := h 3 1 0 eps _ C Y S h1 (rd_zero (R := binary32)) (fun _ => rd_nat (R := binary32) (by norm_num)) (fun _ _ => rfl) h2 0
  rw [val_zero] at this
  linarith [h3 0]

/-! ### One row -/

/-- A sum of one number. -/
theorem sum_single {l : List Flt} {s x : Flt} (h : SumOf R l s) (hl : l = [x]) : s = x ∨ s = add R 0 x := by
  induction h with
  | one a => exact Or.inl (by simpa using hl)
  | start a => obtain rfl : a = x := by simpa using hl
               exact Or.inr rfl
  | @add l l' a b h₁ h₂ _ _ =>
    have n1 := List.length_pos_iff.2 (sum_ne_nil h₁)
    have n2 := List.length_pos_iff.2 (sum_ne_nil h₂)
    have := congrArg List.length hl
    rw [List.length_append, List.length_singleton] at this
    omega
  | perm hp _ ih => exact ih (List.perm_singleton.1 (hl ▸ hp))

/-- A sum that is a `float` is not rounded. -/
theorem add_exact {a b : Flt} (ha : a.Finite) (hb : b.Finite) (h : R.rd (ENNReal.ofReal |a.val + b.val|) = ENNReal.ofReal |a.val + b.val|) :
    (add R a b).Finite ∧ (add R a b).val = a.val + b.val := by
  have num : ∀ (s : Bool) (m : ℝ≥0∞), m ≠ ⊤ → (Flt.num s m).val = a.val + b.val → (Flt.num s (R.rd m)).Finite ∧ (Flt.num s (R.rd m)).val = a.val + b.val := by
    intro s m hm hv
    have e : |a.val + b.val| = m.toReal := by rw [← hv]; cases s <;> simp [Flt.val]
    rw [e, ENNReal.ofReal_toReal hm] at h
    rw [h]
    exact ⟨hm, hv⟩
  rcases a with _ | ⟨s, x⟩
  · exact ha.elim
  rcases b with _ | ⟨t, y⟩
  · exact hb.elim
  simp only [Flt.Finite] at ha hb
  simp only [add, addWith]
  split_ifs with h1 h2 h4
  · subst h1
    refine num _ _ (ENNReal.add_ne_top.2 ⟨ha, hb⟩) ?_
    cases s <;> simp [Flt.val, ENNReal.toReal_add ha hb, add_comm]
  · subst h2
    refine ⟨ENNReal.zero_ne_top, ?_⟩
    cases s <;> cases t <;> simp_all [Flt.val]
  · refine num _ _ (ne_top_of_le_ne_top ha tsub_le_self) ?_
    have e := ENNReal.toReal_sub_of_le h4.le ha
    cases s <;> cases t <;> simp_all [Flt.val] <;> ring
  · have h5 : x < y := lt_of_le_of_ne (not_lt.1 h4) h2
    refine num _ _ (ne_top_of_le_ne_top hb tsub_le_self) ?_
    have e := ENNReal.toReal_sub_of_le h5.le hb
    cases s <;> cases t <;> simp_all [Flt.val] <;> ring

theorem rd_abs {x : Flt} (hx : x.Finite) (hf : IsFloat R x) : R.rd (ENNReal.ofReal |x.val|) = ENNReal.ofReal |x.val| := by
  rcases x with _ | ⟨s, a⟩
  · exact hx.elim
  have e : |(Flt.num s a).val| = a.toReal := by cases s <;> simp [Flt.val]
  rw [e, ENNReal.ofReal_toReal hx]
  exact hf

/-- **C117** (part): in a batch of one row every feature is normalised to beta, exactly. -/
theorem one_row_partial {gamma beta eps : Flt} {X C Y : Fin 1 → Flt} {S : Flt} (hX : (X 0).Finite) (hf : IsFloat R (X 0)) (hb : beta.Finite) (hbf : IsFloat R beta)
    (hg : (div R gamma S).Finite) (h : BatchNormTrain R q gamma beta eps X C S Y) : (Y 0).val = beta.val := by
  obtain ⟨m, ⟨s, hs, hm⟩, hC⟩ := h.centered 0
  have hsx : s.Finite ∧ s.val = (X 0).val ∧ IsFloat R s := by
    rcases sum_single hs (by simp : List.ofFn X = [X 0]) with rfl | rfl
    · exact ⟨hX, rfl, hf⟩
    · have k := add_exact (R := R) (a := 0) finite_zero hX (by rw [val_zero, zero_add]; exact rd_abs hX hf)
      rw [val_zero, zero_add] at k
      exact ⟨k.1, k.2, FloatNetP.isFloat_add _ _⟩
  obtain ⟨sf, sv, si⟩ := hsx
  have hmm : m.Finite ∧ m.val = (X 0).val := by
    rw [FloatCountP.ofNat_exact (by norm_num), Nat.cast_one] at hm
    rcases s with _ | ⟨t, a⟩
    · exact sf.elim
    have e : div R (.num t a) (.num false 1) = .num t a := by
      show divWith R.rd _ _ = _
      have ha : a ≠ ⊤ := sf
      simp only [divWith]
      rw [if_neg (by simp), div_one, show R.rd a = a from si]
      cases t <;> rfl
    rw [hm, e]
    exact ⟨sf, sv⟩
  have nm := neg_finite hmm.1
  have c := add_exact (R := R) hX nm.1 (by
    rw [nm.2, hmm.2, add_neg_cancel, abs_zero, ENNReal.ofReal_zero]
    exact rd_zero)
  rw [nm.2, hmm.2, add_neg_cancel] at c
  have cC : (C 0).Finite ∧ (C 0).val = 0 := by rw [hC]; exact c
  have id0 := mulWith_id cC.1 hg
  rw [cC.2, zero_mul] at id0
  rcases h.output 0 with e | e
  · have mf : (mul R (C 0) (div R gamma S)).Finite ∧ (mul R (C 0) (div R gamma S)).val = 0 := by
      have n := near_mul (R := R) cC.1 hg (by rw [cC.2, zero_mul, abs_zero]; unfold big; positivity)
      refine ⟨n.1, ?_⟩
      generalize C 0 = a at *
      generalize div R gamma S = b at *
      rcases a with _ | ⟨s1, x⟩
      · exact cC.1.elim
      rcases b with _ | ⟨s2, y⟩
      · exact hg.elim
      have x0 : x = 0 := by
        have h1 := cC.2
        have h2 : x ≠ ⊤ := cC.1
        cases s1 <;> simpa [Flt.val, ENNReal.toReal_eq_zero_iff, h2] using h1
      have y0 : y ≠ ⊤ := hg
      subst x0
      simp only [mul, mulWith]
      rw [if_neg (by simp [y0]), zero_mul, rd_zero]
      cases s1 <;> cases s2 <;> simp [Flt.val]
    have k := add_exact (R := R) hb mf.1 (by rw [mf.2, add_zero]; exact rd_abs hb hbf)
    rw [e, k.2, mf.2, add_zero]
  · have k := add_exact (R := R) id0.1 hb (by rw [id0.2, zero_add]; exact rd_abs hb hbf)
    rw [id0.2, zero_add] at k
    rw [e]
    exact k.2

/-! ## The running statistics -/

/-- A moving average in exact arithmetic. -/
def movingAverage (α r₀ : ℝ) (x : ℕ → ℝ) : ℕ → ℝ
  | 0 => r₀
  | t + 1 => movingAverage α r₀ x t * α + x t * (1 - α)

theorem movingAverage_le {α r₀ K : ℝ} {x : ℕ → ℝ} (h0 : 0 ≤ α) (h1 : α ≤ 1) (hr : |r₀| ≤ K) (hx : ∀ t, |x t| ≤ K) (t : ℕ) : |movingAverage α r₀ x t| ≤ K := by
  induction t with
  | zero => exact hr
  | succ t ih =>
    have h := abs_add_le (movingAverage α r₀ x t * α) (x t * (1 - α))
    rw [abs_mul, abs_mul, abs_of_nonneg h0, abs_of_nonneg (by linarith : 0 ≤ 1 - α)] at h
    have h2 := mul_le_mul_of_nonneg_right ih h0
    have h3 := mul_le_mul_of_nonneg_right (hx t) (by linarith : 0 ≤ 1 - α)
    show |_ + _| ≤ K
    linarith

/-- The errors of a moving average do not pile up: `D` bounds the errors of the elements, `K` the elements. -/
theorem average_near {alpha : Flt} (ha : alpha.Finite) (h0 : 0 ≤ alpha.val) (h1 : alpha.val ≤ 1 - 1 / 2 ^ 10) {r x : ℕ → Flt} {y : ℕ → ℝ} {K D : ℝ}
    (hstep : ∀ t, MulAddMul R (r t) alpha (x t) (sub R 1 alpha) (r (t + 1))) (hr : (r 0).Finite) (hrK : |(r 0).val| ≤ K) (hx : ∀ t, (x t).Finite)
    (hD : ∀ t, |(x t).val - y t| ≤ D) (hK : ∀ t, |y t| ≤ K) (hDK : D ≤ K) (hKb : K ≤ 2 ^ 110) (t : ℕ) :
    (r t).Finite ∧ |(r t).val - movingAverage alpha.val (r 0).val y t| ≤ (10 * u * K + 5 * η) / (1 - alpha.val) + 1.01 * D := by
  have hu := u_pos
  have hη := η_pos
  have hus := u_small
  have hηs : η ≤ 1 / 10 ^ 9 := by unfold η; norm_num
  have hK0 : 0 ≤ K := (abs_nonneg _).trans hrK
  have hD0 : 0 ≤ D := (abs_nonneg _).trans (hD 0)
  obtain ⟨bf, be⟩ := one_sub (R := R) ha h0 (by linarith)
  set α := alpha.val
  set b := 1 - α with hb
  have hb0 : 1 / 2 ^ 10 ≤ b := by linarith
  have hbp : 0 < b := lt_of_lt_of_le (by norm_num) hb0
  have hb1 : b ≤ 1 := by linarith
  set E := (10 * u * K + 5 * η) / b + 1.01 * D with hE
  have hEb : E * b = 10 * u * K + 5 * η + 1.01 * D * b := by rw [hE]; field_simp
  have hE0 : 0 ≤ E := by positivity
  have uK : 0 ≤ u * K := by positivity
  have uK1 : u * K ≤ 1 / 10 ^ 7 * K := mul_le_mul_of_nonneg_right hus hK0
  have hE1 : E ≤ 1.2 * K + 1 := by
    have k1 : E * b ≤ (1.2 * K + 1) * b := by
      rw [hEb]
      have k2 := mul_le_mul_of_nonneg_right hDK hbp.le
      have k3 : 1 / 2 ^ 10 * K ≤ b * K := mul_le_mul_of_nonneg_right hb0 hK0
      linarith
    exact le_of_mul_le_mul_right k1 hbp
  induction t with
  | zero => exact ⟨hr, by simpa [movingAverage] using hE0⟩
  | succ t ih =>
    obtain ⟨rf, re⟩ := ih
    have ma := movingAverage_le (x := y) h0 (by linarith) hrK hK t
    set M := movingAverage α (r 0).val y t
    have rb : |(r t).val| ≤ K + E := by
      have := abs_sub_abs_le_abs_sub (r t).val M
      linarith
    have xb : |(x t).val| ≤ K + D := by
      have := abs_sub_abs_le_abs_sub (x t).val (y t)
      linarith [hD t, hK t]
    set b' := (sub R 1 alpha).val
    have ub : u * b ≤ 1 / 10 ^ 7 * b := mul_le_mul_of_nonneg_right hus hbp.le
    have bb : |b'| ≤ 1.001 * b := by
      have := abs_sub_abs_le_abs_sub b' b
      rw [abs_of_pos hbp] at this
      linarith
    have p1 : |(r t).val * α| ≤ (K + E) * α := by
      rw [abs_mul, abs_of_nonneg h0]
      exact mul_le_mul_of_nonneg_right rb h0
    have p2 : |(x t).val * b'| ≤ (K + D) * (1.001 * b) := by
      rw [abs_mul]
      exact mul_le_mul xb bb (abs_nonneg _) (by linarith)
    have q1 : (K + E) * α ≤ K + E := mul_le_of_le_one_right (by linarith) (by linarith)
    have q2 : (K + D) * (1.001 * b) ≤ 1.001 * (K + D) := by
      have : (K + D) * b ≤ K + D := mul_le_of_le_one_right (by linarith) hb1
      linarith
    obtain ⟨f1, f2⟩ := mulAddMul_error (hstep t) rf ha (hx t) bf p1 p2 (by linarith)
    refine ⟨f1, ?_⟩
    have e : (r (t + 1)).val - movingAverage α (r 0).val y (t + 1) = ((r (t + 1)).val - ((r t).val * α + (x t).val * b')) +
        (((r t).val - M) * α + ((x t).val * (b' - b) + ((x t).val - y t) * b)) := by
      show (r (t + 1)).val - (M * α + y t * (1 - α)) = _
      rw [← hb]
      ring
    rw [e]
    have a1 := abs_add_le ((r (t + 1)).val - ((r t).val * α + (x t).val * b')) (((r t).val - M) * α + ((x t).val * (b' - b) + ((x t).val - y t) * b))
    have a2 := abs_add_le (((r t).val - M) * α) ((x t).val * (b' - b) + ((x t).val - y t) * b)
    have a3 := abs_add_le ((x t).val * (b' - b)) (((x t).val - y t) * b)
    rw [abs_mul, abs_of_nonneg h0] at a2
    rw [abs_mul, abs_mul, abs_of_pos hbp] at a3
    have a4 := mul_le_mul_of_nonneg_right re h0
    have a5 := mul_le_mul xb be (abs_nonneg _) (by linarith)
    have a6 := mul_le_mul_of_nonneg_right (hD t) hbp.le
    have a7 : E * α = E - E * b := by rw [hb]; ring
    have a8 : (K + D) * (1.001 * u * b) ≤ 1.001 * (2 * K) * u := by
      have z1 : (K + D) * (1.001 * u * b) = 1.001 * u * ((K + D) * b) := by ring
      have z2 : (K + D) * b ≤ 2 * K := (mul_le_of_le_one_right (by linarith) hb1).trans (by linarith)
      have z3 := mul_le_mul_of_nonneg_left z2 (by positivity : 0 ≤ 1.001 * u)
      linarith
    have a9 : 2.1 * u * ((K + E) * α + (K + D) * (1.001 * b)) ≤ 2.1 * u * (3.1 * K) + 2.1 * (u * E) := by
      have z1 : (K + E) * α + (K + D) * (1.001 * b) ≤ 3.1 * K + E := by linarith
      have z3 := mul_le_mul_of_nonneg_left z1 (by positivity : 0 ≤ 2.1 * u)
      linarith
    have a10 : u * E ≤ 0.001 * (E * b) := by
      have z1 : 1 / 2 ^ 10 * E ≤ b * E := mul_le_mul_of_nonneg_right hb0 hE0
      have z2 : u * E ≤ 1 / 10 ^ 7 * E := mul_le_mul_of_nonneg_right hus hE0
      linarith
    have db : 0 ≤ D * b := by positivity
    linarith

theorem centerError_le {N : ℕ} (hB : B ≤ N) (hN : N ≤ 2 ^ 20) (hA : 0 ≤ A) : centerError B A ≤ centerError N A ∧ centerError N A ≤ 0.1 * A + 6 * η := by
  have hu := u_pos
  have hus := u_small
  have h1 : (B : ℝ) ≤ N := by exact_mod_cast hB
  have h2 : (N : ℝ) ≤ 2 ^ 20 := by exact_mod_cast hN
  have hNu : (N : ℝ) * u ≤ 0.0625 := by
    have := mul_le_mul_of_nonneg_right h2 hu.le
    have h2 : (2 : ℝ) ^ 20 * u ≤ 0.0625 := by unfold u; norm_num
    linarith
  have uA : 0 ≤ u * A := by positivity
  have k1 := mul_le_mul_of_nonneg_right h1 uA
  have k2 := mul_le_mul_of_nonneg_right hNu hA
  have k3 := mul_le_mul_of_nonneg_right hus hA
  unfold centerError
  constructor <;> linarith

/-- The variance of a batch. -/
theorem variance_error (hs : Setting gamma beta eps X A) (hB : 0 < B) (h : BatchNormTrain R q gamma beta eps X C S Y) {v : Flt} (hv : SquareMeanOf R C v) :
    v.Finite ∧ |v.val - Spec.variance fun i => (X i).val| ≤ 17 * (B + 3) * u * A ^ 2 + 1 / 2 ^ 90 ∧ |Spec.variance fun i => (X i).val| ≤ 4 * A ^ 2 := by
  have hu := u_pos
  have hη := η_pos
  have hus := u_small
  have hηs : η ≤ 1 / 2 ^ 149 := by unfold η; norm_num
  have hA0 : 0 ≤ A := (abs_nonneg _).trans (hs.size ⟨0, hB⟩)
  have hA := hs.max
  choose mm hmm hCc using h.centered
  have hc := fun j => center_error hs hB (hmm j) (hCc j)
  obtain ⟨-, vf, ve⟩ := square_error hv hB hs.rows (fun j => (hc j).2.1) le_rfl fun j => (hc j).2.2.2.2.2
  have hμ := mean_le hA0 hs.size
  set μ := Spec.mean fun i => (X i).val
  have hD1 := (centerError_le le_rfl hs.rows hA0).2
  have hDd : centerError B A = 1.3 * (B + 3) * u * A + 6 * η := rfl
  set D := centerError B A
  have hD0 : 0 ≤ D := (abs_nonneg _).trans (hc ⟨0, hB⟩).2.2.1
  have hcc : ∀ j, |(X j).val - μ| ≤ 2 * A := fun j => (abs_sub _ _).trans (by linarith [hs.size j])
  have hCb : ∀ j, |(C j).val| ≤ 2 * A + D := fun j => by
    have := abs_sub_abs_le_abs_sub (C j).val ((X j).val - μ)
    linarith [(hc j).2.2.2.2.1, hcc j]
  have hV : |Spec.variance fun i => (X i).val| ≤ 4 * A ^ 2 := mean_le (by positivity) fun j => by
    rw [abs_pow]
    refine (pow_le_pow_left₀ (abs_nonneg _) (hcc j) 2).trans (le_of_eq ?_)
    ring
  have hV' : |Spec.mean fun i => (C i).val ^ 2| ≤ (2 * A + D) ^ 2 := mean_le (by positivity) fun j => by
    rw [abs_pow]
    exact pow_le_pow_left₀ (abs_nonneg _) (hCb j) 2
  have hVV : |(Spec.mean fun i => (C i).val ^ 2) - Spec.variance fun i => (X i).val| ≤ D * (4 * A + D) := by
    have e : (Spec.mean fun i => (C i).val ^ 2) - (Spec.variance fun i => (X i).val) = Spec.mean fun i => (C i).val ^ 2 - ((X i).val - μ) ^ 2 := by
      unfold Spec.variance Spec.mean
      rw [Finset.sum_sub_distrib, sub_div]
      rfl
    rw [e]
    refine mean_le (by positivity) fun j => ?_
    rw [sq_sub_sq, abs_mul, mul_comm]
    refine mul_le_mul (hc j).2.2.2.2.1 ((abs_add_le _ _).trans ?_) (abs_nonneg _) hD0
    linarith [hCb j, hcc j]
  refine ⟨vf, ?_, hV⟩
  have V'0 : 0 ≤ Spec.mean fun i => (C i).val ^ 2 := div_nonneg (Finset.sum_nonneg fun i _ => sq_nonneg _) (Nat.cast_nonneg _)
  rw [abs_of_nonneg V'0] at hV'
  set V' := Spec.mean fun i => (C i).val ^ 2
  set V := Spec.variance fun i => (X i).val
  have hN2 : (B : ℝ) ≤ 2 ^ 20 := by exact_mod_cast hs.rows
  have hNu : (B + 3) * u ≤ 0.07 := by
    have := mul_le_mul_of_nonneg_right hN2 hu.le
    have h2 : (2 : ℝ) ^ 20 * u ≤ 0.0625 := by unfold u; norm_num
    linarith
  have hA50 : A * η ≤ 2 ^ 50 * (1 / 2 ^ 149) := mul_le_mul hA hηs hη.le (by positivity)
  have hη2 : η * η ≤ 1 / 2 ^ 149 * (1 / 2 ^ 149) := mul_le_mul hηs hηs hη.le (by positivity)
  have hAA : 0 ≤ A * A := by positivity
  set w := (B + 3) * u with hw
  have hw0 : 0 ≤ w := by positivity
  have hwA : w * A ≤ 0.07 * A := mul_le_mul_of_nonneg_right hNu hA0
  -- D (4 A + D)
  have k1 : D * (4 * A + D) ≤ 5.4 * (w * (A * A)) + 30 * (A * η) + 36 * (η * η) := by
    have z1 : D * (4 * A + D) ≤ D * (4.1 * A + 6 * η) := mul_le_mul_of_nonneg_left (by linarith) hD0
    have z2 : D * (4.1 * A + 6 * η) = 5.33 * (w * (A * A)) + 7.8 * (w * A * η) + 24.6 * (A * η) + 36 * (η * η) := by
      rw [hDd, hw]
      ring
    have z3 : w * A * η ≤ 0.07 * A * η := mul_le_mul_of_nonneg_right hwA hη.le
    have z4 : 0 ≤ w * (A * A) := by positivity
    have z5 : 0 ≤ A * η := by positivity
    linarith
  have k2 : 2.5 * (B + 1) * u * V' ≤ 11.1 * (w * (A * A)) + 5 * (A * η) + 7 * (η * η) := by
    have z1 : (2 * A + D) ^ 2 ≤ (2.1 * A + 6 * η) ^ 2 := pow_le_pow_left₀ (by positivity) (by linarith) 2
    have z2 : (2.1 * A + 6 * η) ^ 2 = 4.41 * (A * A) + 25.2 * (A * η) + 36 * (η * η) := by ring
    have z3 : 2.5 * (B + 1) * u ≤ 2.5 * w := by rw [hw]; linarith
    have z4 := mul_le_mul z3 (hV'.trans z1) V'0 (by positivity)
    rw [z2] at z4
    have z5 : w * (A * η) ≤ 0.07 * (A * η) := mul_le_mul_of_nonneg_right hNu (by positivity)
    have z6 : w * (η * η) ≤ 0.07 * (η * η) := mul_le_mul_of_nonneg_right hNu (by positivity)
    have z7 : 0 ≤ w * (A * A) := by positivity
    have z8 : 0 ≤ A * η := by positivity
    have z9 : 0 ≤ η * η := by positivity
    linarith
  have k3 := abs_sub_le v.val V' V
  have k4 : 17 * (B + 3) * u * A ^ 2 = 17 * (w * (A * A)) := by rw [hw]; ring
  have k5 : 0 ≤ w * (A * A) := by positivity
  have k6 : 36 * ((2 : ℝ) ^ 50 * (1 / 2 ^ 149)) + 43 * (1 / 2 ^ 149 * (1 / 2 ^ 149)) + 5 * (1 / 2 ^ 149) ≤ 1 / 2 ^ 90 := by norm_num
  rw [k4]
  linarith

/-- **C118**: after any number of batches the running mean and variance are near the moving averages of the exact means and variances. The batches may have different
numbers of rows, gamma and beta may change. -/
theorem running_near {N : ℕ} {rows : ℕ → ℕ} {alpha eps : Flt} {gamma beta S mean var : ℕ → Flt} {X C Y : ∀ t, Fin (rows t) → Flt} {A K K' : ℝ}
    (ha : alpha.Finite) (h0 : 0 ≤ alpha.val) (h1 : alpha.val ≤ 1 - 1 / 2 ^ 10) (hN : N ≤ 2 ^ 20) (hrows : ∀ t, 0 < rows t ∧ rows t ≤ N)
    (hs : ∀ t, Setting (gamma t) (beta t) eps (X t) A) (h : ∀ t, BatchNormTrain R q (gamma t) (beta t) eps (X t) (C t) (S t) (Y t))
    (hr : ∀ t, RunningStep R alpha (X t) (C t) (mean t) (var t) (mean (t + 1)) (var (t + 1)))
    (hm : (mean 0).Finite ∧ |(mean 0).val| ≤ K) (hv : (var 0).Finite ∧ |(var 0).val| ≤ K') (hK : A + 1 / 2 ^ 80 ≤ K) (hK' : 4 * A ^ 2 + 1 / 2 ^ 80 ≤ K')
    (hKb : K ≤ 2 ^ 110) (hKb' : K' ≤ 2 ^ 110) (t : ℕ) :
    (mean t).Finite ∧ (var t).Finite ∧
    |(mean t).val - movingAverage alpha.val (mean 0).val (fun t => Spec.mean fun i => (X t i).val) t| ≤
      (10 * u * K + 5 * η) / (1 - alpha.val) + 1.01 * centerError N A ∧
    |(var t).val - movingAverage alpha.val (var 0).val (fun t => Spec.variance fun i => (X t i).val) t| ≤
      (10 * u * K' + 5 * η) / (1 - alpha.val) + 1.01 * (17 * (N + 3) * u * A ^ 2 + 1 / 2 ^ 90) := by
  have hu := u_pos
  have hη := η_pos
  have hηs : η ≤ 1 / 2 ^ 149 := by unfold η; norm_num
  choose m v hmm hvv hm' hv' using hr
  have hA0 : 0 ≤ A := (abs_nonneg _).trans ((hs 0).size ⟨0, (hrows 0).1⟩)
  have hce := fun t => centerError_le (hrows t).2 hN hA0
  have km := average_near ha h0 h1 hm' hm.1 hm.2 (y := fun t => Spec.mean fun i => (X t i).val) (D := centerError N A)
    (fun t => (center_error (i := ⟨0, (hrows t).1⟩) (hs t) (hrows t).1 (hmm t) rfl).1)
    (fun t => (center_error (i := ⟨0, (hrows t).1⟩) (hs t) (hrows t).1 (hmm t) rfl).2.2.1.trans (hce t).1)
    (fun t => (mean_le hA0 (hs t).size).trans (by
      have : (0 : ℝ) < 1 / 2 ^ 80 := by positivity
      linarith))
    ((hce 0).2.trans (by
      have : 6 * ((1 : ℝ) / 2 ^ 149) ≤ 1 / 2 ^ 80 := by norm_num
      linarith)) hKb t
  have hve := fun t => variance_error (hs t) (hrows t).1 (h t) (hvv t)
  have hA2 : 0 ≤ u * A ^ 2 := by positivity
  have hN2 : (N : ℝ) ≤ 2 ^ 20 := by exact_mod_cast hN
  have kv := average_near ha h0 h1 hv' hv.1 hv.2 (y := fun t => Spec.variance fun i => (X t i).val) (D := 17 * (N + 3) * u * A ^ 2 + 1 / 2 ^ 90)
    (fun t => (hve t).1)
    (fun t => (hve t).2.1.trans (by
      have hn : (rows t : ℝ) ≤ N := by exact_mod_cast (hrows t).2
      have := mul_le_mul_of_nonneg_right hn hA2
      linarith))
    (fun t => (hve t).2.2.trans (by
      have : (0 : ℝ) < 1 / 2 ^ 80 := by positivity
      linarith))
    (by
      have z1 : 17 * (N + 3) * u ≤ 4 := by
        have := mul_le_mul_of_nonneg_right hN2 hu.le
        have h2 : (2 : ℝ) ^ 20 * u ≤ 0.0625 := by unfold u; norm_num
        have hus := u_small
        linarith
      have z2 := mul_le_mul_of_nonneg_right z1 (sq_nonneg A)
      have z3 : (1 : ℝ) / 2 ^ 90 ≤ 1 / 2 ^ 80 := by norm_num
      linarith) hKb' t
  exact ⟨km.1, kv.1, km.2, kv.2⟩

/-! ## Examples -/

/-- A column with the numbers 0, 1, 2: the outputs are near those of exact arithmetic. -/
example : ∃ (eps : Flt) (C Y : Fin 3 → Flt) (S : Flt), BatchNormTrain binary32 sqrtLib 1 0 eps (fun i => .num false (i.val : ℕ)) C S Y ∧ ∀ i, (Y i).Finite ∧
    |(Y i).val - Spec.normalise 1 (2 / 3) (1 / 4) 1 0 i.val| ≤ 1 / 10 ^ 4 := by
  have hus := u_small
  let eps : Flt := .num false (4 : ℝ≥0∞)⁻¹
  have ev : eps.val = 1 / 4 := by simp [eps, Flt.val]
  obtain ⟨C, S, Y, h⟩ := train_exists binary32 sqrtLib 1 0 eps (by norm_num : 0 < 3) fun i => .num false (i.val : ℕ)
  have xv : ∀ i : Fin 3, (Flt.num false (i.val : ℕ)).val = i.val := fun i => by simp [Flt.val]
  have hset : Setting 1 0 eps (fun i : Fin 3 => .num false (i.val : ℕ)) 2 := by
    refine ⟨by norm_num, ⟨finite_one, by rw [val_one]; norm_num⟩, ⟨finite_zero, by rw [val_zero]; norm_num⟩, ⟨⟨_, rfl⟩, ?_, ?_, ?_⟩, fun _ => ?_, fun i => ?_, by norm_num⟩
    · show (4 : ℝ≥0∞)⁻¹ ≠ ⊤
      exact ENNReal.inv_ne_top.2 (by norm_num)
    · rw [ev]; norm_num
    · rw [ev]; norm_num
    · exact ENNReal.natCast_ne_top _
    · rw [xv, Nat.abs_cast]
      have : i.val ≤ 2 := by omega
      exact_mod_cast this
  refine ⟨eps, C, Y, S, h, fun i => ?_⟩
  have k := train_near sqrtLib_near u_pos.le (hus.trans (by norm_num)) hset h i
  refine ⟨k.1, ?_⟩
  have k2 := k.2
  have hm : Spec.mean (fun i : Fin 3 => (Flt.num false (i.val : ℕ)).val) = 1 := by
    simp only [xv, Spec.mean, Fin.sum_univ_three]
    norm_num
  have hv : Spec.variance (fun i : Fin 3 => (Flt.num false (i.val : ℕ)).val) = 2 / 3 := by
    unfold Spec.variance
    rw [hm]
    simp only [xv, Spec.mean, Fin.sum_univ_three]
    norm_num
  rw [hm, hv, ev, val_one, val_zero, xv] at k2
  refine k2.trans ?_
  have s1 : √((1 : ℝ) / 4) = 1 / 2 := by
    rw [show (1 : ℝ) / 4 = (1 / 2) ^ 2 by norm_num]
    exact Real.sqrt_sq (by norm_num)
  have s2 : √((3 : ℕ) : ℝ) ≤ 2 := by
    rw [Real.sqrt_le_left (by norm_num)]
    norm_num
  rw [s1, abs_one, abs_zero, one_mul]
  have s3 : 4 * (((3 : ℕ) : ℝ) + 3) * u * (1 + 2 / (1 / 2)) + 1.5 * u ≤ 121.5 / 10 ^ 7 := by
    rw [Nat.cast_ofNat]
    linarith
  have := mul_le_mul s2 s3 (by have := u_pos; positivity) (by norm_num)
  have s4 : (1 : ℝ) / 2 ^ 80 ≤ 1 / 10 ^ 9 := by norm_num
  linarith

/-- The same batch again and again, with `alpha` one half. -/
example : ∃ (alpha eps : Flt) (C Y : Fin 3 → Flt) (S : Flt) (mean var : ℕ → Flt), alpha.val = 1 / 2 ∧
    BatchNormTrain binary32 sqrtLib 1 0 eps (fun i => .num false (i.val : ℕ)) C S Y ∧
    (∀ t, RunningStep binary32 alpha (fun i => .num false (i.val : ℕ)) C (mean t) (var t) (mean (t + 1)) (var (t + 1))) ∧
    ∀ t, |(mean t).val - movingAverage (1 / 2) 0 (fun _ => 1) t| ≤ 1 / 10 ^ 4 := by
  have hus := u_small
  let eps : Flt := .num false (4 : ℝ≥0∞)⁻¹
  have ev : eps.val = 1 / 4 := by simp [eps, Flt.val]
  let alpha : Flt := .num false (2 : ℝ≥0∞)⁻¹
  have av : alpha.val = 1 / 2 := by simp [alpha, Flt.val]
  obtain ⟨C, S, Y, h⟩ := train_exists binary32 sqrtLib 1 0 eps (by norm_num : 0 < 3) fun i => .num false (i.val : ℕ)
  have xv : ∀ i : Fin 3, (Flt.num false (i.val : ℕ)).val = i.val := fun i => by simp [Flt.val]
  have hset : Setting 1 0 eps (fun i : Fin 3 => .num false (i.val : ℕ)) 2 := by
    refine ⟨by norm_num, ⟨finite_one, by rw [val_one]; norm_num⟩, ⟨finite_zero, by rw [val_zero]; norm_num⟩, ⟨⟨_, rfl⟩, ?_, ?_, ?_⟩, fun _ => ?_, fun i => ?_, by norm_num⟩
    · show (4 : ℝ≥0∞)⁻¹ ≠ ⊤
      exact ENNReal.inv_ne_top.2 (by norm_num)
    · rw [ev]; norm_num
    · rw [ev]; norm_num
    · exact ENNReal.natCast_ne_top _
    · rw [xv, Nat.abs_cast]
      have : i.val ≤ 2 := by omega
      exact_mod_cast this
  obtain ⟨m, hm⟩ : ∃ m, MeanOf binary32 (fun i : Fin 3 => .num false (i.val : ℕ)) m := (h.centered 0).imp fun _ h => h.1
  obtain ⟨v, hv, -⟩ := h.deviation
  let run : ℕ → Flt × Flt := fun t => Nat.rec (0, 0) (fun _ p =>
    (add binary32 (mul binary32 p.1 alpha) (mul binary32 m (sub binary32 1 alpha)), add binary32 (mul binary32 p.2 alpha) (mul binary32 v (sub binary32 1 alpha)))) t
  have hrun : ∀ t, RunningStep binary32 alpha (fun i : Fin 3 => .num false (i.val : ℕ)) C (run t).1 (run t).2 (run (t + 1)).1 (run (t + 1)).2 :=
    fun t => ⟨m, v, hm, hv, .inl rfl, .inl rfl⟩
  refine ⟨alpha, eps, C, Y, S, fun t => (run t).1, fun t => (run t).2, av, h, hrun, fun t => ?_⟩
  have k := (running_near (N := 3) (rows := fun _ => 3) (gamma := fun _ => 1) (beta := fun _ => 0) (eps := eps) (S := fun _ => S) (mean := fun t => (run t).1)
    (var := fun t => (run t).2) (X := fun _ i => .num false (i.val : ℕ)) (C := fun _ => C) (Y := fun _ => Y) (A := 2) (K := 3) (K' := 17) (alpha := alpha)
    (show (2 : ℝ≥0∞)⁻¹ ≠ ⊤ from ENNReal.inv_ne_top.2 (by norm_num)) (by rw [av]; norm_num) (by rw [av]; norm_num) (by norm_num) (fun _ => ⟨by norm_num, le_rfl⟩)
    (fun _ => hset) (fun _ => h) hrun ⟨finite_zero, by show |(0 : Flt).val| ≤ _; rw [val_zero]; norm_num⟩
    ⟨finite_zero, by show |(0 : Flt).val| ≤ _; rw [val_zero]; norm_num⟩ (by norm_num) (by norm_num) (by norm_num) (by norm_num) t).2.2.1
  have hmean : Spec.mean (fun i : Fin 3 => (Flt.num false (i.val : ℕ)).val) = 1 := by
    simp only [xv, Spec.mean, Fin.sum_univ_three]
    norm_num
  have r0 : (run 0).1.val = 0 := val_zero
  rw [hmean, av, r0] at k
  refine k.trans ?_
  have hη : η ≤ 1 / 10 ^ 9 := by unfold η; norm_num
  unfold centerError
  rw [Nat.cast_ofNat]
  have e : (10 * u * 3 + 5 * η) / (1 - 1 / 2) = 60 * u + 10 * η := by ring
  rw [e]
  linarith

end

end DW.Props.FloatBatchNormP
