import Verif.Model.Floats
/-!
# C98: softmax of finite numbers, in `float`

Whatever the order of summation, each result is a number between 0 and 1, and that of a largest input is positive.
-/

set_option autoImplicit false

namespace DW.Props.FloatSoftmaxP

open DW.Float
open scoped ENNReal

variable {R : Rounding}

theorem rd_nat {k : ℕ} (hk : k ≤ 2 ^ 24) : R.rd k = k := by
  rcases hk.lt_or_eq with h | rfl
  · simpa using R.exact k 0 h (by norm_num)
  · have h := R.exact (2 ^ 23) 1 (by norm_num) (by norm_num)
    have e : ((2 ^ 23 : ℕ) : ℝ≥0∞) * 2 ^ 1 = ((2 ^ 24 : ℕ) : ℝ≥0∞) := by norm_num
    rwa [e] at h

theorem rd_zero : R.rd 0 = 0 := by simpa using rd_nat (R := R) (k := 0) (by norm_num)

theorem rd_one : R.rd 1 = 1 := by simpa using rd_nat (R := R) (k := 1) (by norm_num)

theorem rd_le_nat {x : ℝ≥0∞} {k : ℕ} (hk : k ≤ 2 ^ 24) (h : x ≤ k) : R.rd x ≤ k := (R.mono h).trans (rd_nat hk).le

theorem unit_lt_one : unit < 1 := by
  rw [unit]
  exact ENNReal.inv_lt_one.2 (one_lt_pow₀ (by norm_num) (by norm_num))

theorem one_le_maxFloat : (1 : ℝ≥0∞) ≤ maxFloat := by
  have h : ((1 : ℕ) : ℝ≥0∞) ≤ ((16777215 * 2 ^ 104 : ℕ) : ℝ≥0∞) := Nat.cast_le.2 (by norm_num)
  rw [maxFloat]
  exact_mod_cast h

/-- A `float` between 0 and 1. -/
def UnitFloat (R : Rounding) (a : Flt) : Prop := ∃ y : ℝ≥0∞, y ≤ 1 ∧ R.rd y = y ∧ a = .num false y

theorem sum_bounds {l : List Flt} {s : Flt} (h : SumOf R l s) (hl : ∀ a ∈ l, UnitFloat R a) (hn : l.length ≤ 2 ^ 24) :
    ∃ z ≤ (l.length : ℝ≥0∞), R.rd z = z ∧ s = .num false z ∧ ∀ y, Flt.num false y ∈ l → y ≤ z := by
  induction h with
  | one a =>
    obtain ⟨y, hy, hr, rfl⟩ := hl a (by simp)
    exact ⟨y, by simpa using hy, hr, rfl, by simp⟩
  | start a =>
    obtain ⟨y, hy, hr, rfl⟩ := hl a (by simp)
    refine ⟨y, by simpa using hy, hr, ?_, by simp⟩
    show addWith R.rd (.num false 0) _ = _
    simp [addWith, hr]
  | @add l l' a b _ _ ih ih' =>
    simp only [List.length_append] at hn
    obtain ⟨z, hz, hr, rfl, hle⟩ := ih (fun a ha => hl a (by simp [ha])) (by omega)
    obtain ⟨z', hz', hr', rfl, hle'⟩ := ih' (fun a ha => hl a (by simp [ha])) (by omega)
    refine ⟨R.rd (z + z'), ?_, R.idem _, by simp [DW.Float.add, addWith], ?_⟩
    · rw [List.length_append]
      exact rd_le_nat hn (by push_cast; exact add_le_add hz hz')
    · intro y hy
      rcases List.mem_append.1 hy with hy | hy
      · exact (hle y hy).trans (hr.symm.le.trans (R.mono le_self_add))
      · exact (hle' y hy).trans (hr'.symm.le.trans (R.mono le_add_self))
  | perm hp _ ih =>
    obtain ⟨z, hz, hr, hs, hle⟩ := ih (fun a ha => hl a (hp.mem_iff.1 ha)) (by rw [hp.length_eq]; exact hn)
    exact ⟨z, by rwa [← hp.length_eq], hr, hs, fun y hy => hle y (hp.mem_iff.2 hy)⟩

variable {F : Libm R} {B n : Nat}

/-- What is subtracted is at least as large. -/
theorem exp_sub {x m : Flt} (hx : x.Finite) (hm : m.Finite) (h : ¬m.lt x) : UnitFloat R (F.exp (sub R x m)) := by
  have neg : ∀ y, UnitFloat R (F.exp (.num true y)) := fun y => by
    obtain ⟨z, hz, hr, he⟩ := F.expNeg y
    exact ⟨z, hz, hr, he⟩
  have zero : ∀ s, UnitFloat R (F.exp (.num s 0)) := fun s => ⟨1, le_rfl, rd_one, F.expZero s⟩
  rcases x with _ | ⟨s, x⟩
  · exact hx.elim
  rcases m with _ | ⟨t, m⟩
  · exact hm.elim
  simp only [Flt.Finite] at hx hm
  cases s <;> cases t <;> simp only [Flt.lt, not_lt, not_not, not_false_eq_true] at h
  · simp only [sub, Flt.neg, addWith]
    by_cases e : x = m
    · subst e; simpa [hx] using zero false
    · have : x < m := lt_of_le_of_ne h e
      simpa [e, this.not_gt] using neg _
  · obtain ⟨rfl, rfl⟩ | h := em (m = 0 ∧ x = 0)
    · simpa [sub, Flt.neg, addWith, rd_zero] using zero false
    · exact absurd h (by simp_all)
  · simpa [sub, Flt.neg, addWith] using neg _
  · simp only [sub, Flt.neg, addWith]
    by_cases e : x = m
    · subst e; simpa [hx] using zero false
    · have : m < x := lt_of_le_of_ne h (Ne.symm e)
      simpa [e, this] using neg _

/-- Neither is less than the other: their difference is a zero. -/
theorem sub_eq_zero {x m : Flt} (hx : x.Finite) (hm : m.Finite) (h : ¬m.lt x) (h' : ¬x.lt m) : ∃ s, sub R x m = .num s 0 := by
  rcases x with _ | ⟨s, x⟩
  · exact hx.elim
  rcases m with _ | ⟨t, m⟩
  · exact hm.elim
  simp only [Flt.Finite] at hx hm
  cases s <;> cases t <;> simp only [Flt.lt, not_lt, not_not, not_false_eq_true] at h h'
  · obtain rfl := le_antisymm h h'
    exact ⟨false, by simp [sub, Flt.neg, addWith, hx]⟩
  · exact ⟨false, by simp [sub, Flt.neg, addWith, h.1, h.2, rd_zero]⟩
  · exact ⟨true, by simp [sub, Flt.neg, addWith, h'.1, h'.2, rd_zero]⟩
  · obtain rfl := le_antisymm h h'
    exact ⟨false, by simp [sub, Flt.neg, addWith, hx]⟩

theorem row {row : Fin n → Flt} {m s : Flt} (hx : ∀ j, (row j).Finite) (hn : n ≤ 2 ^ 24) (hm : IsMax row m)
    (hs : SumOf R (List.ofFn fun j => F.exp (sub R (row j) m)) s) :
    ∃ z : ℝ≥0∞, 1 ≤ z ∧ z ≤ n ∧ s = .num false z ∧
      ∀ j, ∃ y : ℝ≥0∞, y ≤ 1 ∧ y ≤ z ∧ F.exp (sub R (row j) m) = .num false y ∧ (IsMax row (row j) → y = 1) := by
  have hmf : m.Finite := by obtain ⟨j, rfl⟩ := hm.1; exact hx j
  have hu : ∀ j, UnitFloat R (F.exp (sub R (row j) m)) := fun j => exp_sub (hx j) hmf (hm.2 j)
  obtain ⟨z, hz, -, rfl, hle⟩ := sum_bounds hs (by simpa [List.mem_ofFn] using hu) (by simpa using hn)
  have hle' : ∀ j y, F.exp (sub R (row j) m) = .num false y → y ≤ z := fun j y hy =>
    hle y (List.mem_ofFn.2 ⟨j, hy⟩)
  have one : ∀ j, IsMax row (row j) → F.exp (sub R (row j) m) = 1 := fun j hj => by
    obtain ⟨j₀, h₀⟩ := hm.1
    obtain ⟨s, hs⟩ := sub_eq_zero (R := R) (hx j) hmf (hm.2 j) (h₀ ▸ hj.2 j₀)
    rw [hs]
    exact F.expZero s
  refine ⟨z, ?_, by simpa using hz, rfl, fun j => ?_⟩
  · obtain ⟨j₀, h₀⟩ := hm.1
    exact hle' j₀ 1 (one j₀ (h₀ ▸ hm))
  · obtain ⟨y, hy, -, he⟩ := hu j
    refine ⟨y, hy, hle' j y he, he, fun hj => ?_⟩
    have h1 := one j hj
    rw [he] at h1
    exact (Flt.num.inj h1).2

/-- Softmax of finite inputs, with at most `2 ^ 24` of them in a row: each output is a `float` between 0 and 1, in particular
neither NaN nor infinite. -/
theorem softmax_range {X Y : Fin B → Fin n → Flt} (h : SoftmaxForward R F X Y) (hX : ∀ i j, (X i j).Finite) (hn : n ≤ 2 ^ 24)
    (i : Fin B) (j : Fin n) : ∃ y : ℝ≥0∞, y ≤ 1 ∧ R.rd y = y ∧ Y i j = .num false y := by
  obtain ⟨m, s, hm, hs, hY⟩ := h i
  obtain ⟨z, hz, hzn, rfl, hrow⟩ := row (hX i) hn hm hs
  obtain ⟨y, hy, hyz, he, -⟩ := hrow j
  have hz0 : z ≠ 0 := fun h => by simp [h] at hz
  have hzt : z ≠ ⊤ := fun h => by simp [h] at hzn
  refine ⟨R.rd (y / z), ?_, R.idem _, ?_⟩
  · exact (R.mono (ENNReal.div_le_of_le_mul (by simpa using hyz))).trans rd_one.le
  · rw [hY, he]
    simp [div, divWith, hz0, hzt]

/-- The output for a largest input is at least `2 ^ -25`, and so not 0. -/
theorem softmax_max {X Y : Fin B → Fin n → Flt} (h : SoftmaxForward R F X Y) (hX : ∀ i j, (X i j).Finite) (hn : n ≤ 2 ^ 24)
    (i : Fin B) (j : Fin n) (hj : IsMax (X i) (X i j)) : ∃ y : ℝ≥0∞, (2 ^ 25)⁻¹ ≤ y ∧ y ≤ 1 ∧ Y i j = .num false y := by
  obtain ⟨y, hy, -, hY'⟩ := softmax_range h hX hn i j
  refine ⟨y, ?_, hy, hY'⟩
  obtain ⟨m, s, hm, hs, hY⟩ := h i
  obtain ⟨z, hz, hzn, rfl, hrow⟩ := row (hX i) hn hm hs
  obtain ⟨e, -, -, he, h1⟩ := hrow j
  obtain rfl := h1 hj
  have hz0 : z ≠ 0 := fun h => by simp [h] at hz
  have hzt : z ≠ ⊤ := fun h => by simp [h] at hzn
  have hy' : y = R.rd (1 / z) := by
    have := hY j
    rw [he, hY'] at this
    simpa [div, divWith, hz0, hzt] using this
  have hz24 : z ≤ 2 ^ 24 := hzn.trans (by exact_mod_cast hn)
  have hlo : minNormal ≤ 1 / z := by
    rw [one_div, minNormal]
    exact ENNReal.inv_le_inv.2 (hz24.trans (pow_le_pow_right₀ (by norm_num) (by norm_num)))
  have hhi : 1 / z ≤ 1 := by rw [one_div]; exact ENNReal.inv_le_one.2 hz
  have hl := R.lower (1 / z) hlo (hhi.trans one_le_maxFloat)
  rw [← hy'] at hl
  have hfin : 1 / z ≠ ⊤ := ne_top_of_le_ne_top ENNReal.one_ne_top hhi
  have hu : unit ≤ 2⁻¹ := by
    rw [unit]
    exact ENNReal.inv_le_inv.2 (by simpa using pow_le_pow_right₀ (by norm_num : (1 : ℝ≥0∞) ≤ 2) (by norm_num : 1 ≤ 24))
  have hhalf : 2⁻¹ * (1 / z) ≠ ⊤ := ENNReal.mul_ne_top (by simp) hfin
  have hl2 : 2⁻¹ * (1 / z) ≤ y := by
    have h1 : 2⁻¹ * (1 / z) + 2⁻¹ * (1 / z) ≤ y + 2⁻¹ * (1 / z) := by
      rw [← add_mul, ENNReal.inv_two_add_inv_two, one_mul]
      exact hl.trans (by gcongr)
    exact (ENNReal.add_le_add_iff_right hhalf).1 h1
  refine le_trans ?_ hl2
  have hz' : ((2 : ℝ≥0∞) ^ 24)⁻¹ ≤ 1 / z := by rw [one_div]; exact ENNReal.inv_le_inv.2 hz24
  calc ((2 : ℝ≥0∞) ^ 25)⁻¹ = 2⁻¹ * (2 ^ 24)⁻¹ := by
        rw [pow_succ' 2 24, ENNReal.mul_inv (by simp) (by simp)]
    _ ≤ 2⁻¹ * (1 / z) := by gcongr

end DW.Props.FloatSoftmaxP
