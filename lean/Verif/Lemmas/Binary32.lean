import Verif.Model.Floats
import Mathlib.Data.Int.Log
import Mathlib.Data.ENNReal.Real
import Mathlib.Analysis.Complex.ExponentialBounds
/-!
# Rounding to the nearest `float`

`binary32` is the rounding of IEEE 754, to nearest and ties to even, and `libm` are correctly rounded `exp` and `log`. They show that
what `Verif.Model.Floats` requires of a rounding and of these functions can be met.
-/

set_option autoImplicit false

namespace DW.Float

open scoped ENNReal

noncomputable section

/-- The nearest integer; of two, the even one. -/
def nearest (y : ℝ) : ℤ :=
  if Int.fract y < 1 / 2 then ⌊y⌋ else if 1 / 2 < Int.fract y then ⌊y⌋ + 1 else if Even ⌊y⌋ then ⌊y⌋ else ⌊y⌋ + 1

theorem nearest_floor (y : ℝ) : ⌊y⌋ ≤ nearest y ∧ nearest y ≤ ⌊y⌋ + 1 := by
  unfold nearest; split_ifs <;> omega

theorem nearest_error (y : ℝ) : |(nearest y : ℝ) - y| ≤ 1 / 2 := by
  have h := Int.floor_add_fract y
  have h0 := Int.fract_nonneg y
  have h1 := Int.fract_lt_one y
  unfold nearest
  rw [abs_le]
  split_ifs <;> push_cast <;> constructor <;> linarith

theorem nearest_mono : Monotone nearest := by
  intro y z h
  rcases (Int.floor_le_floor h).lt_or_eq with hf | hf
  · exact (nearest_floor y).2.trans (le_trans hf (nearest_floor z).1)
  · have hy := Int.floor_add_fract y
    have hz := Int.floor_add_fract z
    have : (⌊y⌋ : ℝ) = ⌊z⌋ := by exact_mod_cast hf
    have hfr : Int.fract y ≤ Int.fract z := by linarith
    unfold nearest
    rw [hf]
    split_ifs <;> first | omega | (exfalso; linarith)

theorem nearest_int (k : ℤ) : nearest k = k := by simp [nearest]

/-- The exponent of the last bit of the `float`s around `x`. -/
def lastBit (x : ℝ) : ℤ := max (Int.log 2 x - 23) (-149)

/-- The nearest multiple of the last bit. -/
def roundReal (x : ℝ) : ℝ := nearest (x / 2 ^ lastBit x) * 2 ^ lastBit x

theorem two_zpow_pos (e : ℤ) : (0 : ℝ) < 2 ^ e := zpow_pos (by norm_num) e

theorem roundReal_error (x : ℝ) : |roundReal x - x| ≤ 2 ^ (lastBit x - 1) := by
  have h := nearest_error (x / 2 ^ lastBit x)
  have hp := two_zpow_pos (lastBit x)
  have e : roundReal x - x = (nearest (x / 2 ^ lastBit x) - x / 2 ^ lastBit x) * 2 ^ lastBit x := by
    rw [roundReal, sub_mul, div_mul_cancel₀ _ hp.ne']
  rw [e, abs_mul, abs_of_pos hp, zpow_sub_one₀ (by norm_num)]
  nlinarith

theorem lt_lastBit (x : ℝ) : x < 2 ^ (lastBit x + 24) := by
  have := Int.lt_zpow_succ_log_self (b := 2) (by norm_num) x
  refine this.trans_le ?_
  push_cast
  exact zpow_le_zpow_right₀ (by norm_num) (by unfold lastBit; omega)

theorem roundReal_zero : roundReal 0 = 0 := by simp [roundReal, nearest]

theorem roundReal_le (x : ℝ) : roundReal x ≤ 2 ^ (lastBit x + 24) := by
  have hp := two_zpow_pos (lastBit x)
  have hlt := lt_lastBit x
  have hq : x / 2 ^ lastBit x ≤ ((2 ^ 24 : ℤ) : ℝ) := by
    rw [div_le_iff₀ hp]
    have := zpow_add₀ (by norm_num : (2 : ℝ) ≠ 0) (lastBit x) 24
    rw [this] at hlt
    push_cast
    norm_num at hlt ⊢
    linarith
  have hn := nearest_mono hq
  rw [nearest_int] at hn
  have hn' : (nearest (x / 2 ^ lastBit x) : ℝ) ≤ 2 ^ 24 := by exact_mod_cast hn
  rw [roundReal, zpow_add₀ (by norm_num), mul_comm]
  exact mul_le_mul_of_nonneg_left (by exact_mod_cast hn') hp.le

theorem roundReal_mono {x y : ℝ} (hx : 0 ≤ x) (h : x ≤ y) : roundReal x ≤ roundReal y := by
  have nonneg : ∀ z : ℝ, 0 ≤ z → 0 ≤ roundReal z := fun z hz => by
    have hp := two_zpow_pos (lastBit z)
    have hn := nearest_mono (show ((0 : ℤ) : ℝ) ≤ z / 2 ^ lastBit z by push_cast; positivity)
    rw [nearest_int] at hn
    exact mul_nonneg (by exact_mod_cast hn) hp.le
  rcases hx.eq_or_lt with rfl | hx
  · rw [roundReal_zero]
    exact nonneg y h
  have hy : 0 < y := hx.trans_le h
  have hlog := Int.log_mono_right (b := 2) hx h
  have hle : lastBit x ≤ lastBit y := by unfold lastBit; omega
  rcases hle.eq_or_lt with he | hlt
  · rw [roundReal, roundReal, he]
    have hp := two_zpow_pos (lastBit y)
    have hn := nearest_mono (div_le_div_of_nonneg_right h hp.le)
    exact mul_le_mul_of_nonneg_right (by exact_mod_cast hn) hp.le
  · have hL : lastBit y = Int.log 2 y - 23 := by
      have : -149 ≤ lastBit x := by unfold lastBit; omega
      unfold lastBit at *
      omega
    have hp := two_zpow_pos (lastBit y)
    have hlo : (2 : ℝ) ^ Int.log 2 y ≤ roundReal y := by
      have h1 := Int.zpow_log_le_self (b := 2) (by norm_num) hy
      have hq : ((2 ^ 23 : ℤ) : ℝ) ≤ y / 2 ^ lastBit y := by
        rw [le_div_iff₀ hp]
        have e : (2 : ℝ) ^ Int.log 2 y = 2 ^ (23 : ℤ) * 2 ^ lastBit y := by
          rw [← zpow_add₀ (by norm_num), hL]; congr 1; omega
        push_cast at h1 ⊢
        rw [e] at h1
        exact_mod_cast h1
      have hn := nearest_mono hq
      rw [nearest_int] at hn
      have hn' : ((2 : ℝ) ^ 23) ≤ nearest (y / 2 ^ lastBit y) := by exact_mod_cast hn
      have e : (2 : ℝ) ^ Int.log 2 y = 2 ^ (23 : ℤ) * 2 ^ lastBit y := by
        rw [← zpow_add₀ (by norm_num), hL]; congr 1; omega
      rw [e, roundReal]
      exact mul_le_mul_of_nonneg_right (by exact_mod_cast hn') hp.le
    refine (roundReal_le x).trans (le_trans ?_ hlo)
    exact zpow_le_zpow_right₀ (by norm_num) (by omega)

/-- A `float` is not changed. -/
theorem roundReal_float {m : ℕ} {e : ℤ} (hm : m < 2 ^ 24) (he : -149 ≤ e) : roundReal (m * 2 ^ e) = m * 2 ^ e := by
  rcases Nat.eq_zero_or_pos m with rfl | h0
  · simpa using roundReal_zero
  have hpos : (0 : ℝ) < m * 2 ^ e := mul_pos (by exact_mod_cast h0) (two_zpow_pos e)
  have hlog : Int.log 2 ((m : ℝ) * 2 ^ e) < e + 24 := by
    rw [← Int.lt_zpow_iff_log_lt (by norm_num) hpos]
    push_cast
    rw [add_comm, zpow_add₀ (by norm_num)]
    have : (m : ℝ) < 2 ^ (24 : ℤ) := by exact_mod_cast hm
    exact mul_lt_mul_of_pos_right this (two_zpow_pos e)
  have hl : lastBit ((m : ℝ) * 2 ^ e) ≤ e := by unfold lastBit; omega
  have hp := two_zpow_pos (lastBit ((m : ℝ) * 2 ^ e))
  obtain ⟨d, hd⟩ : ∃ d : ℕ, e = lastBit ((m : ℝ) * 2 ^ e) + d := ⟨(e - lastBit ((m : ℝ) * 2 ^ e)).toNat, by omega⟩
  have hq : (m : ℝ) * 2 ^ e / 2 ^ lastBit ((m : ℝ) * 2 ^ e) = ((m * 2 ^ d : ℤ) : ℝ) := by
    rw [div_eq_iff hp.ne']
    conv_lhs => rw [hd, zpow_add₀ (by norm_num)]
    push_cast
    rw [zpow_natCast]
    ring
  rw [roundReal, hq, nearest_int, ← hq, div_mul_cancel₀ _ hp.ne']

/-- What is rounded is a `float`, except that it may be too large. -/
theorem roundReal_isFloat {x : ℝ} (hx : 0 ≤ x) : ∃ (m : ℕ) (e : ℤ), m < 2 ^ 24 ∧ -149 ≤ e ∧ roundReal x = m * 2 ^ e := by
  rcases hx.eq_or_lt with rfl | hx
  · exact ⟨0, 0, by norm_num, by norm_num, by simpa using roundReal_zero⟩
  have hp := two_zpow_pos (lastBit x)
  have hl : -149 ≤ lastBit x := by unfold lastBit; omega
  have hn := nearest_mono (show ((0 : ℤ) : ℝ) ≤ x / 2 ^ lastBit x by push_cast; positivity)
  rw [nearest_int] at hn
  obtain ⟨k, hk⟩ : ∃ k : ℕ, nearest (x / 2 ^ lastBit x) = k := ⟨_, (Int.toNat_of_nonneg hn).symm⟩
  have hr : roundReal x = k * 2 ^ lastBit x := by rw [roundReal, hk]; simp
  have hk24 : k ≤ 2 ^ 24 := by
    have h := roundReal_le x
    rw [hr, zpow_add₀ (by norm_num), mul_comm] at h
    have := le_of_mul_le_mul_left h hp
    exact_mod_cast this
  rcases hk24.lt_or_eq with h | rfl
  · exact ⟨k, _, h, hl, hr⟩
  · refine ⟨2 ^ 23, lastBit x + 1, by norm_num, by omega, ?_⟩
    rw [hr, zpow_add_one₀ (by norm_num)]
    push_cast
    ring

/-- Rounding of magnitudes: infinite if the result is too large. -/
def rd32 (x : ℝ≥0∞) : ℝ≥0∞ := if x = ⊤ ∨ 2 ^ 128 ≤ roundReal x.toReal then ⊤ else ENNReal.ofReal (roundReal x.toReal)

theorem rd32_ofReal {x : ℝ} (hx : 0 ≤ x) (h : roundReal x < 2 ^ 128) : rd32 (ENNReal.ofReal x) = ENNReal.ofReal (roundReal x) := by
  simp [rd32, ENNReal.toReal_ofReal hx, h]

theorem rd32_top : rd32 ⊤ = ⊤ := by simp [rd32]

theorem roundReal_nonneg {x : ℝ} (hx : 0 ≤ x) : 0 ≤ roundReal x := roundReal_zero ▸ roundReal_mono le_rfl hx

theorem rd32_mono : Monotone rd32 := by
  intro x y h
  by_cases hy : y = ⊤ ∨ 2 ^ 128 ≤ roundReal y.toReal
  · rw [rd32, rd32, if_pos hy]
    exact le_top
  · have hy' := not_or.1 hy
    have hr := roundReal_mono ENNReal.toReal_nonneg (ENNReal.toReal_mono hy'.1 h)
    have hx : ¬(x = ⊤ ∨ 2 ^ 128 ≤ roundReal x.toReal) := by
      rintro (rfl | hx)
      · exact hy'.1 (top_le_iff.1 h)
      · exact hy'.2 (hx.trans hr)
    rw [rd32, rd32, if_neg hy, if_neg hx]
    exact ENNReal.ofReal_le_ofReal hr

theorem rd32_idem (x : ℝ≥0∞) : rd32 (rd32 x) = rd32 x := by
  by_cases h : x = ⊤ ∨ 2 ^ 128 ≤ roundReal x.toReal
  · have e : rd32 x = ⊤ := if_pos h
    rw [e, rd32_top]
  · have e : rd32 x = ENNReal.ofReal (roundReal x.toReal) := if_neg h
    obtain ⟨m, k, hm, hk, hr⟩ := roundReal_isFloat (x := x.toReal) ENNReal.toReal_nonneg
    have hf := roundReal_float hm hk
    have hlt : roundReal x.toReal < 2 ^ 128 := not_le.1 (not_or.1 h).2
    rw [← hr] at hf
    rw [e, rd32_ofReal (roundReal_nonneg ENNReal.toReal_nonneg) (hf.symm ▸ hlt), hf]

theorem maxFloat_lt : (16777215 * 2 ^ 104 : ℝ) < 2 ^ 128 := by norm_num

theorem rd32_exact (m e : ℕ) (hm : m < 2 ^ 24) (he : e ≤ 104) : rd32 (m * 2 ^ e) = m * 2 ^ e := by
  have hf := roundReal_float (e := e) hm (by omega)
  rw [zpow_natCast] at hf
  have hx : (m : ℝ≥0∞) * 2 ^ e = ENNReal.ofReal (m * 2 ^ e) := by
    rw [ENNReal.ofReal_mul (by positivity), ENNReal.ofReal_natCast, ENNReal.ofReal_pow (by norm_num)]
    norm_num
  have hm' : (m : ℝ) ≤ 16777215 := by exact_mod_cast Nat.le_of_lt_succ hm
  have hlt : (m : ℝ) * 2 ^ e < 2 ^ 128 := by
    have h2 : (2 : ℝ) ^ e ≤ 2 ^ 104 := pow_le_pow_right₀ (by norm_num) he
    exact (mul_le_mul hm' h2 (by positivity) (by norm_num)).trans_lt maxFloat_lt
  rw [hx, rd32_ofReal (by positivity) (hf.symm ▸ hlt), hf]

/-- The error, if nothing overflows. -/
theorem rd32_error {x : ℝ} (hx : 0 ≤ x) (hmax : x ≤ 16777215 * 2 ^ 104) {d : ℝ} (hd : |roundReal x - x| ≤ d) :
    rd32 (ENNReal.ofReal x) ≤ ENNReal.ofReal x + ENNReal.ofReal d ∧ ENNReal.ofReal x ≤ rd32 (ENNReal.ofReal x) + ENNReal.ofReal d := by
  have hd0 : 0 ≤ d := (abs_nonneg _).trans hd
  have hlt : roundReal x < 2 ^ 128 := by
    have h := roundReal_mono hx hmax
    have hf := roundReal_float (m := 16777215) (e := 104) (by norm_num) (by norm_num)
    norm_num at hf h ⊢
    rw [hf] at h
    exact h.trans_lt (by norm_num)
  rw [rd32_ofReal hx hlt, ← ENNReal.ofReal_add hx hd0, ← ENNReal.ofReal_add (roundReal_nonneg hx) hd0]
  rw [abs_le] at hd
  exact ⟨ENNReal.ofReal_le_ofReal (by linarith), ENNReal.ofReal_le_ofReal (by linarith)⟩

theorem ofReal_two_zpow (k : ℕ) : ENNReal.ofReal (2 ^ (-(k : ℤ))) = ((2 : ℝ≥0∞) ^ k)⁻¹ := by
  rw [zpow_neg, zpow_natCast, ENNReal.ofReal_inv_of_pos (by positivity), ENNReal.ofReal_pow (by norm_num)]
  norm_num

theorem maxFloat_eq : maxFloat = ENNReal.ofReal (16777215 * 2 ^ 104) := by
  rw [maxFloat, ENNReal.ofReal_mul (by norm_num), ENNReal.ofReal_pow (by norm_num)]
  norm_num

theorem minNormal_eq : minNormal = ENNReal.ofReal (2 ^ (-126 : ℤ)) := (ofReal_two_zpow 126).symm

theorem rd32_normal {x : ℝ≥0∞} (h : minNormal ≤ x) (hmax : x ≤ maxFloat) : rd32 x ≤ x + unit * x ∧ x ≤ rd32 x + unit * x := by
  have hxt : x ≠ ⊤ := by
    rintro rfl
    rw [maxFloat_eq] at hmax
    exact absurd (top_le_iff.1 hmax) ENNReal.ofReal_ne_top
  obtain ⟨r, hr, rfl⟩ : ∃ r : ℝ, 0 ≤ r ∧ x = ENNReal.ofReal r := ⟨x.toReal, ENNReal.toReal_nonneg, (ENNReal.ofReal_toReal hxt).symm⟩
  rw [minNormal_eq, ENNReal.ofReal_le_ofReal_iff hr] at h
  rw [maxFloat_eq, ENNReal.ofReal_le_ofReal_iff (by norm_num)] at hmax
  have hr0 : 0 < r := (two_zpow_pos _).trans_le h
  have hu : unit * ENNReal.ofReal r = ENNReal.ofReal (2 ^ (-24 : ℤ) * r) := by
    rw [ENNReal.ofReal_mul (by positivity), unit]
    congr 1
    exact (ofReal_two_zpow 24).symm
  rw [hu]
  refine rd32_error hr hmax ((roundReal_error r).trans ?_)
  have hlog : -126 ≤ Int.log 2 r := by
    rw [← Int.zpow_le_iff_le_log (by norm_num) hr0]
    exact_mod_cast h
  have hl : lastBit r - 1 = -24 + Int.log 2 r := by unfold lastBit; omega
  rw [hl, zpow_add₀ (by norm_num)]
  have := Int.zpow_log_le_self (b := 2) (by norm_num) hr0
  push_cast at this
  exact mul_le_mul_of_nonneg_left this (two_zpow_pos _).le

theorem rd32_tiny {x : ℝ≥0∞} (h : x < minNormal) : rd32 x ≤ x + halfMin ∧ x ≤ rd32 x + halfMin := by
  obtain ⟨r, hr, rfl⟩ : ∃ r : ℝ, 0 ≤ r ∧ x = ENNReal.ofReal r :=
    ⟨x.toReal, ENNReal.toReal_nonneg, (ENNReal.ofReal_toReal h.ne_top).symm⟩
  rw [minNormal_eq, ENNReal.ofReal_lt_ofReal_iff (two_zpow_pos _)] at h
  have hh : halfMin = ENNReal.ofReal (2 ^ (-150 : ℤ)) := (ofReal_two_zpow 150).symm
  have hmax : r ≤ 16777215 * 2 ^ 104 := h.le.trans (by norm_num)
  rw [hh]
  refine rd32_error hr hmax ?_
  rcases hr.eq_or_lt with rfl | hr0
  · rw [roundReal_zero]
    simp
  · refine (roundReal_error r).trans (le_of_eq ?_)
    have hlog : Int.log 2 r < -126 := by
      rw [← Int.lt_zpow_iff_log_lt (by norm_num) hr0]
      exact_mod_cast h
    congr 1
    unfold lastBit
    omega

theorem rd32_huge (x : ℝ≥0∞) (h : 2 ^ 128 ≤ x) : rd32 x = ⊤ := by
  rcases eq_or_ne x ⊤ with rfl | hx
  · exact rd32_top
  have h' : (2 : ℝ) ^ 128 ≤ x.toReal := by
    have := ENNReal.toReal_mono hx h
    simpa using this
  have hf := roundReal_float (m := 1) (e := 128) (by norm_num) (by norm_num)
  rw [Nat.cast_one, one_mul] at hf
  have := roundReal_mono (by positivity) h'
  refine if_pos (.inr (le_trans ?_ this))
  exact_mod_cast hf.ge

theorem rd32_largest (x : ℝ≥0∞) (h : rd32 x ≠ ⊤) : rd32 x ≤ maxFloat := by
  have hx : ¬(x = ⊤ ∨ 2 ^ 128 ≤ roundReal x.toReal) := fun hx => h (if_pos hx)
  have e : rd32 x = ENNReal.ofReal (roundReal x.toReal) := if_neg hx
  obtain ⟨m, k, hm, hk, hr⟩ := roundReal_isFloat (x := x.toReal) ENNReal.toReal_nonneg
  have hlt : roundReal x.toReal < 2 ^ 128 := not_le.1 (not_or.1 hx).2
  rw [e, maxFloat_eq]
  refine ENNReal.ofReal_le_ofReal ?_
  rw [hr] at hlt ⊢
  have hm' : (m : ℝ) ≤ 16777215 := by exact_mod_cast Nat.le_of_lt_succ hm
  rcases le_or_gt k 104 with hk' | hk'
  · have h2 : (2 : ℝ) ^ k ≤ 2 ^ 104 := by
      rw [← zpow_natCast]
      exact zpow_le_zpow_right₀ (by norm_num) (by exact_mod_cast hk')
    exact mul_le_mul hm' h2 (two_zpow_pos k).le (by norm_num)
  · obtain ⟨d, rfl⟩ : ∃ d : ℕ, k = d + 104 := ⟨(k - 104).toNat, by omega⟩
    have e2 : (2 : ℝ) ^ ((d : ℤ) + 104) = 2 ^ d * 2 ^ 104 := by
      rw [zpow_add₀ (by norm_num), zpow_natCast]; norm_cast
    rw [e2, ← mul_assoc] at hlt ⊢
    have hlt' : (m : ℝ) * 2 ^ d < 2 ^ 24 := by
      have : (m : ℝ) * 2 ^ d * 2 ^ 104 < 2 ^ 24 * 2 ^ 104 := hlt.trans_eq (by norm_num)
      exact lt_of_mul_lt_mul_right this (by positivity)
    have hn : m * 2 ^ d < 2 ^ 24 := by exact_mod_cast hlt'
    have hn' : ((m * 2 ^ d : ℕ) : ℝ) ≤ 16777215 := by exact_mod_cast Nat.le_of_lt_succ hn
    push_cast at hn'
    exact mul_le_mul_of_nonneg_right hn' (by positivity)

/-- The rounding of `float`. -/
def binary32 : Rounding where
  rd := rd32
  mono := rd32_mono
  idem := rd32_idem
  exact := rd32_exact
  upper _ h h' := (rd32_normal h h').1
  lower _ h h' := (rd32_normal h h').2
  tinyUpper _ h := (rd32_tiny h).1
  tinyLower _ h := (rd32_tiny h).2
  huge := rd32_huge
  largest := rd32_largest

/-! ## `exp` and `log` -/

/-- `std::exp`, correctly rounded. -/
def exp32 : Flt → Flt
  | .nan => .nan
  | .num false x => if x = ⊤ then .num false ⊤ else .num false (rd32 (ENNReal.ofReal (Real.exp x.toReal)))
  | .num true x => if x = ⊤ then 0 else .num false (rd32 (ENNReal.ofReal (Real.exp (-x.toReal))))

/-- `std::log`, correctly rounded. -/
def log32 : Flt → Flt
  | .nan => .nan
  | .num s x =>
    if x = 0 then .num true ⊤
    else if s then .nan
    else if x = ⊤ then .num false ⊤
    else .num (decide (x < 1)) (rd32 (ENNReal.ofReal |Real.log x.toReal|))

theorem rd32_one : rd32 1 = 1 := by simpa using rd32_exact 1 0 (by norm_num) (by norm_num)

theorem rd32_least {x : ℝ} (hx : 0 ≤ x) (h : x < 2 ^ (-150 : ℤ)) : rd32 (ENNReal.ofReal x) = 0 := by
  have hr : roundReal x = 0 := by
    rcases hx.eq_or_lt with rfl | h0
    · exact roundReal_zero
    have hlog : Int.log 2 x < -150 := by
      rw [← Int.lt_zpow_iff_log_lt (by norm_num) h0]
      exact_mod_cast h
    have hl : lastBit x = -149 := by unfold lastBit; omega
    have hq : x / 2 ^ (-149 : ℤ) < 1 / 2 := by
      rw [div_lt_iff₀ (two_zpow_pos _)]
      exact h.trans_eq (by norm_num)
    have hq0 : 0 ≤ x / 2 ^ (-149 : ℤ) := div_nonneg hx (two_zpow_pos _).le
    have hfl : ⌊x / 2 ^ (-149 : ℤ)⌋ = 0 := Int.floor_eq_zero_iff.2 ⟨hq0, by linarith⟩
    have hfr : Int.fract (x / 2 ^ (-149 : ℤ)) = x / 2 ^ (-149 : ℤ) := by rw [Int.fract, hfl]; simp
    rw [roundReal, hl, nearest, hfr, if_pos hq, hfl]
    simp
  rw [rd32_ofReal hx (by rw [hr]; norm_num), hr]
  simp

theorem exp_neg_small {x : ℝ} (h : 200 ≤ x) : Real.exp (-x) < 2 ^ (-150 : ℤ) := by
  have h1 : (2 : ℝ) ≤ Real.exp 1 := by linarith [Real.add_one_le_exp 1]
  have h2 : (2 : ℝ) ^ 200 ≤ Real.exp x := by
    calc (2 : ℝ) ^ 200 ≤ Real.exp 1 ^ 200 := pow_le_pow_left₀ (by norm_num) h1 200
      _ = Real.exp 200 := by rw [← Real.exp_nat_mul]; norm_num
      _ ≤ Real.exp x := Real.exp_le_exp.2 h
  rw [Real.exp_neg, zpow_neg]
  refine inv_strictAnti₀ (by positivity) (lt_of_lt_of_le ?_ h2)
  norm_num

/-- The smallest positive `float`. -/
theorem float_ge {x : ℝ≥0∞} (h0 : 0 < x) (h : rd32 x = x) : ENNReal.ofReal (2 ^ (-150 : ℤ)) ≤ x := by
  by_contra hc
  have hlt := not_le.1 hc
  have e : ENNReal.ofReal x.toReal = x := ENNReal.ofReal_toReal hlt.ne_top
  rw [← e, ENNReal.ofReal_lt_ofReal_iff (two_zpow_pos _)] at hlt
  have := rd32_least ENNReal.toReal_nonneg hlt
  rw [e, h] at this
  exact h0.ne' this

theorem log_bound {x : ℝ≥0∞} (h0 : 0 < x) (ht : x < ⊤) (h : rd32 x = x) : |Real.log x.toReal| ≤ 128 := by
  have hlo : (2 : ℝ) ^ (-150 : ℤ) ≤ x.toReal := by
    have := ENNReal.toReal_mono ht.ne (float_ge h0 h)
    rwa [ENNReal.toReal_ofReal (two_zpow_pos _).le] at this
  have hhi : x.toReal ≤ 2 ^ (128 : ℤ) := by
    by_contra hc
    have : rd32 x = ⊤ := rd32_huge x (by
      rw [← ENNReal.ofReal_toReal ht.ne]
      have e : (2 : ℝ≥0∞) ^ 128 = ENNReal.ofReal (2 ^ 128) := by rw [ENNReal.ofReal_pow (by norm_num)]; norm_num
      rw [e]
      exact ENNReal.ofReal_le_ofReal (by exact_mod_cast (not_le.1 hc).le))
    rw [h] at this
    exact ht.ne this
  have h2 := Real.log_two_lt_d9
  have h2' := Real.log_two_gt_d9
  have l1 := Real.log_le_log (two_zpow_pos _) hlo
  have l2 := Real.log_le_log ((two_zpow_pos _).trans_le hlo) hhi
  rw [Real.log_zpow] at l1 l2
  rw [abs_le]
  push_cast at l1 l2
  constructor <;> linarith

/-- `exp` and `log` of `float`, correctly rounded. -/
def libm : Libm binary32 where
  exp := exp32
  log := log32
  expZero s := by cases s <;> (simp [exp32, rd32_one]; rfl)
  expNeg x := by
    rcases eq_or_ne x ⊤ with rfl | hx
    · have h0 : rd32 0 = 0 := by simpa using rd32_exact 0 0 (by norm_num) (by norm_num)
      exact ⟨0, by simp, h0, by simp [exp32]; rfl⟩
    · refine ⟨rd32 (ENNReal.ofReal (Real.exp (-x.toReal))), ?_, rd32_idem _, by simp [exp32, hx]⟩
      rw [← rd32_one]
      refine rd32_mono ?_
      rw [← ENNReal.ofReal_one]
      exact ENNReal.ofReal_le_ofReal (Real.exp_le_one_iff.2 (by simp))
  expSmall x h := by
    rcases eq_or_ne x ⊤ with rfl | hx
    · simp [exp32]
    · have h' : 200 ≤ x.toReal := by simpa using ENNReal.toReal_mono hx h
      simp only [exp32, hx, if_false]
      rw [rd32_least (Real.exp_pos _).le (exp_neg_small h')]
      rfl
  logZero := by
    show log32 (.num false 0) = _
    simp [log32]
  logPos x h0 ht h := by
    refine ⟨decide (x < 1), rd32 (ENNReal.ofReal |Real.log x.toReal|), ?_, by simp [log32, h0.ne', ht.ne]⟩
    have e : rd32 ((128 : ℕ) : ℝ≥0∞) = ((128 : ℕ) : ℝ≥0∞) := by simpa using rd32_exact 128 0 (by norm_num) (by norm_num)
    have hb : ENNReal.ofReal |Real.log x.toReal| ≤ ((128 : ℕ) : ℝ≥0∞) := by
      rw [← ENNReal.ofReal_natCast]
      exact ENNReal.ofReal_le_ofReal (by simpa using log_bound h0 ht h)
    simpa using (rd32_mono hb).trans e.le

end

end DW.Float
