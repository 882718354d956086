import Verif.Model.FloatCount
import Verif.Props.FloatGrad
import Verif.Props.MaxPool
/-!
# C105, C106: counts and positions that are kept in `float`s
-/

set_option autoImplicit false

namespace DW.Props.FloatCountP

open DW.Float DW.Props.FloatSoftmaxP DW.Props.FloatDotP
open scoped ENNReal

noncomputable section

variable {R : Rounding} {B n : Nat}

/-! ### Rounding of whole numbers -/

theorem ofNat_exact {m : ℕ} (h : m ≤ 2 ^ 24) : ofNat R m = .num false m := by rw [ofNat, rd_nat h]

/-- An odd number between `2 ^ 24` and `2 ^ 25` lies in the middle between two `float`s. -/
theorem rd32_odd {k : ℕ} (h : 2 ^ 23 ≤ k) (h' : k < 2 ^ 24) : rd32 ((2 * k + 1 : ℕ) : ℝ≥0∞) = ((if Even k then 2 * k else 2 * k + 2 : ℕ) : ℝ≥0∞) := by
  have hlog : Int.log 2 (((2 * k + 1 : ℕ) : ℝ)) = 24 := by
    rw [Int.log_natCast]
    have : Nat.log 2 (2 * k + 1) = 24 := by
      rw [Nat.log_eq_iff (by norm_num)]
      constructor <;> omega
    rw [this]; rfl
  have hb : lastBit (((2 * k + 1 : ℕ) : ℝ)) = 1 := by rw [lastBit, hlog]; rfl
  have hf : ⌊((2 * k + 1 : ℕ) : ℝ) / 2⌋ = (k : ℤ) := by
    rw [Int.floor_eq_iff]
    push_cast
    constructor <;> linarith
  have hfr : Int.fract (((2 * k + 1 : ℕ) : ℝ) / 2) = 1 / 2 := by
    rw [Int.fract, hf]
    push_cast
    ring
  have hr : roundReal (((2 * k + 1 : ℕ) : ℝ)) = ((if Even k then 2 * k else 2 * k + 2 : ℕ) : ℝ) := by
    rw [roundReal, hb, zpow_one, nearest, hfr, if_neg (lt_irrefl _), if_neg (lt_irrefl _), hf]
    by_cases hk : Even k
    · rw [if_pos (by exact_mod_cast hk), if_pos hk]; push_cast; ring
    · rw [if_neg (by exact_mod_cast hk), if_neg hk]; push_cast; ring
  have hsmall : ((if Even k then 2 * k else 2 * k + 2 : ℕ) : ℝ) < 2 ^ 128 := by
    have : (if Even k then 2 * k else 2 * k + 2) ≤ 2 ^ 25 := by split_ifs <;> omega
    have : ((if Even k then 2 * k else 2 * k + 2 : ℕ) : ℝ) ≤ 2 ^ 25 := by exact_mod_cast this
    exact this.trans_lt (by norm_num)
  rw [← ENNReal.ofReal_natCast, rd32_ofReal (by positivity) (by rw [hr]; exact hsmall), hr, ENNReal.ofReal_natCast]

/-! ### Counting -/

open Classical in
/-- The number of hits. -/
def hits (l : List Prop) : ℕ := (l.map fun h => if h then 1 else 0).sum

theorem hits_ofFn (p : Fin B → Prop) [DecidablePred p] : hits (List.ofFn p) = (Finset.univ.filter p).card := by
  rw [hits, List.map_ofFn, List.sum_ofFn, Finset.card_filter]
  refine Finset.sum_congr rfl fun i _ => ?_
  simp only [Function.comp]
  split_ifs <;> rfl

open Classical in
theorem count_from (l : List Prop) (a : ℕ) (h : a + hits l ≤ 2 ^ 24) :
    l.foldl (fun acc h => add R acc (if h then 1 else 0)) (.num false a) = .num false ((a + hits l : ℕ)) := by
  induction l generalizing a with
  | nil => simp [hits]
  | cons p l ih =>
    have e : hits (p :: l) = (if p then 1 else 0) + hits l := by simp [hits]
    rw [List.foldl_cons]
    have s : add R (.num false a) (if p then 1 else 0) = .num false ((a + (if p then 1 else 0) : ℕ)) := by
      have z : (if p then (1 : Flt) else 0) = .num false ((if p then 1 else 0 : ℕ)) := by split_ifs <;> simp <;> rfl
      rw [z]
      simp only [add, addWith, if_true]
      rw [← Nat.cast_add, rd_nat (by omega)]
    rw [s, ih _ (by omega), e, add_assoc]

/-- The count is exact up to `2 ^ 24`. -/
theorem count_exact {l : List Prop} (h : hits l ≤ 2 ^ 24) : countHits R l = .num false (hits l) := by
  have := count_from (R := R) l 0 (by omega)
  rw [Nat.zero_add] at this
  rw [countHits, ← this]
  simp
  rfl

open Classical in
theorem count_full (l : List Prop) :
    l.foldl (fun acc h => add binary32 acc (if h then 1 else 0)) (.num false ((2 ^ 24 : ℕ) : ℝ≥0∞)) = .num false ((2 ^ 24 : ℕ) : ℝ≥0∞) := by
  induction l with
  | nil => rfl
  | cons p l ih =>
    rw [List.foldl_cons]
    suffices s : add binary32 (.num false ((2 ^ 24 : ℕ) : ℝ≥0∞)) (if p then 1 else 0) = .num false ((2 ^ 24 : ℕ) : ℝ≥0∞) by rw [s, ih]
    have z : (if p then (1 : Flt) else 0) = .num false ((if p then 1 else 0 : ℕ)) := by split_ifs <;> simp <;> rfl
    rw [z]
    simp only [add, addWith, if_true]
    rw [← Nat.cast_add]
    by_cases hp : p
    · rw [if_pos hp]
      have := rd32_odd (k := 2 ^ 23) le_rfl (by norm_num)
      rw [if_pos (by decide)] at this
      exact congrArg _ this
    · rw [if_neg hp, Nat.add_zero, rd_nat le_rfl]

open Classical in
/-- In binary32 the count stops at `2 ^ 24`. -/
theorem count_saturates (l : List Prop) : countHits binary32 l = .num false ((min (hits l) (2 ^ 24) : ℕ)) := by
  rcases le_total (hits l) (2 ^ 24) with h | h
  · rw [min_eq_left h, count_exact h]
  rw [min_eq_right h]
  -- split where the count is full
  have split : ∀ l : List Prop, ∀ m, m ≤ hits l → ∃ l₁ l₂, l = l₁ ++ l₂ ∧ hits l₁ = m := fun l => by
    induction l with
    | nil => intro m hm; exact ⟨[], [], rfl, by simp [hits] at hm ⊢; omega⟩
    | cons p l ih =>
      intro m hm
      have e : ∀ q : List Prop, hits (p :: q) = (if p then 1 else 0) + hits q := fun q => by simp [hits]
      rw [e] at hm
      rcases Nat.eq_zero_or_pos m with rfl | h0
      · exact ⟨[], _, rfl, rfl⟩
      by_cases hp : p
      · rw [if_pos hp] at hm
        obtain ⟨l₁, l₂, h1, h2⟩ := ih (m - 1) (by omega)
        exact ⟨p :: l₁, l₂, by rw [h1]; rfl, by rw [e, if_pos hp, h2]; omega⟩
      · rw [if_neg hp] at hm
        obtain ⟨l₁, l₂, h1, h2⟩ := ih m (by omega)
        exact ⟨p :: l₁, l₂, by rw [h1]; rfl, by rw [e, if_neg hp, h2]; omega⟩
  obtain ⟨l₁, l₂, rfl, h1⟩ := split l _ h
  have := count_exact (R := binary32) (l := l₁) h1.le
  rw [countHits] at this ⊢
  rw [List.foldl_append, this, h1, count_full]

/-! ### Accuracy -/

/-- Column numbers up to `2 ^ 24` are compared exactly. -/
theorem eq_iff {a b : ℕ} (ha : a ≤ 2 ^ 24) (hb : b ≤ 2 ^ 24) : (ofNat R a).eq (ofNat R b) ↔ a = b := by
  rw [ofNat_exact ha, ofNat_exact hb]
  simp [Flt.eq]

/-- `hits` of `B` predictions, as the nearest `float` of the fraction. -/
theorem fraction {l : List Prop} (hl : hits l ≤ B) (hB : 0 < B) (hB' : B ≤ 2 ^ 24) :
    div R (countHits R l) (ofNat R B) = .num false (R.rd ((hits l : ℝ≥0∞) / B)) := by
  rw [count_exact (hl.trans hB'), ofNat_exact hB']
  have h0 : (B : ℝ≥0∞) ≠ 0 := by exact_mod_cast hB.ne'
  simp [div, divWith, h0]

/-- **C105** for up to `2 ^ 24` rows and classes: the result is the `float` nearest to the fraction of the rows whose prediction is the
label. -/
theorem accuracy_partial {P : Fin B → Fin n → Flt} {c : Fin B → Fin n} {r : Flt} (h : Accuracy R P (fun i => ofNat R (c i)) r) (hB : 0 < B)
    (hB' : B ≤ 2 ^ 24) (hn : n ≤ 2 ^ 24 + 1) : ∃ pick : Fin B → Fin n, (∀ i, IsMax (P i) (P i (pick i))) ∧
      r = .num false (R.rd (((Finset.univ.filter fun i => pick i = c i).card : ℝ≥0∞) / B)) := by
  obtain ⟨pick, hp, rfl⟩ := h
  refine ⟨pick, hp, ?_⟩
  have e : (fun i => (ofNat R (pick i)).eq (ofNat R (c i))) = fun i => pick i = c i := by
    funext i
    rw [eq_iff (by have := (pick i).is_lt; omega) (by have := (c i).is_lt; omega), Fin.val_inj]
  rw [e, fraction (by rw [hits_ofFn]; exact (Finset.card_le_univ _).trans (by simp)) hB hB', hits_ofFn]

/-- **C105** for one-hot labels. -/
theorem accuracyOneHot_partial {P T : Fin B → Fin n → Flt} {r : Flt} (h : AccuracyOneHot R P T r) (hB : 0 < B) (hB' : B ≤ 2 ^ 24) :
    ∃ pick pick' : Fin B → Fin n, (∀ i, IsMax (P i) (P i (pick i))) ∧ (∀ i, IsMax (T i) (T i (pick' i))) ∧
      r = .num false (R.rd (((Finset.univ.filter fun i => pick i = pick' i).card : ℝ≥0∞) / B)) := by
  obtain ⟨pick, pick', hp, hp', rfl⟩ := h
  exact ⟨pick, pick', hp, hp', by
    rw [fraction (by rw [hits_ofFn]; exact (Finset.card_le_univ _).trans (by simp)) hB hB', hits_ofFn]⟩

/-- What the nearest `float` of a fraction says: it is within `2 ^ -24` of it, it is 1 only if all are right and 0 only if none is. -/
theorem fraction_reads {k : ℕ} (hk : k ≤ B) (hB : 0 < B) (hB' : B ≤ 2 ^ 24) :
    R.rd ((k : ℝ≥0∞) / B) ≤ 1 ∧ |(R.rd ((k : ℝ≥0∞) / B)).toReal - (k : ℝ) / B| ≤ 1.1 * u ∧
      (R.rd ((k : ℝ≥0∞) / B) = 1 ↔ k = B) ∧ (R.rd ((k : ℝ≥0∞) / B) = 0 ↔ k = 0) := by
  have hu := u_pos
  have hη : η ≤ u * u / 10 := by unfold η u; norm_num
  have hη0 := η_pos
  have hBr : (0 : ℝ) < B := by exact_mod_cast hB
  have hBu : B * u ≤ 1 := by
    have : (B : ℝ) ≤ 2 ^ 24 := by exact_mod_cast hB'
    unfold u
    linarith
  have hB0 : (B : ℝ≥0∞) ≠ 0 := by exact_mod_cast hB.ne'
  have hx : (k : ℝ≥0∞) / B ≤ 1 := ENNReal.div_le_of_le_mul (by rw [one_mul]; exact_mod_cast hk)
  have hxt : (k : ℝ≥0∞) / B ≠ ⊤ := ne_top_of_le_ne_top ENNReal.one_ne_top hx
  have hxr : ((k : ℝ≥0∞) / B).toReal = (k : ℝ) / B := by simp
  have hx1 : (k : ℝ) / B ≤ 1 := by rw [div_le_one hBr]; exact_mod_cast hk
  have hx0 : 0 ≤ (k : ℝ) / B := by positivity
  have r1 : R.rd 1 = 1 := by simpa using rd_nat (R := R) (k := 1) (by norm_num)
  have r0 : R.rd 0 = 0 := by simpa using rd_nat (R := R) (k := 0) (by norm_num)
  have hle : R.rd ((k : ℝ≥0∞) / B) ≤ 1 := r1 ▸ R.mono hx
  obtain ⟨ht, he⟩ := rd_error (R := R) hxt (by rw [hxr]; unfold big; linarith [show (1 : ℝ) ≤ 16777215 * 2 ^ 104 by norm_num])
  rw [hxr] at he
  have hxu : u * ((k : ℝ) / B) ≤ u := by nlinarith
  have hus := FloatGradP.u_small
  have huu : u * u ≤ u * (1 / 10 ^ 7) := mul_le_mul_of_nonneg_left hus hu.le
  refine ⟨hle, by linarith, ⟨fun h1 => ?_, fun h1 => ?_⟩, fun h1 => ?_, fun h1 => ?_⟩
  · by_contra hne
    have hlt : (k : ℝ) + 1 ≤ B := by exact_mod_cast Nat.lt_of_le_of_ne hk hne
    have : (k : ℝ) / B ≤ 1 - u := by
      rw [div_le_iff₀ hBr]
      linarith
    have e1 := (abs_le.1 he).2
    rw [h1] at e1
    have e2 : u * ((k : ℝ) / B) ≤ u * (1 - u) := mul_le_mul_of_nonneg_left this hu.le
    have e3 : 0 < u * u := by positivity
    simp at e1
    linarith
  · rw [h1, ENNReal.div_self hB0 (ENNReal.natCast_ne_top B), r1]
  · by_contra hne
    have hlt : (1 : ℝ) ≤ k := by exact_mod_cast Nat.one_le_iff_ne_zero.2 hne
    have : u ≤ (k : ℝ) / B := by
      rw [le_div_iff₀ hBr]
      linarith
    have e1 := (abs_le.1 he).1
    rw [h1] at e1
    simp at e1
    have e3 : 0 < u * u := by positivity
    nlinarith
  · rw [h1]
    simp [r0]

/-- **C105** in full: for any number of rows and classes. -/
def AccuracyExact (R : Rounding) : Prop := ∀ (B n : Nat) (P : Fin B → Fin n → Flt) (c : Fin B → Fin n) (r : Flt), 0 < B →
  Accuracy R P (fun i => ofNat R (c i)) r → ∃ pick : Fin B → Fin n, (∀ i, IsMax (P i) (P i (pick i))) ∧
    r = .num false (R.rd (((Finset.univ.filter fun i => pick i = c i).card : ℝ≥0∞) / B))

/-- A column of the largest element, and no other one. -/
theorem isMax_one {P : Fin n → Flt} {k : Fin n} (h : P k = 1) (h' : ∀ j, j ≠ k → P j = 0) :
    IsMax P (P k) ∧ ∀ j, IsMax P (P j) → j = k := by
  have l01 : (0 : Flt).lt 1 := show (0 : ℝ≥0∞) < 1 from one_pos
  have l00 : ¬(0 : Flt).lt 0 := show ¬(0 : ℝ≥0∞) < 0 from lt_irrefl _
  have l10 : ¬(1 : Flt).lt 0 := show ¬(1 : ℝ≥0∞) < 0 from not_lt.2 zero_le_one
  have l11 : ¬(1 : Flt).lt 1 := show ¬(1 : ℝ≥0∞) < 1 from lt_irrefl _
  refine ⟨⟨⟨k, rfl⟩, fun j => ?_⟩, fun j hj => ?_⟩
  · rw [h]
    by_cases hk : j = k
    · rw [hk, h]; exact l11
    · rw [h' j hk]; exact l10
  · by_contra hk
    have := hj.2 k
    rw [h' j hk, h] at this
    exact this l01

/-- With `2 ^ 24 + 2` rows all of which are predicted correctly, the accuracy is less than 1. -/
theorem accuracy_below_one : ∃ r : Flt, Accuracy binary32 (fun (_ : Fin (2 ^ 24 + 2)) (_ : Fin 1) => 1) (fun i => ofNat binary32 (0 : Fin 1)) r ∧
    (∀ r', Accuracy binary32 (fun (_ : Fin (2 ^ 24 + 2)) (_ : Fin 1) => 1) (fun i => ofNat binary32 (0 : Fin 1)) r' → r' = r) ∧
    ∃ y : ℝ≥0∞, r = .num false y ∧ y < 1 := by
  have all : ∀ pick : Fin (2 ^ 24 + 2) → Fin 1, hits (List.ofFn fun i => (ofNat binary32 (pick i)).eq (ofNat binary32 (0 : Fin 1))) = 2 ^ 24 + 2 := by
    intro pick
    classical
    rw [hits_ofFn, Finset.filter_true_of_mem fun i _ => by rw [Subsingleton.elim (pick i) 0, eq_iff (by simp) (by simp)], Finset.card_univ, Fintype.card_fin]
  have val : ∀ pick : Fin (2 ^ 24 + 2) → Fin 1,
      countHits binary32 (List.ofFn fun i => (ofNat binary32 (pick i)).eq (ofNat binary32 (0 : Fin 1))) = .num false ((2 ^ 24 : ℕ) : ℝ≥0∞) := by
    intro pick
    rw [count_saturates, all, min_eq_right (by omega)]
  have e : binary32.rd ((2 ^ 24 + 2 : ℕ) : ℝ≥0∞) = ((2 ^ 24 + 2 : ℕ) : ℝ≥0∞) := by
    have := binary32.exact (2 ^ 23 + 1) 1 (by norm_num) (by norm_num)
    have q : ((2 ^ 23 + 1 : ℕ) : ℝ≥0∞) * 2 ^ 1 = ((2 ^ 24 + 2 : ℕ) : ℝ≥0∞) := by norm_num
    rwa [q] at this
  have h1 := fun pick => congrArg (fun a => div binary32 a (ofNat binary32 (2 ^ 24 + 2))) (val pick)
  refine ⟨div binary32 (.num false ((2 ^ 24 : ℕ) : ℝ≥0∞)) (ofNat binary32 (2 ^ 24 + 2)), ⟨fun _ => 0, fun i => ⟨⟨0, rfl⟩, fun _ => lt_irrefl (1 : ℝ≥0∞)⟩, ?_⟩, ?_, ?_⟩
  · exact (h1 _).symm
  · intro r' hr'
    obtain ⟨pick, -, h⟩ := hr'
    exact h.trans (h1 pick)
  · refine ⟨binary32.rd (((2 ^ 24 : ℕ) : ℝ≥0∞) / ((2 ^ 24 + 2 : ℕ) : ℝ≥0∞)), ?_, ?_⟩
    · rw [ofNat, e]
      have a : ((2 ^ 24 + 2 : ℕ) : ℝ≥0∞) ≠ 0 := by positivity
      have b : ((2 ^ 24 + 2 : ℕ) : ℝ≥0∞) ≠ ⊤ := ENNReal.natCast_ne_top _
      have c : ((2 ^ 24 : ℕ) : ℝ≥0∞) ≠ ⊤ := ENNReal.natCast_ne_top _
      simp only [div, divWith, a, b, and_false, or_false, if_false]
      rfl
    · set x : ℝ≥0∞ := ((2 ^ 24 : ℕ) : ℝ≥0∞) / ((2 ^ 24 + 2 : ℕ) : ℝ≥0∞)
      have hxr : x.toReal = 2 ^ 24 / (2 ^ 24 + 2) := by simp only [x, ENNReal.toReal_div, ENNReal.toReal_natCast]; norm_num
      have hx : x ≤ 1 := ENNReal.div_le_of_le_mul (by rw [one_mul]; exact_mod_cast (by omega))
      obtain ⟨ht, he⟩ := rd_error (R := binary32) (m := x) (ne_top_of_le_ne_top ENNReal.one_ne_top hx) (by rw [hxr]; unfold big; norm_num)
      rw [hxr] at he
      rw [← ENNReal.ofReal_toReal ht, ← ENNReal.ofReal_one, ENNReal.ofReal_lt_ofReal_iff one_pos]
      have := (abs_le.1 he).2
      refine lt_of_le_of_lt (b := 2 ^ 24 / (2 ^ 24 + 2) + (u * (2 ^ 24 / (2 ^ 24 + 2)) + η)) (by linarith) ?_
      unfold u η
      norm_num

/-- **C105** is false in full. -/
theorem accuracy_exact_refuted : ¬ AccuracyExact binary32 := fun h => by
  obtain ⟨r, hr, -, y, rfl, hy⟩ := accuracy_below_one
  obtain ⟨pick, -, e⟩ := h _ _ _ _ _ (by norm_num) hr
  rw [Flt.num.injEq] at e
  have e2 := e.2
  rw [Finset.filter_true_of_mem fun i _ => Subsingleton.elim _ _, Finset.card_univ, Fintype.card_fin] at e2
  rw [ENNReal.div_self (by positivity) (ENNReal.natCast_ne_top _), show binary32.rd 1 = 1 from rd32_one] at e2
  exact hy.ne e2

/-- With `2 ^ 24 + 2` classes the last one is taken for the one before it: a wrong prediction counts as right. -/
theorem wrong_counts_as_right : ∃ (P : Fin 1 → Fin (2 ^ 24 + 2) → Flt) (c : Fin 1 → Fin (2 ^ 24 + 2)),
    (∀ i j, IsMax (P i) (P i j) → j ≠ c i) ∧ Accuracy binary32 P (fun i => ofNat binary32 (c i)) 1 := by
  let k : Fin (2 ^ 24 + 2) := ⟨2 ^ 24 + 1, by omega⟩
  let P : Fin 1 → Fin (2 ^ 24 + 2) → Flt := fun _ j => if j = k then 1 else 0
  have hm : ∀ i, IsMax (P i) (P i k) ∧ ∀ j, IsMax (P i) (P i j) → j = k := fun i =>
    isMax_one (by simp [P]) (fun j hj => by simp [P, hj])
  refine ⟨P, fun _ => ⟨2 ^ 24, by omega⟩, fun i j hj he => ?_, fun _ => k, fun i => (hm i).1, ?_⟩
  · have := (hm i).2 j hj
    rw [this] at he
    exact absurd (congrArg Fin.val he) (by simp [k])
  · have e : rd32 ((2 ^ 24 + 1 : ℕ) : ℝ≥0∞) = ((2 ^ 24 : ℕ) : ℝ≥0∞) := by
      have := rd32_odd (k := 2 ^ 23) le_rfl (by norm_num)
      rw [if_pos (by decide)] at this
      exact this
    have hit : (ofNat binary32 k).eq (ofNat binary32 (2 ^ 24)) := by
      have a : ofNat binary32 k = .num false ((2 ^ 24 : ℕ) : ℝ≥0∞) := congrArg _ e
      rw [a, ofNat_exact le_rfl]
      exact ⟨rfl, .inl rfl⟩
    have hl : hits (List.ofFn fun _ : Fin 1 => (ofNat binary32 k).eq (ofNat binary32 (2 ^ 24))) = 1 := by
      simp only [hits, List.ofFn_succ, List.ofFn_zero, List.map_cons, List.map_nil, if_pos hit, List.sum_cons, List.sum_nil, Nat.add_zero]
    have := fraction (R := binary32) (B := 1) hl.le one_pos (by norm_num)
    refine Eq.trans ?_ this.symm
    rw [hl]
    simp only [Nat.cast_one, div_one]
    rw [show binary32.rd 1 = 1 from rd32_one]
    rfl

/-- Three rows, two of them right. -/
example : ∃ r : Flt, Accuracy binary32 (fun (i : Fin 3) (j : Fin 2) => if j = (if i = 0 then 0 else 1) then (1 : Flt) else 0)
    (fun _ => ofNat binary32 (1 : Fin 2)) r ∧ |r.val - 2 / 3| ≤ 1.1 * u := by
  let k : Fin 3 → Fin 2 := fun i => if i = 0 then 0 else 1
  let P : Fin 3 → Fin 2 → Flt := fun i j => if j = k i then (1 : Flt) else 0
  have hm : ∀ i, IsMax (P i) (P i (k i)) ∧ ∀ j, IsMax (P i) (P i j) → j = k i := fun i =>
    isMax_one (by simp [P]) (fun j hj => by simp [P, hj])
  have hacc : Accuracy binary32 P (fun _ => ofNat binary32 (1 : Fin 2)) _ := ⟨k, fun i => (hm i).1, rfl⟩
  obtain ⟨pick, hp, e⟩ := accuracy_partial (c := fun _ => 1) hacc (by norm_num) (by norm_num) (by norm_num)
  refine ⟨_, hacc, ?_⟩
  obtain rfl : pick = k := funext fun i => (hm i).2 _ (hp i)
  have hc : (Finset.univ.filter fun i => k i = 1).card = 2 := by decide +kernel
  rw [e]
  have := (fraction_reads (R := binary32) (k := 2) (B := 3) (by norm_num) (by norm_num) (by norm_num)).2.1
  rw [hc]
  simpa [Flt.val] using this

/-! ### Positions in max pooling -/

section pool

open DW.Spec DW.FlatL DW.Props.MaxPoolP

variable {N C : Nat} {a b : Axis}

/-- Positions in windows with up to `2 ^ 24 + 1` elements are stored exactly. -/
theorem stored_eq {st : PoolSt} {win : Fin N → Fin C → Fin a.out → Fin b.out → Fin a.kernel × Fin b.kernel} (h : Remembers st win)
    (hk : a.kernel * b.kernel ≤ 2 ^ 24 + 1) : stored R st = st := by
  have e : st.maxIndices.vals.map (fun x => (R.rd (ENNReal.ofReal x)).toReal) = st.maxIndices.vals := by
    rw [h.indices]
    simp only [flat4, rowMajor, List.map_ofFn]
    congr 1
    funext p
    have hlt : ∀ w : Fin a.kernel × Fin b.kernel, w.1.val * b.kernel + w.2.val ≤ 2 ^ 24 := fun w => by
      have := (pair w.1 w.2).isLt
      rw [pair_val] at this
      omega
    simp only [Function.comp]
    rw [ENNReal.ofReal_natCast, rd_nat (hlt _), ENNReal.toReal_natCast]
  rw [stored, e]
  rfl

/-- **C106**, in full: when the remembered positions are `float`s, the pass backward does exactly what it does with exact positions
(`maxPooling_backward`). -/
def PoolExact (R : Rounding) : Prop :=
  ∀ (N C : Nat) (a b : Axis) (pick : List ℝ → Nat) (junk : Nat → ℝ) (st st' : PoolSt)
    (X : Fin N → Fin C → Fin a.size → Fin b.size → ℝ) (old out : List ℝ) (G : Fin N → Fin C → Fin a.out → Fin b.out → ℝ)
    (A : Fin N → Fin C → Fin a.size → Fin b.size → ℝ),
    IsPick pick → PoolAxis a → PoolAxis b → Ready N C a b st → old.length = N * (C * (a.out * b.out)) →
    CountFits [(N : Int), C, a.out, b.out] → a.kernel * b.kernel * (a.out * b.out) ≤ 2147483647 →
    st.forward pick junk [⟨[N, C, a.size, b.size], flat4 X⟩] [⟨[N, C, a.out, b.out], old⟩] = .ok (st', out) →
    ∃ (win : Fin N → Fin C → Fin a.out → Fin b.out → Fin a.kernel × Fin b.kernel) (st'' : PoolSt), Chosen pick a b X win ∧
      (stored R st').backward ⟨[N, C, a.out, b.out], flat4 G⟩ ⟨[N, C, a.size, b.size], flat4 A⟩ =
        .ok (st'', flat4 fun n c y x => A n c y x + ∑ r : Fin a.out, ∑ q : Fin b.out,
          if a.pos r (win n c r q).1 = y.val ∧ b.pos q (win n c r q).2 = x.val then G n c r q else 0)

/-- **C106**, as far as it holds: for windows with at most `2 ^ 24 + 1` elements, for every rounding to 24 bits. -/
theorem pool_exact_partial {pick : List ℝ → Nat} (hp : IsPick pick) (junk : Nat → ℝ) (ha : PoolAxis a) (hb : PoolAxis b)
    {st st' : PoolSt} (hst : Ready N C a b st) (X : Fin N → Fin C → Fin a.size → Fin b.size → ℝ) {old out : List ℝ}
    (ho : old.length = N * (C * (a.out * b.out))) (hf : CountFits [(N : Int), C, a.out, b.out])
    (hf' : a.kernel * b.kernel * (a.out * b.out) ≤ 2147483647) (hk : a.kernel * b.kernel ≤ 2 ^ 24 + 1)
    (h : st.forward pick junk [⟨[N, C, a.size, b.size], flat4 X⟩] [⟨[N, C, a.out, b.out], old⟩] = .ok (st', out))
    (G : Fin N → Fin C → Fin a.out → Fin b.out → ℝ) (A : Fin N → Fin C → Fin a.size → Fin b.size → ℝ) :
    ∃ (win : Fin N → Fin C → Fin a.out → Fin b.out → Fin a.kernel × Fin b.kernel) (st'' : PoolSt), Chosen pick a b X win ∧
      (stored R st').backward ⟨[N, C, a.out, b.out], flat4 G⟩ ⟨[N, C, a.size, b.size], flat4 A⟩ =
        .ok (st'', flat4 fun n c y x => A n c y x + ∑ r : Fin a.out, ∑ q : Fin b.out,
          if a.pos r (win n c r q).1 = y.val ∧ b.pos q (win n c r q).2 = x.val then G n c r q else 0) := by
  obtain ⟨win, st₁, hrem, -, hch, h₁⟩ := maxPooling_forward hp junk ha hb hst X old ho hf hf'
  rw [h] at h₁
  obtain ⟨rfl, -⟩ : st' = st₁ ∧ _ := by simpa using h₁
  obtain ⟨st'', -, h₂⟩ := maxPooling_backward ha hb hrem G A
  exact ⟨win, st'', hch, by rw [stored_eq hrem hk]; exact h₂⟩

/-- A remembered position beyond the end of the window. -/
theorem backward_oob {st : PoolSt} {y : ℝ} (hs : st.maxIndices = ⟨[1, 1, 1, 1], [y]⟩) (hy : (st.im2col.vals.length : ℝ) ≤ y) (h w : Int)
    (v : ℝ) (gi : List ℝ) : st.backward ⟨[1, 1, 1, 1], [v]⟩ ⟨[1, 1, h, w], gi⟩ = .ub .oob := by
  have h0 : (0 : ℝ) ≤ y := (Nat.cast_nonneg _).trans hy
  have hfl : (st.im2col.vals.length : ℤ) ≤ ⌊y⌋ := Int.le_floor.2 (by exact_mod_cast hy)
  have hp : placeGrads 1 [v] [y] 0 (List.replicate st.im2col.vals.length 0) = .ub .oob := by
    rw [placeGrads, toRow, if_pos h0, if_neg]
    rw [List.length_replicate]
    rintro ⟨-, h2⟩
    omega
  unfold PoolSt.backward poolInputGrad
  rw [hs]
  simp [dimN, dim, Out.idx, Out.check, List.range_succ, poolGradIter, block, hp]

theorem window_at {h w : Nat} (X : Fin h → Fin w → ℝ) (f : ℝ) (i : Fin h) (j : Fin w) (r q : Fin 1) :
    window ⟨h, h, 0, 1, 1, 1⟩ ⟨w, w, 0, 1, 1, 1⟩ X f i j r q = X i j := by
  refine window_inside (a := ⟨h, h, 0, 1, 1, 1⟩) (b := ⟨w, w, 0, 1, 1, 1⟩) (y := i) (x := j) ?_ ?_ <;>
  · have := r.is_lt
    have := q.is_lt
    simp only [Axis.pos]
    push_cast
    omega

theorem flat4_one {α : Type} (X : Fin 1 → Fin 1 → Fin 1 → Fin 1 → α) : flat4 X = [X 0 0 0 0] := rfl

/-- One window that covers an image, whose largest pixel is the last one: if the number of the last position is rounded up, the gradient is
written behind the end of the buffer. -/
theorem pool_oob {h w : Nat} (hh : 0 < h) (hw : 0 < w) (hf : h * w ≤ 2147483647)
    (hr : (h * w : ℕ) ≤ R.rd ((h * w - 1 : ℕ) : ℝ≥0∞)) (hfin : R.rd ((h * w - 1 : ℕ) : ℝ≥0∞) ≠ ⊤)
    {pick : List ℝ → Nat} (hp : IsPick pick) (junk : Nat → ℝ) (G : ℝ) (A : Fin 1 → Fin 1 → Fin h → Fin w → ℝ) :
    ∃ (st st' : PoolSt) (X : Fin 1 → Fin 1 → Fin h → Fin w → ℝ) (out : List ℝ),
      Ready 1 1 ⟨h, h, 0, 1, 1, 1⟩ ⟨w, w, 0, 1, 1, 1⟩ st ∧
      st.forward pick junk [⟨[1, 1, h, w], flat4 X⟩] [⟨[1, 1, 1, 1], [0]⟩] = .ok (st', out) ∧
      (stored R st').backward ⟨[1, 1, 1, 1], [G]⟩ ⟨[1, 1, h, w], flat4 A⟩ = .ub .oob := by
  let a : Axis := ⟨h, h, 0, 1, 1, 1⟩
  let b : Axis := ⟨w, w, 0, 1, 1, 1⟩
  have ha : PoolAxis a := ⟨⟨Nat.one_pos, by simp [a]⟩, rfl, hh⟩
  have hb : PoolAxis b := ⟨⟨Nat.one_pos, by simp [b]⟩, rfl, hw⟩
  let X : Fin 1 → Fin 1 → Fin h → Fin w → ℝ := fun _ _ i j => if i.val = h - 1 ∧ j.val = w - 1 then 1 else 0
  let st : PoolSt := { geo := Im2colL.geo a b }
  have hst : Ready 1 1 a b st := ⟨rfl, fun hc => by simp [st] at hc⟩
  obtain ⟨win, st', hrem, hmax, -, hfw⟩ := maxPooling_forward hp junk ha hb hst X [0] (by simp [a, b])
    (by intro k; match k with
        | 0 | 1 | 2 | 3 => simp [a, b]
        | n + 4 => simp [a, b]) (by simpa [a, b] using hf)
  refine ⟨st, st', X, _, hst, hfw, ?_⟩
  have hlast : ((win 0 0 0 0).1.val = h - 1 ∧ (win 0 0 0 0).2.val = w - 1) := by
    by_contra hne
    have := hmax 0 0 0 0 ⟨h - 1, by simp [a]; omega⟩ ⟨w - 1, by simp [b]; omega⟩
    erw [window_at, window_at] at this
    simp only [X] at this
    rw [if_pos (by simp), if_neg hne] at this
    linarith
  have hidx : (win 0 0 0 0).1.val * w + (win 0 0 0 0).2.val = h * w - 1 := by
    rw [hlast.1, hlast.2]
    obtain ⟨h, rfl⟩ := Nat.exists_eq_add_of_lt hh
    obtain ⟨w, rfl⟩ := Nat.exists_eq_add_of_lt hw
    simp
    ring_nf
    omega
  have hs : (stored R st').maxIndices = ⟨[1, 1, 1, 1], [(R.rd ((h * w - 1 : ℕ) : ℝ≥0∞)).toReal]⟩ := by
    rw [stored, hrem.indices, ← hidx]
    show Buf.mk [1, 1, 1, 1] (List.map _ (flat4 (a := 1) (b := 1) (c := 1) (d := 1) fun n c r q =>
      (((win n c r q).1.val * w + (win n c r q).2.val : Nat) : ℝ))) = _
    rw [flat4_one, List.map_singleton, ENNReal.ofReal_natCast]
  refine backward_oob hs ?_ _ _ _ _
  have hl : (stored R st').im2col.vals.length = h * w := by
    show st'.im2col.vals.length = _
    rw [hrem.scratch]
    simp [a, b]
  rw [hl, ← ENNReal.toReal_natCast]
  exact ENNReal.toReal_mono hfin hr

/-- In IEEE single precision the position of the last element of a window of 4096 × 4097 elements is rounded up to the number of elements. -/
theorem pool_exact_refuted : ¬ PoolExact binary32 := fun hex => by
  obtain ⟨pick, hp⟩ := exists_pick
  have hr : rd32 ((4096 * 4097 - 1 : ℕ) : ℝ≥0∞) = ((4096 * 4097 : ℕ) : ℝ≥0∞) := by
    have := rd32_odd (k := 8390655) (by norm_num) (by norm_num)
    rw [if_neg (by decide)] at this
    exact this
  obtain ⟨st, st', X, out, hst, hfw, hbw⟩ := pool_oob (R := binary32) (h := 4096) (w := 4097) (by norm_num) (by norm_num) (by norm_num)
    (by show _ ≤ rd32 _; rw [hr]) (by show rd32 _ ≠ _; rw [hr]; exact ENNReal.natCast_ne_top _) hp (fun _ => 0) 1 (fun _ _ _ _ => 0)
  obtain ⟨win, st'', -, hb⟩ := hex 1 1 ⟨4096, 4096, 0, 1, 1, 1⟩ ⟨4097, 4097, 0, 1, 1, 1⟩ pick (fun _ => 0) st st' X [0] out (fun _ _ _ _ => 1)
    (fun _ _ _ _ => 0) hp ⟨⟨by norm_num, by norm_num⟩, rfl, by norm_num⟩ ⟨⟨by norm_num, by norm_num⟩, rfl, by norm_num⟩ hst (by simp)
    (by intro k; match k with
        | 0 | 1 | 2 | 3 => simp
        | n + 4 => simp) (by norm_num) hfw
  have e := hb.symm.trans hbw
  cases e

/-- The hypotheses of `pool_exact_partial` hold for windows of 2 × 2 pixels on an image of 4 × 4. -/
example (pick : List ℝ → Nat) (hp : IsPick pick) (X : Fin 1 → Fin 1 → Fin 4 → Fin 4 → ℝ) :
    ∃ (st st' : PoolSt) (out : List ℝ), Ready 1 1 axisEx axisEx st ∧ axisEx.kernel * axisEx.kernel ≤ 2 ^ 24 + 1 ∧
      st.forward pick (fun _ => 0) [⟨[1, 1, 4, 4], flat4 X⟩] [⟨[1, 1, 2, 2], [0, 0, 0, 0]⟩] = .ok (st', out) := by
  have ha : PoolAxis axisEx := ⟨⟨by decide, by decide⟩, rfl, by decide⟩
  have hst : Ready 1 1 axisEx axisEx { geo := Im2colL.geo axisEx axisEx } := ⟨rfl, fun hc => by simp at hc⟩
  obtain ⟨win, st', -, -, -, h⟩ := maxPooling_forward hp (fun _ => 0) ha ha hst X [0, 0, 0, 0] (by decide)
    (by intro k; match k with
        | 0 | 1 | 2 | 3 => simp [axisEx]
        | n + 4 => simp [axisEx]) (by decide)
  exact ⟨_, st', _, hst, by decide, h⟩

end pool

end

end DW.Props.FloatCountP
