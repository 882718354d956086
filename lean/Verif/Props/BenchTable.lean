import Verif.Props.Bench
/-!
# The table of the benchmarks (C129, C130)
-/

set_option autoImplicit false

namespace DW.Props.BenchP

open DW.Bench DW.Float
open scoped ENNReal

noncomputable section

/-! ## Numbers with digits after the point -/

theorem digits_value {p n : ℕ} (h : n < 10 ^ p) : Nat.ofDigits 10 ((digits p n).reverse.map value) = n := by
  have key : ∀ p, Nat.ofDigits 10 ((List.range p).map fun k => n / 10 ^ k % 10) = n % 10 ^ p := by
    intro p
    induction p with
    | zero => simp [Nat.mod_one]
    | succ p ih =>
      rw [List.range_succ, List.map_append, Nat.ofDigits_append, ih, List.length_map, List.length_range, Nat.mod_pow_succ]
      simp
  unfold digits
  rw [← List.map_reverse, List.reverse_reverse, List.map_map]
  have : (List.range p).map (value ∘ fun k => Char.ofNat (48 + n / 10 ^ k % 10)) = (List.range p).map fun k => n / 10 ^ k % 10 := by
    refine List.map_congr_left fun k _ => ?_
    show (Char.ofNat _).toNat - 48 = _
    rw [digit_toNat (Nat.mod_lt _ (by norm_num))]
    omega
  rw [this, key, Nat.mod_eq_of_lt h]

theorem nearest_error {x : ℝ} (hx : 0 ≤ x) : |(nearest x : ℝ) - x| ≤ 1 / 2 := by
  have h1 := Nat.floor_le hx
  have h2 := Nat.lt_floor_add_one x
  unfold nearest
  rw [abs_le]
  split_ifs with h
  · rcases h with h | ⟨h, -⟩ <;> constructor <;> linarith
  · have : 1 / 2 ≤ x - ⌊x⌋₊ := not_lt.1 fun hc => h (Or.inl hc)
    push_cast
    constructor <;> linarith

/-- **C130, digits.** What is written for a number: the digits of a whole number `a`, a point and `p` digits of a whole number `b`, where
`a + b / 10 ^ p` is the number up to half a unit of the last digit. -/
theorem fixed_near {p : ℕ} {x : ℝ} (hx : 0 ≤ x) : ∃ (a b : ℕ) (s t : Text), fixed p x = s ++ ['.'] ++ t ∧ t.length = p ∧
    Nat.ofDigits 10 (s.reverse.map value) = a ∧ Nat.ofDigits 10 (t.reverse.map value) = b ∧ b < 10 ^ p ∧
    |(a + b / 10 ^ p : ℝ) - x| ≤ 1 / (2 * 10 ^ p) := by
  have hp : (0 : ℝ) < 10 ^ p := by positivity
  obtain ⟨k, hk⟩ : ∃ k, k = nearest (|x| * 10 ^ p) := ⟨_, rfl⟩
  have e := nearest_error (x := |x| * 10 ^ p) (by positivity)
  rw [← hk, abs_of_nonneg hx] at e
  have hb : k % 10 ^ p < 10 ^ p := Nat.mod_lt _ (by positivity)
  refine ⟨k / 10 ^ p, k % 10 ^ p, decNat (k / 10 ^ p), digits p (k % 10 ^ p), ?_, by simp [digits], decNat_value _, digits_value hb, hb, ?_⟩
  · unfold fixed
    rw [← hk, if_neg (not_lt.2 hx)]
    rfl
  · have d : ((k / 10 ^ p : ℕ) : ℝ) + ((k % 10 ^ p : ℕ) : ℝ) / 10 ^ p = k / 10 ^ p := by
      have : ((10 ^ p * (k / 10 ^ p) + k % 10 ^ p : ℕ) : ℝ) = k := by rw [Nat.div_add_mod]
      push_cast at this
      rw [eq_div_iff hp.ne', add_mul, div_mul_cancel₀ _ hp.ne']
      linarith
    rw [d, show (k : ℝ) / 10 ^ p - x = (k - x * 10 ^ p) / 10 ^ p by field_simp, abs_div, abs_of_pos hp, div_le_div_iff₀ hp (by positivity)]
    have := mul_le_mul_of_nonneg_right e hp.le
    linarith

theorem decNat_length {k n : ℕ} (hk : 0 < k) (h : n < 10 ^ k) : (decNat n).length ≤ k := by
  unfold decNat
  split_ifs with h0
  · exact hk
  · rw [List.length_map, List.length_reverse]
    exact (Nat.digits_length_le_iff (by norm_num) n).2 h

theorem fixed_length {p k : ℕ} {x : ℝ} (hk : 0 < k) (h : |x| ≤ 10 ^ k - 1) : (fixed p x).length ≤ (if x < 0 then 1 else 0) + k + 1 + p := by
  have hp : (0 : ℝ) < 10 ^ p := by positivity
  have hp1 : (1 : ℝ) ≤ 10 ^ p := one_le_pow₀ (by norm_num)
  have e := (abs_le.1 (nearest_error (x := |x| * 10 ^ p) (by positivity))).2
  have h1 : nearest (|x| * 10 ^ p) / 10 ^ p < 10 ^ k := by
    rw [Nat.div_lt_iff_lt_mul (by positivity)]
    have := mul_le_mul_of_nonneg_right h hp.le
    have : (nearest (|x| * 10 ^ p) : ℝ) < 10 ^ k * 10 ^ p := by linarith
    exact_mod_cast this
  have h2 := decNat_length hk h1
  unfold fixed
  simp only [List.length_append, List.length_singleton, digits, List.length_map, List.length_reverse, List.length_range]
  split_ifs <;> simp <;> omega

theorem fixed_long {p k : ℕ} {x : ℝ} (h : 10 ^ k ≤ x) : k + 2 + p ≤ (fixed p x).length := by
  have hp : (0 : ℝ) < 10 ^ p := by positivity
  have hk : (0 : ℝ) < 10 ^ k := by positivity
  have h1 : 10 ^ k ≤ nearest (|x| * 10 ^ p) / 10 ^ p := by
    rw [Nat.le_div_iff_mul_le (by positivity)]
    have a := mul_le_mul_of_nonneg_right h hp.le
    have b : ((10 ^ k * 10 ^ p : ℕ) : ℝ) ≤ |x| * 10 ^ p := by
      rw [abs_of_pos (hk.trans_le h)]
      push_cast
      exact a
    have c : 10 ^ k * 10 ^ p ≤ ⌊|x| * 10 ^ p⌋₊ := Nat.le_floor b
    refine c.trans ?_
    unfold nearest
    split_ifs <;> omega
  have h2 : k + 1 ≤ (decNat (nearest (|x| * 10 ^ p) / 10 ^ p)).length := by
    unfold decNat
    split_ifs with h0
    · rw [h0] at h1
      have : 0 < 10 ^ k := by positivity
      omega
    · rw [List.length_map, List.length_reverse]
      exact (Nat.lt_digits_length_iff (by norm_num) _).2 h1
  unfold fixed
  simp only [List.length_append, List.length_singleton, digits, List.length_map, List.length_reverse, List.length_range]
  omega

theorem number_length {p k : ℕ} {s : Bool} {x : ℝ≥0∞} (hk : 0 < k) (hx : x ≠ ⊤) (h : x.toReal ≤ 10 ^ k - 1) :
    (number p (.num s x)).length ≤ 1 + k + 1 + p := by
  have h0 : 0 ≤ x.toReal := ENNReal.toReal_nonneg
  unfold number
  dsimp only
  rw [if_neg hx]
  split_ifs
  · have := fixed_length (p := p) (x := 0) hk (by rw [abs_zero]; linarith)
    rw [if_neg (lt_irrefl _)] at this
    simp
    omega
  · have := fixed_length (p := p) (x := -x.toReal) hk (by rw [abs_neg, abs_of_nonneg h0]; exact h)
    split_ifs at this <;> omega
  · have := fixed_length (p := p) (x := x.toReal) hk (by rw [abs_of_nonneg h0]; exact h)
    split_ifs at this <;> omega

/-! ## Percentages -/

/-- The ratio of two numbers, less 1, in percent. -/
theorem number_percent {r : ℝ} (hr : 1 ≤ r) : number 2 (percent (.num false (ENNReal.ofReal r))) = fixed 2 (100 * (r - 1)) := by
  have h0 : 0 ≤ 100 * (r - 1) := by linarith
  have e : (r - (⌊r⌋ : ℝ) + ((⌊r⌋ : ℝ) - 1)) * 100 = 100 * (r - 1) := by ring
  have hr0 : (0 : ℝ) ≤ r := by linarith
  unfold percent
  simp only [ENNReal.ofReal_ne_top, if_false, Bool.false_eq_true, ENNReal.toReal_ofReal hr0, if_pos hr0, e]
  rw [decide_eq_false (not_lt.2 h0), abs_of_nonneg h0]
  unfold number
  dsimp only
  rw [if_neg ENNReal.ofReal_ne_top, if_neg (fun h => absurd h.2 (by simp)), if_neg (by simp), ENNReal.toReal_ofReal h0]

open Classical in
/-- **C130.** Deepworks has `x` and Torch `y`, both positive. The sign is `+` if Deepworks is not worse, and the percentage says by how
much the larger number exceeds the smaller one. -/
theorem percent_partial {x y : ℝ} (hx : 0 < x) (hy : 0 < y) (maximize : Bool) :
    percentDiff (.num false (ENNReal.ofReal x)) (.num false (ENNReal.ofReal y)) maximize =
      (if (if maximize then y ≤ x else x ≤ y) then '+' else '-') :: fixed 2 (100 * (max x y / min x y - 1)) ++ ['%'] := by
  have lt : ∀ {a b : ℝ}, 0 < a → 0 < b → ((Flt.num false (ENNReal.ofReal a)).lt (.num false (ENNReal.ofReal b)) ↔ a < b) := fun {a b} _ hb =>
    show ENNReal.ofReal a < ENNReal.ofReal b ↔ _ from ENNReal.ofReal_lt_ofReal_iff hb
  have dv : ∀ {a b : ℝ}, 0 < a → 0 < b → divWith id (.num false (ENNReal.ofReal a)) (.num false (ENNReal.ofReal b)) =
      .num false (ENNReal.ofReal (a / b)) := fun {a b} ha hb => by
    rw [ENNReal.ofReal_div_of_pos hb]
    unfold divWith
    dsimp only
    rw [if_neg]
    · rfl
    · simp [ha]
  unfold percentDiff
  rw [lt hx hy, lt hy hx, dv hx hy, dv hy hx]
  rcases lt_trichotomy x y with h | h | h
  · rw [if_pos h, number_percent ((one_le_div hx).2 h.le), max_eq_right h.le, min_eq_left h.le]
    cases maximize
    · rw [if_neg (by simp), if_pos (by simpa using h.le)]
    · rw [if_pos rfl, if_neg (by simpa using h)]
  · subst h
    rw [if_neg (lt_irrefl x), if_neg (fun h => lt_irrefl x h.1), number_percent ((one_le_div hx).2 le_rfl), max_self, min_self, if_pos (by cases maximize <;> simp)]
  · rw [if_neg h.le.not_gt, number_percent ((one_le_div hy).2 h.le), max_eq_left h.le, min_eq_right h.le]
    cases maximize
    · rw [if_pos ⟨h, rfl⟩, if_neg (by simpa using h)]
    · rw [if_neg (by simp), if_pos (by simpa using h.le)]

/-- Twice as fast is 100 percent, and the same is 0 percent. -/
example : percentDiff (.num false (ENNReal.ofReal 2)) (.num false (ENNReal.ofReal 4)) false = '+' :: fixed 2 100 ++ ['%'] ∧
    percentDiff (.num false (ENNReal.ofReal 3)) (.num false (ENNReal.ofReal 3)) true = '+' :: fixed 2 0 ++ ['%'] := by
  constructor
  · rw [percent_partial (by norm_num) (by norm_num)]
    norm_num
  · rw [percent_partial (by norm_num) (by norm_num)]
    norm_num

/-- **C130, refuted.** A time of 0 ms, which is any time below one millisecond: there is no percentage. -/
theorem percent_refuted {n : ℕ} (hn : 0 < n) : percentDiff (count n) (count 0) false = "-inf%".toList ∧
    percentDiff (count 0) (count n) false = "+inf%".toList ∧ percentDiff (count 0) (count 0) false = "+nan%".toList := by
  have h0 : (0 : ℝ≥0∞) < n := by exact_mod_cast hn
  have l1 : (count 0).lt (count n) := show ((0 : ℕ) : ℝ≥0∞) < n by simpa using h0
  have l2 : ¬(count n).lt (count 0) := show ¬(n : ℝ≥0∞) < ((0 : ℕ) : ℝ≥0∞) by simp
  have l3 : ¬(count 0).lt (count 0) := show ¬((0 : ℕ) : ℝ≥0∞) < ((0 : ℕ) : ℝ≥0∞) from lt_irrefl _
  have d1 : divWith id (count n) (count 0) = .num false ⊤ := by
    unfold count divWith
    dsimp only
    rw [if_neg (by simp [hn.ne'])]
    simp [ENNReal.div_zero h0.ne']
  have d2 : divWith id (count 0) (count 0) = .nan := by
    unfold count divWith
    dsimp only
    rw [if_pos (by simp)]
  unfold percentDiff
  refine ⟨?_, ?_, ?_⟩
  · rw [if_neg l2, if_pos ⟨l1, rfl⟩, d1]
    simp [percent, number]
  · rw [if_pos l1, d1]
    simp [percent, number]
  · rw [if_neg l3, if_neg (fun h => l3 h.1), d2]
    simp [percent, number]

/-! ## The table -/

/-- The ratio of two numbers, either way, is not above `10 ^ 11`, or one of them is zero or infinite. -/
def Moderate (a b : Flt) : Prop := ∀ s x t y, a = .num s x → b = .num t y → (x / y ≤ 10 ^ 11 ∨ x / y = ⊤) ∧ (y / x ≤ 10 ^ 11 ∨ y / x = ⊤)

theorem percent_length {a b : Flt} (h : ∀ s x t y, a = .num s x → b = .num t y → x / y ≤ 10 ^ 11 ∨ x / y = ⊤) :
    (number 2 (percent (divWith id a b))).length ≤ 18 := by
  rcases a with _ | ⟨s, x⟩
  · simp [divWith, percent, number]
  rcases b with _ | ⟨t, y⟩
  · simp [divWith, percent, number]
  have h := h s x t y rfl rfl
  unfold divWith
  dsimp only
  by_cases hc : x = 0 ∧ y = 0 ∨ x = ⊤ ∧ y = ⊤
  · rw [if_pos hc]
    simp [percent, number]
  rw [if_neg hc]
  by_cases ht : x / y = ⊤
  · simp only [id, ht, percent, if_true, number]
    split_ifs <;> simp
  have h := h.resolve_right ht
  obtain ⟨v, hv⟩ : ∃ v : ℝ, v = if (s ^^ t) = true then -(x / y).toReal else (x / y).toReal := ⟨_, rfl⟩
  have hle : (x / y).toReal ≤ 10 ^ 11 := by simpa using ENNReal.toReal_mono (by norm_num) h
  have hva : |v| ≤ 10 ^ 11 := by
    have h0 : 0 ≤ (x / y).toReal := ENNReal.toReal_nonneg
    rw [hv]
    split_ifs
    · rw [abs_neg, abs_of_nonneg h0]
      exact hle
    · rw [abs_of_nonneg h0]
      exact hle
  unfold percent
  simp only [id, ht, if_false, ← hv]
  obtain ⟨w, hw⟩ : ∃ w : ℝ, w = if 0 ≤ v then (⌊v⌋ : ℝ) else (⌈v⌉ : ℝ) := ⟨_, rfl⟩
  rw [← hw, show (v - w + (w - 1)) * 100 = (v - 1) * 100 by ring]
  obtain ⟨r, hr⟩ : ∃ r : ℝ, r = (v - 1) * 100 := ⟨_, rfl⟩
  rw [← hr]
  have hra : |r| ≤ 10 ^ 14 - 1 := by
    rw [hr, abs_le]
    have := abs_le.1 hva
    constructor <;> linarith [this.1, this.2]
  refine (number_length (k := 14) (by norm_num) ENNReal.ofReal_ne_top ?_).trans (by norm_num)
  rw [ENNReal.toReal_ofReal (abs_nonneg r)]
  exact hra

theorem percentDiff_length {a b : Flt} (h : Moderate a b) (maximize : Bool) : (percentDiff a b maximize).length ≤ 20 := by
  have h1 := percent_length fun s x t y e e' => (h s x t y e e').1
  have h2 := percent_length (a := b) (b := a) fun s x t y e e' => (h t y s x e' e).2
  unfold percentDiff
  split_ifs <;> simp <;> omega

theorem moderate_count {m n : ℕ} (hm : m ≤ 10 ^ 11) (hn : n ≤ 10 ^ 11) : Moderate (count m) (count n) := by
  have key : ∀ {m n : ℕ}, m ≤ 10 ^ 11 → (m : ℝ≥0∞) / n ≤ 10 ^ 11 ∨ (m : ℝ≥0∞) / n = ⊤ := fun {m n} h => by
    rcases Nat.eq_zero_or_pos n with rfl | h0
    · rcases Nat.eq_zero_or_pos m with rfl | h1
      · left; simp
      · right
        rw [Nat.cast_zero, ENNReal.div_zero (by exact_mod_cast h1.ne')]
    · left
      have h1 : (1 : ℝ≥0∞) ≤ n := by exact_mod_cast h0
      refine (ENNReal.div_le_of_le_mul ((by exact_mod_cast h : (m : ℝ≥0∞) ≤ 10 ^ 11).trans ?_))
      exact le_mul_of_one_le_right (by positivity) h1
  intro s x t y e e'
  obtain ⟨-, rfl⟩ := Flt.num.inj e
  obtain ⟨-, rfl⟩ := Flt.num.inj e'
  exact ⟨key hm, key hn⟩

/-- Results that fit into the table: up to `10 ^ 11` epochs and milliseconds, and accuracies and losses up to `10 ^ 11`. NaN and
infinities fit. -/
structure FitsTable (a : Results) : Prop where
  epochs : a.epochs ≤ 10 ^ 11
  trainTime : a.trainTime ≤ 10 ^ 11
  inferenceTime : a.inferenceTime ≤ 10 ^ 11
  loss : ∀ s x, a.loss = .num s x → x ≤ 10 ^ 11 ∨ x = ⊤
  accuracy : ∀ s x, a.accuracy = .num s x → x ≤ 10 ^ 11 ∨ x = ⊤

theorem value_length {a : Flt} (h : ∀ s x, a = .num s x → x ≤ 10 ^ 11 ∨ x = ⊤) : (number 6 a).length ≤ 20 := by
  rcases a with _ | ⟨s, x⟩
  · simp [number]
  rcases h s x rfl with h | h
  · refine (number_length (k := 12) (by norm_num) (ne_top_of_le_ne_top (by norm_num) h) ?_).trans (by norm_num)
    have : x.toReal ≤ 10 ^ 11 := by simpa using ENNReal.toReal_mono (by norm_num) h
    linarith
  · unfold number
    dsimp only
    rw [if_pos h]
    split_ifs <;> simp

/-- **C129, the table.** Its lines have the same length, but for the lines between the rows, which are two characters shorter. -/
theorem table_partial {a b : Results} (ha : FitsTable a) (hb : FitsTable b) (hl : Moderate a.loss b.loss) (hc : Moderate a.accuracy b.accuracy) :
    (table a b).map List.length = [1, 89, 91, 89, 91, 91, 91, 91, 91, 89, 1] := by
  have n : ∀ {k}, k ≤ 10 ^ 11 → (decNat k).length ≤ 12 := fun h => decNat_length (by norm_num) (by omega)
  have n' : ∀ {k}, k ≤ 10 ^ 11 → (decNat k).length ≤ 20 := fun h => (n h).trans (by norm_num)
  have m : ∀ {k}, k ≤ 10 ^ 11 → (ms k).length ≤ 20 := fun h => by
    have := n h
    simp [ms]
    omega
  unfold table
  simp only [List.map_cons, List.map_nil]
  rw [row_length (by decide) (by decide) (by decide) (by decide),
    row_length (by decide) (n' ha.epochs) (n' hb.epochs) (by decide),
    row_length (by decide) (m ha.trainTime) (m hb.trainTime) (percentDiff_length (moderate_count ha.trainTime hb.trainTime) _),
    row_length (by decide) (m ha.inferenceTime) (m hb.inferenceTime) (percentDiff_length (moderate_count ha.inferenceTime hb.inferenceTime) _),
    row_length (by decide) (value_length ha.accuracy) (value_length hb.accuracy) (percentDiff_length hc _),
    row_length (by decide) (value_length ha.loss) (value_length hb.loss) (percentDiff_length hl _), rule_length]
  rfl

/-- Results of a run. -/
example : FitsTable ⟨5, 61000, 0, .num false (1 / 8), .num false 1⟩ :=
  ⟨by norm_num, by norm_num, by norm_num, fun s x h => .inl (by
    obtain ⟨-, rfl⟩ := Flt.num.inj h
    exact (ENNReal.div_le_of_le_mul (by norm_num))), fun s x h => .inl (by
    obtain ⟨-, rfl⟩ := Flt.num.inj h
    norm_num)⟩

/-- A text in the middle of 20 characters. -/
def centred (t : Text) : Text := spaces ((20 - t.length) / 2) ++ t ++ spaces ((20 - t.length + 1) / 2)

/-- A line with columns between double bars. -/
def columns (l : List Text) : Text := ['|', '|'] ++ l.flatMap (fun t => centred t ++ ['|', '|']) ++ ['\n']

open Classical in
/-- By how much the larger of two numbers exceeds the smaller one, with a sign that says if this is good. -/
def compared (good : Prop) (x y : ℝ) : Text := (if good then '+' else '-') :: fixed 2 (100 * (max x y / min x y - 1)) ++ ['%']

theorem row_text {a b c d : Text} (ha : a.length ≤ 20) (hb : b.length ≤ 20) (hc : c.length ≤ 20) (hd : d.length ≤ 20) :
    row a b c d = columns [a, b, c, d] := by
  unfold row columns centred
  rw [cell_short ha, cell_short hb, cell_short hc, cell_short hd]
  simp

/-- **C129, C130, the table.** What is in it, for times that are not 0 and positive losses and accuracies: the numbers of Deepworks, those
of Torch and their comparison. -/
theorem table_text {a b : Results} (ha : FitsTable a) (hb : FitsTable b) (hl : Moderate a.loss b.loss) (hc : Moderate a.accuracy b.accuracy)
    (ta : 0 < a.trainTime) (tb : 0 < b.trainTime) (ia : 0 < a.inferenceTime) (ib : 0 < b.inferenceTime) {x y v w : ℝ} (hx : 0 < x) (hy : 0 < y)
    (hv : 0 < v) (hw : 0 < w) (ex : a.loss = .num false (ENNReal.ofReal x)) (ey : b.loss = .num false (ENNReal.ofReal y))
    (ev : a.accuracy = .num false (ENNReal.ofReal v)) (ew : b.accuracy = .num false (ENNReal.ofReal w)) :
    table a b = [['\n'], rule '=' 88, columns [[], "Deepworks".toList, "Torch".toList, "DW vs Torch".toList], rule '=' 88,
      columns ["Epochs".toList, decNat a.epochs, decNat b.epochs, "None".toList],
      columns ["Train time".toList, decNat a.trainTime ++ " ms".toList, decNat b.trainTime ++ " ms".toList,
        compared (a.trainTime ≤ b.trainTime) a.trainTime b.trainTime],
      columns ["Inference time".toList, decNat a.inferenceTime ++ " ms".toList, decNat b.inferenceTime ++ " ms".toList,
        compared (a.inferenceTime ≤ b.inferenceTime) a.inferenceTime b.inferenceTime],
      columns ["Accuracy".toList, fixed 6 v, fixed 6 w, compared (w ≤ v) v w],
      columns ["Loss".toList, fixed 6 x, fixed 6 y, compared (x ≤ y) x y], rule '=' 88, ['\n']] := by
  have n : ∀ {k}, k ≤ 10 ^ 11 → (decNat k).length ≤ 12 := fun h => decNat_length (by norm_num) (by omega)
  have n' : ∀ {k}, k ≤ 10 ^ 11 → (decNat k).length ≤ 20 := fun h => (n h).trans (by norm_num)
  have m : ∀ {k}, k ≤ 10 ^ 11 → (ms k).length ≤ 20 := fun h => by
    have := n h
    simp [ms]
    omega
  have six : ∀ {z : ℝ}, 0 < z → number 6 (.num false (ENNReal.ofReal z)) = fixed 6 z := fun {z} hz => by
    unfold number
    dsimp only
    rw [if_neg ENNReal.ofReal_ne_top, if_neg (fun h => absurd h.2 (by simp)), if_neg (by simp), ENNReal.toReal_ofReal hz.le]
  have times : ∀ {i j : ℕ}, 0 < i → 0 < j → percentDiff (count i) (count j) false = compared (i ≤ j) i j := fun {i j} hi hj => by
    have := percent_partial (x := i) (y := j) (by exact_mod_cast hi) (by exact_mod_cast hj) false
    rw [ENNReal.ofReal_natCast, ENNReal.ofReal_natCast] at this
    unfold count compared
    rw [this]
    simp
  have c1 : percentDiff a.accuracy b.accuracy true = compared (w ≤ v) v w := by
    rw [ev, ew, percent_partial hv hw]
    simp [compared]
  have c2 : percentDiff a.loss b.loss false = compared (x ≤ y) x y := by
    rw [ex, ey, percent_partial hx hy]
    simp [compared]
  unfold table
  rw [row_text (by decide) (by decide) (by decide) (by decide),
    row_text (by decide) (n' ha.epochs) (n' hb.epochs) (by decide),
    row_text (by decide) (m ha.trainTime) (m hb.trainTime) (percentDiff_length (moderate_count ha.trainTime hb.trainTime) _),
    row_text (by decide) (m ha.inferenceTime) (m hb.inferenceTime) (percentDiff_length (moderate_count ha.inferenceTime hb.inferenceTime) _),
    row_text (by decide) (value_length ha.accuracy) (value_length hb.accuracy) (percentDiff_length hc _),
    row_text (by decide) (value_length ha.loss) (value_length hb.loss) (percentDiff_length hl _), times ta tb, times ia ib, c1, c2, ex, ey, ev, ew,
    six hx, six hy, six hv, six hw]
  rfl

/-- **C129, refuted.** A loss of `10 ^ 13` or more, as after a diverging training: more than `2 ^ 64` characters are printed for it. -/
theorem loss_refuted {x : ℝ≥0∞} (h : 10 ^ 13 ≤ x) (h' : x ≤ maxFloat) : (cell (number 6 (.num false x))).length = 2 ^ 64 + 22 := by
  have hm : maxFloat ≤ 10 ^ 39 := by unfold maxFloat; norm_num
  have ht : x ≠ ⊤ := ne_top_of_le_ne_top (by norm_num) (h'.trans hm)
  have e : number 6 (.num false x) = fixed 6 x.toReal := by
    unfold number
    dsimp only
    rw [if_neg ht, if_neg (fun h => absurd h.2 (by simp)), if_neg (by simp)]
  have h1 : (10 : ℝ) ^ 13 ≤ x.toReal := by simpa using ENNReal.toReal_mono ht h
  have h2 : x.toReal ≤ 10 ^ 39 := by simpa using ENNReal.toReal_mono (by norm_num) (h'.trans hm)
  rw [e]
  refine cell_long ?_ ?_
  · have := fixed_long (p := 6) h1
    omega
  · have := fixed_length (p := 6) (k := 40) (x := x.toReal) (by norm_num) (by
      rw [abs_of_nonneg ENNReal.toReal_nonneg]
      linarith)
    split_ifs at this <;> omega

end

end DW.Props.BenchP
