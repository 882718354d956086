import Verif.Props.FloatDot
/-!
# C102: the gradient of the classification loss, in `float`

For a classifier that ends with softmax and cross entropy, the exact gradient with respect to the logits is `(p - onehot) / B`. What
the code computes from the `float`s `p` by the two backward passes is that up to a few units of rounding.
-/

set_option autoImplicit false

namespace DW.Props.FloatGradP

open DW.Float DW.Props.FloatSoftmaxP DW.Props.FloatLossP DW.Props.FloatDotP
open scoped ENNReal

variable {R : Rounding} {F : Libm R} {B n k : Nat}

noncomputable section

/-! ## Zeros -/

/-- `+0` or `-0`. -/
def Zero (a : Flt) : Prop := ∃ s, a = .num s 0

theorem zero_add_zero {a b : Flt} (ha : Zero a) (hb : Zero b) : Zero (addWith R.rd a b) := by
  obtain ⟨s, rfl⟩ := ha
  obtain ⟨t, rfl⟩ := hb
  by_cases h : s = t
  · exact ⟨s, by simp [addWith, h, rd_zero]⟩
  · exact ⟨false, by simp [addWith, h]⟩

theorem zero_addWith {s t : Bool} {y : ℝ≥0∞} (hy : y ≠ 0) : addWith R.rd (.num s 0) (.num t y) = .num t (R.rd y) := by
  by_cases h : s = t
  · simp [addWith, h]
  · simp [addWith, h, hy.symm]

theorem addWith_zero {s t : Bool} {y : ℝ≥0∞} (hy : y ≠ 0) : addWith R.rd (.num t y) (.num s 0) = .num t (R.rd y) := by
  by_cases h : t = s
  · simp [addWith, h]
  · simp [addWith, h, hy, pos_iff_ne_zero]

/-- A product that is zero. -/
def ZeroPair (q : Flt × Flt) : Prop := Zero (mulWith id q.1 q.2)

theorem mul_of_id {a b : Flt} {s : Bool} {z : ℝ≥0∞} (h : mulWith id a b = .num s z) : mul R a b = .num s (R.rd z) := by
  rcases a with _ | ⟨s', x⟩
  · simp [mulWith] at h
  rcases b with _ | ⟨t', y⟩
  · simp [mulWith] at h
  simp only [mulWith, id] at h
  split_ifs at h with h'
  · obtain ⟨rfl, rfl⟩ := Flt.num.inj h
    simp only [mul, mulWith, h', if_false]

open Classical in
/-- A sum of products of which at most one is not zero is that product, rounded once. -/
theorem dot_one {l : List (Flt × Flt)} {r : Flt} (h : DotOf R l r) :
    (l.filter (¬ ZeroPair ·) = [] → Zero r) ∧
      ∀ q s z, l.filter (¬ ZeroPair ·) = [q] → mulWith id q.1 q.2 = .num s z → R.rd z ≠ 0 → r = .num s (R.rd z) := by
  have nz : ∀ {z : ℝ≥0∞}, R.rd z ≠ 0 → z ≠ 0 := fun h h0 => h (by rw [h0, rd_zero])
  have zmul : ∀ {a b : Flt}, ZeroPair (a, b) → Zero (mul R a b) := fun {a b} ⟨s, hs⟩ =>
    ⟨s, by rw [mul_of_id hs, rd_zero]⟩
  induction h with
  | one a b =>
    constructor
    · intro hl
      exact zmul (by simpa using hl)
    · intro q s z hl hq hz
      have : (a, b) = q := by
        by_cases hab : ZeroPair (a, b) <;> simp_all
      subst this
      exact mul_of_id hq
  | start a b =>
    constructor
    · intro hl
      exact zero_add_zero ⟨false, rfl⟩ (zmul (by simpa using hl))
    · intro q s z hl hq hz
      have : (a, b) = q := by
        by_cases hab : ZeroPair (a, b) <;> simp_all
      subst this
      rw [mul_of_id hq]
      exact (zero_addWith hz).trans (by rw [R.idem])
  | fmaStart a b =>
    constructor
    · intro hl
      have hab : ZeroPair (a, b) := by simpa using hl
      exact zero_add_zero hab ⟨false, rfl⟩
    · intro q s z hl hq hz
      have : (a, b) = q := by
        by_cases hab : ZeroPair (a, b) <;> simp_all
      subst this
      show addWith R.rd (mulWith id a b) (.num false 0) = _
      rw [hq]
      exact addWith_zero (nz hz)
  | @add l l' a b _ _ ih ih' =>
    rw [List.filter_append]
    constructor
    · intro hl
      obtain ⟨h1, h2⟩ := List.append_eq_nil_iff.1 hl
      exact zero_add_zero (ih.1 h1) (ih'.1 h2)
    · intro q s z hl hq hz
      rcases List.append_eq_singleton_iff.1 hl with ⟨h1, h2⟩ | ⟨h1, h2⟩
      · obtain ⟨t, ht⟩ := ih.1 h1
        rw [ih'.2 q s z h2 hq hz, ht]
        exact (zero_addWith hz).trans (by rw [R.idem])
      · obtain ⟨t, ht⟩ := ih'.1 h2
        rw [ih.2 q s z h1 hq hz, ht]
        exact (addWith_zero hz).trans (by rw [R.idem])
  | @fma l a b c _ ih =>
    rw [List.filter_append]
    constructor
    · intro hl
      obtain ⟨h1, h2⟩ := List.append_eq_nil_iff.1 hl
      have hab : ZeroPair (a, b) := by simpa using h2
      exact zero_add_zero hab (ih.1 h1)
    · intro q s z hl hq hz
      rcases List.append_eq_singleton_iff.1 hl with ⟨h1, h2⟩ | ⟨h1, h2⟩
      · obtain ⟨t, ht⟩ := ih.1 h1
        have : (a, b) = q := by
          by_cases hab : ZeroPair (a, b) <;> simp_all
        subst this
        show addWith R.rd (mulWith id a b) c = _
        rw [hq, ht]
        exact addWith_zero (nz hz)
      · have hab : ZeroPair (a, b) := by simpa using h2
        obtain ⟨t, ht⟩ := hab
        show addWith R.rd (mulWith id a b) c = _
        rw [show mulWith id a b = .num t 0 from ht, ih.2 q s z h1 hq hz]
        exact (zero_addWith hz).trans (by rw [R.idem])
  | @perm l l' a hp _ ih =>
    have hf := hp.filter (fun q => decide (¬ ZeroPair q))
    constructor
    · intro hl
      rw [hl] at hf
      exact ih.1 (List.perm_nil.1 hf)
    · intro q s z hl
      rw [hl] at hf
      exact ih.2 q s z (List.perm_singleton.1 hf)

/-! ## One operation -/

theorem near_div {a b : Flt} (ha : a.Finite) (hb : b.Finite) (h0 : b.val ≠ 0) (h : |a.val / b.val| ≤ big) :
    Near (div R a b) (a.val / b.val) := by
  rcases a with _ | ⟨s, x⟩
  · exact ha.elim
  rcases b with _ | ⟨t, y⟩
  · exact hb.elim
  simp only [Flt.Finite] at ha hb
  have hy : y ≠ 0 := fun hy => h0 (by simp [Flt.val, hy])
  simp only [div, divWith, hy, hb, and_false, or_false, if_false]
  refine near_num (ENNReal.div_ne_top ha hy) ?_ h
  cases s <;> cases t <;> simp [Flt.val, ENNReal.toReal_div, neg_div, div_neg]

/-- For results that are not tiny the error is relative. -/
theorem Near.rel {a : Flt} {x : ℝ} (h : FloatDotP.Near a x) (hx : 1 / 2 ^ 60 ≤ |x|) : |a.val - x| ≤ (u + u ^ 2) * |x| := by
  have h1 := h.2
  have h2 : η ≤ u ^ 2 * |x| := by
    refine le_trans ?_ (mul_le_mul_of_nonneg_left hx (by positivity))
    unfold η u
    norm_num
  linarith

/-- `c + a * b` where `c` is zero. -/
theorem near_mulAdd {a b c r : Flt} (h : MulAdd R a b c r) (hc : Zero c) (ha : a.Finite) (hb : b.Finite)
    (hm : |a.val * b.val| ≤ big) : FloatDotP.Near r (a.val * b.val) := by
  have hcv : c.val = 0 := by obtain ⟨s, rfl⟩ := hc; simp [Flt.val]
  have hcf : c.Finite := by obtain ⟨s, rfl⟩ := hc; exact ENNReal.zero_ne_top
  rcases h with rfl | rfl
  · have hid := mulWith_id ha hb
    have hn := near_mul (R := R) ha hb hm
    rcases hq : mulWith id a b with _ | ⟨s, z⟩
    · rw [hq] at hid; exact hid.1.elim
    rw [mul_of_id hq] at hn ⊢
    obtain ⟨t, rfl⟩ := hc
    by_cases hz : R.rd z = 0
    · obtain ⟨t', ht'⟩ := zero_add_zero (R := R) (a := .num t 0) (b := .num s (R.rd z)) ⟨t, rfl⟩ ⟨s, by rw [hz]⟩
      have e : (add R (.num t 0) (.num s (R.rd z))).val = (Flt.num s (R.rd z)).val := by
        show (addWith R.rd _ _).val = _
        rw [ht', hz]; simp [Flt.val]
      refine ⟨?_, by rw [e]; exact hn.2⟩
      show (addWith R.rd _ _).Finite
      rw [ht']; exact ENNReal.zero_ne_top
    · have e : add R (.num t 0) (.num s (R.rd z)) = .num s (R.rd z) := (zero_addWith hz).trans (by rw [R.idem])
      rw [e]; exact hn
  · have := near_fma (R := R) ha hb hcf (by rw [hcv, add_zero]; exact hm)
    rwa [hcv, add_zero] at this

/-! ## The gradient of the loss -/

theorem u_small : u ≤ 1 / 10 ^ 7 := by unfold u; norm_num

/-- At a label of normal probability `p` the gradient of the loss is `-1 / (p B)`, rounded twice. -/
theorem backward_label {p : ℝ≥0∞} (hp : minNormal ≤ p) (hp1 : p ≤ 1) (hB : 0 < B) (hB' : B ≤ 2 ^ 24) :
    ∃ g : ℝ≥0∞, g ≠ ⊤ ∧ g.toReal ≤ 2 ^ 126 ∧ |g.toReal * p.toReal * B - 1| ≤ 2.001 * u ∧
      div R (div R (.num true 1) (.num false p)) (.num false B) = .num true g := by
  obtain ⟨g, hg126, -, hg⟩ := backward_normal (R := R) hp hp1 hB
  have hpt : p ≠ ⊤ := ne_top_of_le_ne_top ENNReal.one_ne_top hp1
  have hgt : g ≠ ⊤ := ne_top_of_le_ne_top (ENNReal.pow_ne_top ENNReal.ofNat_ne_top) hg126
  have hg' : g.toReal ≤ 2 ^ 126 := by
    have := ENNReal.toReal_mono (ENNReal.pow_ne_top ENNReal.ofNat_ne_top) hg126
    simpa using this
  refine ⟨g, hgt, hg', ?_, hg⟩
  have hp0 : (1 : ℝ) / 2 ^ 126 ≤ p.toReal := by
    have := ENNReal.toReal_mono hpt hp
    simpa [minNormal] using this
  have hp1' : p.toReal ≤ 1 := by simpa using ENNReal.toReal_mono ENNReal.one_ne_top hp1
  have hpos : 0 < p.toReal := lt_of_lt_of_le (by positivity) hp0
  have hu := u_pos
  have hus := u_small
  have hBr : (1 : ℝ) ≤ B := by exact_mod_cast hB
  have hBr' : (B : ℝ) ≤ 2 ^ 24 := by exact_mod_cast hB'
  set q := p.toReal with hq
  have hx1 : 1 ≤ 1 / q := by rw [le_div_iff₀ hpos]; linarith
  have hx2 : 1 / q ≤ 2 ^ 126 := by
    rw [div_le_iff₀ hpos]
    have := mul_le_mul_of_nonneg_left hp0 (show (0 : ℝ) ≤ 2 ^ 126 by positivity)
    norm_num at this ⊢
    linarith
  have v1 : (Flt.num true 1).val = -1 := by simp [Flt.val]
  have v2 : (Flt.num false p).val = q := by simp [Flt.val, hq]
  have v3 : (Flt.num false (B : ℝ≥0∞)).val = B := by simp [Flt.val]
  have e1 : (Flt.num true 1).val / (Flt.num false p).val = -(1 / q) := by rw [v1, v2]; ring
  have n1 := near_div (R := R) (a := .num true 1) (b := .num false p) ENNReal.one_ne_top hpt (by rw [v2]; exact hpos.ne')
    (by rw [e1, abs_neg, abs_of_pos (by linarith)]; refine hx2.trans ?_; unfold big; norm_num)
  rw [e1] at n1
  have r1 := Near.rel n1 (by rw [abs_neg, abs_of_pos (by linarith)]; refine le_trans ?_ hx1; norm_num)
  rw [abs_neg, abs_of_pos (show (0 : ℝ) < 1 / q by linarith)] at r1
  set a := div R (.num true 1) (.num false p) with ha
  have hv : (u + u ^ 2) ≤ 1.0001 * u := by nlinarith
  have hv0 : 0 ≤ u + u ^ 2 := by positivity
  have r1' : |a.val - -(1 / q)| ≤ 1.0001 * u * (1 / q) := r1.trans (mul_le_mul_of_nonneg_right hv (by linarith))
  obtain ⟨b1, b2⟩ := abs_le.1 r1'
  have c1 : 1.0001 * u ≤ 1 / 1000 := by linarith
  have c2 : 1.0001 * u * (1 / q) ≤ 1 / 1000 * (1 / q) := mul_le_mul_of_nonneg_right c1 (by linarith)
  have aneg : a.val ≤ -(1 / 2) := by linarith
  have alow : -(2 * 2 ^ 126) ≤ a.val := by nlinarith
  have e2 : |a.val / (Flt.num false (B : ℝ≥0∞)).val| = -a.val / B := by
    rw [v3, abs_div, abs_of_neg (by linarith), abs_of_pos (by linarith)]
  have n2 := near_div (R := R) (a := a) (b := .num false B) n1.1 (ENNReal.natCast_ne_top B) (by rw [v3]; linarith) (by
    rw [e2, div_le_iff₀ (by linarith)]
    unfold big
    nlinarith)
  have r2 := Near.rel n2 (by
    rw [e2, le_div_iff₀ (by linarith)]
    refine le_trans (mul_le_mul_of_nonneg_left hBr' (by positivity)) ?_
    norm_num
    linarith)
  rw [e2, hg, v3] at r2
  have v4 : (Flt.num true g).val = -g.toReal := by simp [Flt.val]
  rw [v4] at r2
  have r2' := r2.trans (mul_le_mul_of_nonneg_right hv (div_nonneg (by linarith) (by linarith)))
  have hB0 : (0 : ℝ) < B := by linarith
  have m1 : |g.toReal * B - -a.val| ≤ 1.0001 * u * -a.val := by
    have h1 := mul_le_mul_of_nonneg_right r2' hB0.le
    rw [← abs_of_pos hB0, ← abs_mul, abs_of_pos hB0] at h1
    rw [show (-g.toReal - a.val / B) * B = -(g.toReal * B - -a.val) by field_simp; ring, abs_neg] at h1
    rw [show 1.0001 * u * (-a.val / B) * B = 1.0001 * u * -a.val by field_simp] at h1
    exact h1
  have m2 : |-a.val * q - 1| ≤ 1.0001 * u := by
    have h1 := mul_le_mul_of_nonneg_right r1' hpos.le
    rw [← abs_of_pos hpos, ← abs_mul, abs_of_pos hpos] at h1
    rw [show (a.val - -(1 / q)) * q = -(-a.val * q - 1) by field_simp; ring, abs_neg] at h1
    rw [show 1.0001 * u * (1 / q) * q = 1.0001 * u by field_simp] at h1
    exact h1
  have m3 := mul_le_mul_of_nonneg_right m1 hpos.le
  rw [← abs_of_pos hpos, ← abs_mul, abs_of_pos hpos] at m3
  have t := abs_add_le ((g.toReal * B - -a.val) * q) (-a.val * q - 1)
  rw [show (g.toReal * B - -a.val) * q + (-a.val * q - 1) = g.toReal * q * B - 1 by ring] at t
  have m4 := (abs_le.1 m2).2
  refine t.trans ?_
  nlinarith

theorem filter_ofFn {α : Type} (f : Fin n → α) (P : α → Prop) [DecidablePred P] {L : Fin n} (h : ∀ j, P (f j) ↔ j = L) :
    (List.ofFn f).filter (P ·) = [f L] := by
  rw [List.ofFn_eq_map, List.filter_map]
  have e : ((fun x => decide (P x)) ∘ f) = fun j => decide (j = L) := by
    funext j
    simp [h]
  rw [e]
  have := List.filter_eq (l := List.finRange n) L
  rw [this, List.count_eq_one_of_mem (List.nodup_finRange n) (List.mem_finRange L)]
  rfl

section gradient

variable {X P G₀ D : Fin B → Fin n → Flt} {label : Fin B → Fin n}

/-- The parts of the gradient in one row: that of the loss at the label, `-g`, and what softmax subtracts, `-k`. -/
theorem row_parts (h : SoftmaxForward R F X P) (hX : ∀ i j, (X i j).Finite) (hn : n ≤ 2 ^ 24) (hB : 0 < B) (hB' : B ≤ 2 ^ 24)
    (hP : ∀ i, ∃ p : ℝ≥0∞, minNormal ≤ p ∧ P i (label i) = .num false p)
    (hD : SoftmaxInputGrad R P (lossBackward R P label) G₀ D) (i : Fin B) :
    ∃ g m : ℝ≥0∞, g ≠ ⊤ ∧ g.toReal ≤ 2 ^ 126 ∧ |g.toReal * (P i (label i)).val * B - 1| ≤ 2.001 * u ∧ m ≠ ⊤ ∧ m ≠ 0 ∧ R.rd m = m ∧
      |m.toReal * B - 1| ≤ 3.003 * u ∧
      ∀ j, MulAdd R (P i j) (sub R (if j = label i then .num true g else .num false 0) (.num true m)) (G₀ i j) (D i j) := by
  obtain ⟨p, hp, hpe⟩ := hP i
  have hp1 : p ≤ 1 := by
    obtain ⟨y, hy, -, he⟩ := softmax_range h hX hn i (label i)
    rw [hpe] at he
    exact (Flt.num.inj he).2 ▸ hy
  have hB0 : (B : ℝ≥0∞) ≠ 0 := by exact_mod_cast hB.ne'
  obtain ⟨g, hgt, hg126, hgp, hg⟩ := backward_label (R := R) hp hp1 hB hB'
  have hG : ∀ j, lossBackward R P label i j = if j = label i then .num true g else .num false 0 := fun j => by
    unfold lossBackward
    split_ifs with hj
    · rw [hj, hpe, hg]
    · show div R (.num false 0) _ = _
      simp [div, divWith, hB0, rd_zero]
  have hp0 : p ≠ 0 := fun h => by rw [h, minNormal] at hp; simp at hp
  have hpt : p ≠ ⊤ := ne_top_of_le_ne_top ENNReal.one_ne_top hp1
  have v2 : (Flt.num false p).val = p.toReal := by simp [Flt.val]
  have hu := u_pos
  have hus := u_small
  have hBr : (1 : ℝ) ≤ B := by exact_mod_cast hB
  have hBr' : (B : ℝ) ≤ 2 ^ 24 := by exact_mod_cast hB'
  obtain ⟨b1, b2⟩ := abs_le.1 hgp
  set x := (g * p).toReal with hx
  have hxe : x = g.toReal * p.toReal := ENNReal.toReal_mul
  have hx1 : 1 / 2 ≤ x * B := by rw [hxe]; linarith
  have hx2 : x * B ≤ 2 := by rw [hxe]; linarith
  have hx0 : 0 ≤ x := ENNReal.toReal_nonneg
  have hgpt : g * p ≠ ⊤ := ENNReal.mul_ne_top hgt hpt
  have hxle : x ≤ 2 := by nlinarith
  have hn1 := near_num (R := R) (s := false) (m := g * p) (x := x) hgpt (by simp [Flt.val, hx]) (by
    rw [abs_of_nonneg hx0]; unfold big; norm_num; linarith)
  have hr := Near.rel hn1 (by
    rw [abs_of_nonneg hx0]
    by_contra hc
    have : x * B < 1 / 2 ^ 60 * 2 ^ 24 := by nlinarith
    norm_num at this
    linarith)
  rw [abs_of_nonneg hx0, show (Flt.num false (R.rd (g * p))).val = (R.rd (g * p)).toReal by simp [Flt.val]] at hr
  have hkB : |(R.rd (g * p)).toReal * B - 1| ≤ 3.003 * u := by
    have h1 := mul_le_mul_of_nonneg_right hr (show (0 : ℝ) ≤ B by linarith)
    rw [← abs_of_pos (show (0 : ℝ) < B by linarith), ← abs_mul, abs_of_pos (show (0 : ℝ) < B by linarith)] at h1
    have t := abs_add_le (((R.rd (g * p)).toReal - x) * B) (x * B - 1)
    rw [show ((R.rd (g * p)).toReal - x) * B + (x * B - 1) = (R.rd (g * p)).toReal * B - 1 by ring] at t
    have h2 : |x * B - 1| ≤ 2.001 * u := by rw [hxe]; exact hgp
    have h3 : x * B ≤ 1 + 2.001 * u := by linarith [(abs_le.1 h2).2]
    nlinarith
  have hr0 : R.rd (g * p) ≠ 0 := fun h0 => by
    rw [h0] at hkB
    have := (abs_le.1 hkB).1
    simp at this
    linarith
  refine ⟨g, R.rd (g * p), hgt, hg126, by rw [hpe, v2]; exact hgp, hn1.1, hr0, R.idem _, hkB, fun j => ?_⟩
  obtain ⟨s, hs, hd⟩ := hD i
  have hmul : mulWith id (.num true g) (.num false p) = .num true (g * p) := by
    simp [mulWith, hgt, hpt]
  have hs' : s = .num true (R.rd (g * p)) := by
    refine (dot_one hs).2 (lossBackward R P label i (label i), P i (label i)) true (g * p) ?_ ?_ hr0
    · letI : DecidablePred ZeroPair := fun _ => Classical.propDecidable _
      refine filter_ofFn (fun j => (lossBackward R P label i j, P i j)) (fun q => ¬ ZeroPair q) (L := label i) fun j => ?_
      rw [hG]
      obtain ⟨y, hy1, -, hy⟩ := softmax_range h hX hn i j
      have hyt : y ≠ ⊤ := ne_top_of_le_ne_top ENNReal.one_ne_top hy1
      constructor
      · intro hnz
        by_contra hj
        refine hnz ⟨false, ?_⟩
        simp [hj, hy, mulWith, hyt]
      · intro hj ⟨t, ht⟩
        rw [if_pos hj, hj, hpe] at ht
        simp only [hmul] at ht
        have := (Flt.num.inj ht).2
        rw [this, rd_zero] at hr0
        exact hr0 rfl
    · simp only [hG, if_true, hpe, hmul]
  have := hd j
  rwa [hs', hG] at this

/-- **C102**: the gradient with respect to the logits is `(p - onehot) / B` up to `8 u / B`, if the probabilities of the labels are
normal numbers. -/
theorem gradient_error_partial (h : SoftmaxForward R F X P) (hX : ∀ i j, (X i j).Finite) (hn : n ≤ 2 ^ 24) (hB : 0 < B) (hB' : B ≤ 2 ^ 24)
    (hP : ∀ i, ∃ p : ℝ≥0∞, minNormal ≤ p ∧ P i (label i) = .num false p) (hG₀ : ∀ i j, Zero (G₀ i j))
    (hD : SoftmaxInputGrad R P (lossBackward R P label) G₀ D) (i : Fin B) (j : Fin n) :
    (D i j).Finite ∧ |(D i j).val - ((P i j).val - if j = label i then 1 else 0) / B| ≤ 8 * u / B ∧
      (j ≠ label i → |(D i j).val - (P i j).val / B| ≤ 5 * u * ((P i j).val / B) + η) := by
  obtain ⟨g, m, hgt, hg126, hg, hmt, hm0, hmr, hm, hd⟩ := row_parts h hX hn hB hB' hP hD i
  have hu := u_pos
  have hus := u_small
  have hη := η_pos
  have hBr : (1 : ℝ) ≤ B := by exact_mod_cast hB
  have hBr' : (B : ℝ) ≤ 2 ^ 24 := by exact_mod_cast hB'
  have hB0 : (0 : ℝ) < B := by linarith
  obtain ⟨y, hy1, -, hy⟩ := softmax_range h hX hn i j
  have hyt : y ≠ ⊤ := ne_top_of_le_ne_top ENNReal.one_ne_top hy1
  have hyf : (P i j).Finite := by rw [hy]; exact hyt
  have hyv : (P i j).val = y.toReal := by rw [hy]; simp [Flt.val]
  have hy0 : 0 ≤ y.toReal := ENNReal.toReal_nonneg
  have hyle : y.toReal ≤ 1 := by simpa using ENNReal.toReal_mono ENNReal.one_ne_top hy1
  have hmm : 0 ≤ m.toReal := ENNReal.toReal_nonneg
  have hgg : 0 ≤ g.toReal := ENNReal.toReal_nonneg
  obtain ⟨m1, m2⟩ := abs_le.1 hm
  have hmB : m.toReal ≤ 2 := by nlinarith
  have hbig : (2 : ℝ) ^ 127 ≤ big := by unfold big; norm_num
  have hηB : 1000 * η ≤ u * (1 / B) := by
    rw [mul_one_div, le_div_iff₀ hB0]
    have : 1000 * η * B ≤ 1000 * η * 2 ^ 24 := mul_le_mul_of_nonneg_left hBr' (by positivity)
    refine this.trans ?_
    unfold η u
    norm_num
  set β := 1 / (B : ℝ) with hβ
  have hβ0 : 0 < β := by positivity
  have hβB : β * B = 1 := by rw [hβ]; field_simp
  have hmβ : |m.toReal - β| ≤ 3.003 * u * β := by
    rw [show m.toReal - β = (m.toReal * B - 1) * β by rw [hβ]; field_simp, abs_mul, abs_of_pos hβ0]
    exact mul_le_mul_of_nonneg_right hm hβ0.le
  obtain ⟨w1, w2⟩ := abs_le.1 hmβ
  have hdj := hd j
  by_cases hj : j = label i
  · rw [if_pos hj] at hdj ⊢
    subst hj
    rw [hyv] at hg ⊢
    have e : (Flt.num true g).val + (Flt.num true m).neg.val = m.toReal - g.toReal := by
      simp [Flt.val, Flt.neg]; ring
    have habs : |m.toReal - g.toReal| ≤ 2 ^ 126 + 2 := abs_le.2 ⟨by linarith, by linarith [show (0:ℝ) ≤ 2 ^ 126 by positivity]⟩
    have n1 := near_addWith (R := R) (a := .num true g) (b := (Flt.num true m).neg) hgt hmt (by
      rw [e]; refine habs.trans (le_trans ?_ hbig); norm_num)
    rw [e] at n1
    change FloatDotP.Near (sub R (.num true g) (.num true m)) _ at n1
    set d := sub R (.num true g) (.num true m) with hdd
    have hgβ : |y.toReal * g.toReal - β| ≤ 2.001 * u * β := by
      rw [show y.toReal * g.toReal - β = (g.toReal * y.toReal * B - 1) * β by rw [hβ]; field_simp, abs_mul, abs_of_pos hβ0]
      exact mul_le_mul_of_nonneg_right hg hβ0.le
    have hc1 : |y.toReal * (m.toReal - g.toReal) - (y.toReal - 1) * β| ≤ 5.004 * u * β := by
      have t := abs_sub (y.toReal * (m.toReal - β)) (y.toReal * g.toReal - β)
      rw [show y.toReal * (m.toReal - β) - (y.toReal * g.toReal - β) = y.toReal * (m.toReal - g.toReal) - (y.toReal - 1) * β by ring] at t
      refine t.trans ?_
      rw [abs_mul, abs_of_nonneg hy0]
      have : y.toReal * |m.toReal - β| ≤ 1 * (3.003 * u * β) := mul_le_mul hyle hmβ (abs_nonneg _) (by norm_num)
      linarith
    have hc2 : |y.toReal * (m.toReal - g.toReal)| ≤ 1.001 * β := by
      have t := abs_sub_abs_le_abs_sub (y.toReal * (m.toReal - g.toReal)) ((y.toReal - 1) * β)
      have t2 : |(y.toReal - 1) * β| ≤ β := by
        rw [abs_mul, abs_of_pos hβ0]
        have : |y.toReal - 1| ≤ 1 := abs_le.2 ⟨by linarith, by linarith⟩
        nlinarith
      nlinarith
    have hc3 : |y.toReal * d.val - y.toReal * (m.toReal - g.toReal)| ≤ 1.002 * u * β := by
      rw [← mul_sub, abs_mul, abs_of_nonneg hy0]
      have t := mul_le_mul_of_nonneg_left n1.2 hy0
      have t1 : y.toReal * |m.toReal - g.toReal| ≤ 1.001 * β := by
        rwa [abs_mul, abs_of_nonneg hy0] at hc2
      have t2 : y.toReal * η ≤ η := by nlinarith
      have t3 := mul_le_mul_of_nonneg_left t1 hu.le
      refine t.trans ?_
      rw [mul_add, mul_left_comm]
      linarith
    have hc4 : |y.toReal * d.val| ≤ 1.003 * β := by
      have t := abs_sub_abs_le_abs_sub (y.toReal * d.val) (y.toReal * (m.toReal - g.toReal))
      nlinarith
    have hβ1 : β ≤ 1 := by rw [hβ, div_le_one hB0]; exact hBr
    have n2 := near_mulAdd hdj (hG₀ i _) hyf n1.1 (by
      rw [hyv]; refine hc4.trans (le_trans ?_ hbig); norm_num; linarith)
    rw [hyv] at n2
    refine ⟨n2.1, ?_, fun hne => absurd rfl hne⟩
    have t1 := abs_sub_le (D i (label i)).val (y.toReal * d.val) ((y.toReal - 1) / B)
    have t2 := abs_sub_le (y.toReal * d.val) (y.toReal * (m.toReal - g.toReal)) ((y.toReal - 1) / B)
    have e2 : (y.toReal - 1) / B = (y.toReal - 1) * β := by rw [hβ]; ring
    have e3 : 8 * u / B = 8 * u * β := by rw [hβ]; ring
    rw [e2] at t1 t2 ⊢
    rw [e3]
    have t3 := n2.2
    have t4 := mul_le_mul_of_nonneg_left hc4 hu.le
    linarith
  · rw [if_neg hj] at hdj ⊢
    have e : sub R (.num false 0) (.num true m) = .num false m := by
      show addWith R.rd (.num false 0) (.num false m) = _
      rw [zero_addWith hm0, hmr]
    rw [e] at hdj
    have v : (Flt.num false m).val = m.toReal := by simp [Flt.val]
    have n2 := near_mulAdd hdj (hG₀ i _) hyf hmt (by
      rw [hyv, v, abs_of_nonneg (mul_nonneg hy0 hmm)]
      refine le_trans ?_ hbig
      have : y.toReal * m.toReal ≤ 1 * 2 := mul_le_mul hyle hmB hmm (by norm_num)
      norm_num at this ⊢
      linarith)
    rw [hyv, v] at n2
    have key : |(D i j).val - y.toReal * β| ≤ 5 * u * (y.toReal * β) + η := by
      have t1 := abs_sub_le (D i j).val (y.toReal * m.toReal) (y.toReal * β)
      have t2 : |y.toReal * m.toReal - y.toReal * β| ≤ y.toReal * (3.003 * u * β) := by
        rw [← mul_sub, abs_mul, abs_of_nonneg hy0]
        exact mul_le_mul_of_nonneg_left hmβ hy0
      have t3 := n2.2
      rw [abs_of_nonneg (mul_nonneg hy0 hmm)] at t3
      have t4 : m.toReal ≤ 1.001 * β := by nlinarith
      have t5 : u * (y.toReal * m.toReal) ≤ u * (y.toReal * (1.001 * β)) :=
        mul_le_mul_of_nonneg_left (mul_le_mul_of_nonneg_left t4 hy0) hu.le
      have t6 : 0 ≤ u * (y.toReal * β) := by positivity
      linarith
    have e2 : (P i j).val / B = y.toReal * β := by rw [hyv, hβ]; ring
    refine ⟨n2.1, ?_, fun _ => by rw [e2]; exact key⟩
    rw [sub_zero, e2, show 8 * u / B = 8 * u * β by rw [hβ]; ring]
    refine key.trans ?_
    have t7 : u * (y.toReal * β) ≤ u * (1 * β) := mul_le_mul_of_nonneg_left (mul_le_mul_of_nonneg_right hyle hβ0.le) hu.le
    have t8 : 0 < u * β := by positivity
    linarith

/-- **C102** for predictions that are right, however certain. -/
theorem gradient_error_max (h : SoftmaxForward R F X P) (hX : ∀ i j, (X i j).Finite) (hn : n ≤ 2 ^ 24) (hB : 0 < B) (hB' : B ≤ 2 ^ 24)
    (hl : ∀ i j, (X i j).val ≤ (X i (label i)).val) (hG₀ : ∀ i j, Zero (G₀ i j))
    (hD : SoftmaxInputGrad R P (lossBackward R P label) G₀ D) (i : Fin B) (j : Fin n) :
    (D i j).Finite ∧ |(D i j).val - ((P i j).val - if j = label i then 1 else 0) / B| ≤ 8 * u / B := by
  have := gradient_error_partial h hX hn hB hB' (fun i => ?_) hG₀ hD i j
  · exact ⟨this.1, this.2.1⟩
  obtain ⟨y, hy, -, he⟩ := softmax_max h hX hn i (label i)
    ⟨⟨_, rfl⟩, fun j => by rw [lt_iff (hX i _) (hX i j)]; exact not_lt.2 (hl i j)⟩
  refine ⟨y, le_trans ?_ hy, he⟩
  rw [minNormal]
  exact ENNReal.inv_le_inv.2 (pow_le_pow_right₀ (by norm_num) (by norm_num))

/-- The rest of **C102**: the bound for labels of any probability. -/
def GradientError (R : Rounding) (F : Libm R) : Prop := ∀ (B n : Nat) (X P D : Fin B → Fin n → Flt) (label : Fin B → Fin n),
  SoftmaxForward R F X P → (∀ i j, (X i j).Finite) → n ≤ 2 ^ 24 → 0 < B → B ≤ 2 ^ 24 →
    SoftmaxInputGrad R P (lossBackward R P label) (fun _ _ => 0) D →
    ∀ i j, (D i j).Finite ∧ |(D i j).val - ((P i j).val - if j = label i then 1 else 0) / B| ≤ 8 * u / B

/-- It is false: for the logits 90 and 0 and the second label the gradient is NaN. -/
theorem gradient_error_refuted : ¬ GradientError binary32 libm := fun hg => by
  obtain ⟨X, hX, ⟨P, hP⟩, hN⟩ := gradient_90
  obtain ⟨D, hD⟩ := inputGrad_exists (R := binary32) (P := P) (G := lossBackward binary32 P fun _ => 1) (G₀ := fun _ _ => 0) (by norm_num)
  obtain ⟨loss, hloss⟩ := sum_exists (R := binary32) (List.ofFn fun i : Fin 1 => libm.log (P i 1)) (by simp)
  have h1 := (hg 1 2 X P D (fun _ => 1) hP hX (by norm_num) (by norm_num) (by norm_num) hD 0 1).1
  rw [(hN P _ D hP ⟨loss, hloss, rfl⟩ hD).2] at h1
  exact h1

/-- Three rows of ten logits whose labels are the largest ones. -/
example (X : Fin 3 → Fin 10 → Flt) (hX : ∀ i j, (X i j).Finite) (label : Fin 3 → Fin 10)
    (hl : ∀ i j, (X i j).val ≤ (X i (label i)).val) :
    ∃ P D, SoftmaxForward binary32 libm X P ∧ SoftmaxInputGrad binary32 P (lossBackward binary32 P label) (fun _ _ => 0) D ∧
      ∀ i j, |(D i j).val - ((P i j).val - if j = label i then 1 else 0) / 3| ≤ 8 * u / 3 := by
  obtain ⟨P, hP⟩ := softmax_exists (R := binary32) (F := libm) hX (by norm_num)
  obtain ⟨D, hD⟩ := inputGrad_exists (R := binary32) (P := P) (G := lossBackward binary32 P label) (G₀ := fun _ _ => 0) (by norm_num)
  exact ⟨P, D, hP, hD, fun i j => by
    have := (gradient_error_max hP hX (by norm_num) (by norm_num) (by norm_num) hl (fun _ _ => ⟨false, rfl⟩) hD i j).2
    simpa using this⟩

end gradient

end

end DW.Props.FloatGradP
