import Verif.Props.FloatLoss
import Verif.Lemmas.Binary32
/-!
# C100: the products of matrices, in `float`

Whatever the order of summation and whether or not products are fused with sums, an output of `Linear` differs from the exact value by
at most a bound that depends on the number of inputs and on the sum of the magnitudes of the products.
-/

set_option autoImplicit false

namespace DW.Props.FloatDotP

open DW.Float DW.Props.FloatSoftmaxP DW.Props.FloatLossP
open scoped ENNReal

variable {R : Rounding} {F : Libm R} {B n k : Nat}

noncomputable section

/-- The relative error of an operation. -/
def u : ℝ := 1 / 2 ^ 24

/-- The absolute error of an operation with a tiny result. -/
def η : ℝ := 1 / 2 ^ 150

/-- The largest `float`. -/
def big : ℝ := 16777215 * 2 ^ 104

theorem u_pos : 0 < u := by unfold u; positivity

theorem η_pos : 0 < η := by unfold η; positivity

theorem rd_error {m : ℝ≥0∞} (hm : m ≠ ⊤) (h : m.toReal ≤ big) : R.rd m ≠ ⊤ ∧ |(R.rd m).toReal - m.toReal| ≤ u * m.toReal + η := by
  have hmax : m ≤ maxFloat := by
    rw [maxFloat_eq, ← ENNReal.ofReal_toReal hm]
    exact ENNReal.ofReal_le_ofReal h
  have key : ∀ d : ℝ≥0∞, d ≠ ⊤ → R.rd m ≤ m + d → m ≤ R.rd m + d → R.rd m ≠ ⊤ ∧ |(R.rd m).toReal - m.toReal| ≤ d.toReal := by
    intro d hd h1 h2
    have ht : R.rd m ≠ ⊤ := ne_top_of_le_ne_top (ENNReal.add_ne_top.2 ⟨hm, hd⟩) h1
    have h1' := ENNReal.toReal_mono (ENNReal.add_ne_top.2 ⟨hm, hd⟩) h1
    have h2' := ENNReal.toReal_mono (ENNReal.add_ne_top.2 ⟨ht, hd⟩) h2
    rw [ENNReal.toReal_add hm hd] at h1'
    rw [ENNReal.toReal_add ht hd] at h2'
    exact ⟨ht, abs_le.2 ⟨by linarith, by linarith⟩⟩
  have hu : unit.toReal = u := by simp [unit, u]
  have hη : halfMin.toReal = η := by simp [halfMin, η]
  have hm0 : 0 ≤ m.toReal := ENNReal.toReal_nonneg
  rcases le_or_gt minNormal m with hn | hn
  · obtain ⟨h1, h2⟩ := key (unit * m) (ENNReal.mul_ne_top unit_lt_one.ne_top hm) (R.upper m hn hmax) (R.lower m hn hmax)
    rw [ENNReal.toReal_mul, hu] at h2
    exact ⟨h1, by linarith [η_pos]⟩
  · obtain ⟨h1, h2⟩ := key halfMin (by simp [halfMin]) (R.tinyUpper m hn) (R.tinyLower m hn)
    rw [hη] at h2
    exact ⟨h1, by nlinarith [u_pos]⟩

/-- `a` is finite and denotes `x` up to the error of one rounding. -/
def Near (a : Flt) (x : ℝ) : Prop := a.Finite ∧ |a.val - x| ≤ u * |x| + η

theorem near_num {s : Bool} {m : ℝ≥0∞} (hm : m ≠ ⊤) {x : ℝ} (hx : (Flt.num s m).val = x) (h : |x| ≤ big) : Near (.num s (R.rd m)) x := by
  subst hx
  have e : |(Flt.num s m).val| = m.toReal := by cases s <;> simp [Flt.val]
  rw [e] at h
  obtain ⟨h1, h2⟩ := rd_error (R := R) hm h
  refine ⟨h1, ?_⟩
  rw [e]
  cases s
  · simpa [Flt.val] using h2
  · simp only [Flt.val, if_true]
    rw [show -(R.rd m).toReal - -m.toReal = -((R.rd m).toReal - m.toReal) by ring, abs_neg]
    exact h2

theorem near_addWith {a b : Flt} (ha : a.Finite) (hb : b.Finite) (h : |a.val + b.val| ≤ big) :
    Near (addWith R.rd a b) (a.val + b.val) := by
  rcases a with _ | ⟨s, x⟩
  · exact ha.elim
  rcases b with _ | ⟨t, y⟩
  · exact hb.elim
  simp only [Flt.Finite] at ha hb
  simp only [addWith]
  split_ifs with h1 h2 h4
  · subst h1
    refine near_num (ENNReal.add_ne_top.2 ⟨ha, hb⟩) ?_ h
    cases s <;> simp [Flt.val, ENNReal.toReal_add ha hb, add_comm]
  · subst h2
    have e : (Flt.num s x).val + (Flt.num t x).val = 0 := by
      cases s <;> cases t <;> simp_all [Flt.val]
    rw [e]
    exact ⟨ENNReal.zero_ne_top, by simpa [Flt.val] using η_pos.le⟩
  · refine near_num (ne_top_of_le_ne_top ha tsub_le_self) ?_ h
    have e := ENNReal.toReal_sub_of_le h4.le ha
    cases s <;> cases t <;> simp_all [Flt.val] <;> ring
  · have h5 : x < y := lt_of_le_of_ne (not_lt.1 h4) h2
    refine near_num (ne_top_of_le_ne_top hb tsub_le_self) ?_ h
    have e := ENNReal.toReal_sub_of_le h5.le hb
    cases s <;> cases t <;> simp_all [Flt.val] <;> ring

theorem mulWith_id {a b : Flt} (ha : a.Finite) (hb : b.Finite) : (mulWith id a b).Finite ∧ (mulWith id a b).val = a.val * b.val := by
  rcases a with _ | ⟨s, x⟩
  · exact ha.elim
  rcases b with _ | ⟨t, y⟩
  · exact hb.elim
  simp only [Flt.Finite] at ha hb
  simp only [mulWith, ha, hb, and_false, false_and, or_false, if_false]
  refine ⟨ENNReal.mul_ne_top ha hb, ?_⟩
  cases s <;> cases t <;> simp [Flt.val]

theorem near_mul {a b : Flt} (ha : a.Finite) (hb : b.Finite) (h : |a.val * b.val| ≤ big) : Near (mul R a b) (a.val * b.val) := by
  have hid := mulWith_id ha hb
  rcases a with _ | ⟨s, x⟩
  · exact ha.elim
  rcases b with _ | ⟨t, y⟩
  · exact hb.elim
  simp only [Flt.Finite] at ha hb
  simp only [mulWith, ha, hb, and_false, false_and, or_false, if_false, id] at hid
  simp only [mul, mulWith, ha, hb, and_false, false_and, or_false, if_false]
  exact near_num hid.1 hid.2 h

theorem near_fma {a b c : Flt} (ha : a.Finite) (hb : b.Finite) (hc : c.Finite) (h : |a.val * b.val + c.val| ≤ big) :
    Near (fma R a b c) (a.val * b.val + c.val) := by
  obtain ⟨h1, h2⟩ := mulWith_id ha hb
  rw [← h2] at h ⊢
  exact near_addWith h1 hc h

/-- The exact sum of products. -/
def exact (l : List (Flt × Flt)) : ℝ := (l.map fun q => q.1.val * q.2.val).sum

/-- The sum of their magnitudes. -/
def size (l : List (Flt × Flt)) : ℝ := (l.map fun q => |q.1.val| * |q.2.val|).sum

theorem exact_append (l l' : List (Flt × Flt)) : exact (l ++ l') = exact l + exact l' := by simp [exact]

theorem size_append (l l' : List (Flt × Flt)) : size (l ++ l') = size l + size l' := by simp [size]

theorem size_nonneg (l : List (Flt × Flt)) : 0 ≤ size l :=
  List.sum_nonneg (by simp only [List.mem_map]; rintro _ ⟨q, -, rfl⟩; positivity)

theorem exact_le_size (l : List (Flt × Flt)) : |exact l| ≤ size l := by
  induction l with
  | nil => simp [exact, size]
  | cons q l ih =>
    simp only [exact, size, List.map_cons, List.sum_cons] at *
    rw [← abs_mul]
    exact (abs_add_le _ _).trans (add_le_add le_rfl ih)

/-- The growth of errors in a sum of `n` products. -/
def grow (n : ℕ) : ℝ := (1 + u) ^ (2 * n)

theorem grow_ge (n : ℕ) : 1 ≤ grow n := one_le_pow₀ (by linarith [u_pos])

theorem grow_add {p q : ℕ} (hq : 0 < q) : (1 + u) * grow p ≤ grow (p + q) := by
  have h : (1 + u) ^ (2 * p + 1) ≤ (1 + u) ^ (2 * (p + q)) := pow_le_pow_right₀ (by linarith [u_pos]) (by omega)
  rwa [pow_succ, mul_comm] at h

/-- The bound for a sum of products. -/
def bound (l : List (Flt × Flt)) : ℝ := (grow l.length - 1) * size l + (3 * l.length - 1) * η * grow l.length

theorem combine {x y A C S T p q : ℝ} (hA : (1 + u) * A ≤ C) (hp : 0 ≤ p) (hS : 0 ≤ S) (hx : x ≤ (A - 1) * S + p * η * A)
    {A' : ℝ} (hA' : (1 + u) * A' ≤ C) (hq : 0 ≤ q) (hT : 0 ≤ T) (hy : y ≤ (A' - 1) * T + q * η * A') (hC : 1 ≤ C) :
    x + y + u * (S + x + (T + y)) + η ≤ (C - 1) * (S + T) + (p + q + 1) * η * C := by
  have hu := u_pos
  have hη := η_pos
  have h1 : (1 + u) * x + u * S ≤ (C - 1) * S + p * η * C := by
    have a1 : (1 + u) * x ≤ (1 + u) * ((A - 1) * S + p * η * A) := mul_le_mul_of_nonneg_left hx (by linarith)
    have a2 : ((1 + u) * A) * S ≤ C * S := mul_le_mul_of_nonneg_right hA hS
    have a3 : p * η * ((1 + u) * A) ≤ p * η * C := mul_le_mul_of_nonneg_left hA (by positivity)
    nlinarith
  have h2 : (1 + u) * y + u * T ≤ (C - 1) * T + q * η * C := by
    have a1 : (1 + u) * y ≤ (1 + u) * ((A' - 1) * T + q * η * A') := mul_le_mul_of_nonneg_left hy (by linarith)
    have a2 : ((1 + u) * A') * T ≤ C * T := mul_le_mul_of_nonneg_right hA' hT
    have a3 : q * η * ((1 + u) * A') ≤ q * η * C := mul_le_mul_of_nonneg_left hA' (by positivity)
    nlinarith
  nlinarith

/-- The largest magnitude that such a sum can have. -/
def cap (l : List (Flt × Flt)) : ℝ := size l + bound l

theorem cap_eq (l : List (Flt × Flt)) : cap l = grow l.length * (size l + (3 * l.length - 1) * η) := by
  unfold cap bound; ring

theorem cap_append {l l' : List (Flt × Flt)} (h : l ≠ []) (h' : l' ≠ []) : cap l + cap l' ≤ cap (l ++ l') := by
  have hp : (1 : ℝ) ≤ l.length := by exact_mod_cast List.length_pos_iff.2 h
  have hq : (1 : ℝ) ≤ l'.length := by exact_mod_cast List.length_pos_iff.2 h'
  have g1 : grow l.length ≤ grow (l ++ l').length := pow_le_pow_right₀ (by linarith [u_pos]) (by simp)
  have g2 : grow l'.length ≤ grow (l ++ l').length := pow_le_pow_right₀ (by linarith [u_pos]) (by simp)
  have g0 := grow_ge (l ++ l').length
  have hη := η_pos
  rw [cap_eq, cap_eq, cap_eq, size_append]
  have a1 := mul_le_mul_of_nonneg_right g1 (show 0 ≤ size l + (3 * l.length - 1) * η from
    add_nonneg (size_nonneg l) (mul_nonneg (by linarith) hη.le))
  have a2 := mul_le_mul_of_nonneg_right g2 (show 0 ≤ size l' + (3 * l'.length - 1) * η from
    add_nonneg (size_nonneg l') (mul_nonneg (by linarith) hη.le))
  have : ((l ++ l').length : ℝ) = l.length + l'.length := by simp
  rw [this]
  generalize grow (l ++ l').length = G at *
  nlinarith [mul_nonneg (by linarith : (0 : ℝ) ≤ G) hη.le]

theorem cap_nonneg {l : List (Flt × Flt)} (h : l ≠ []) : 0 ≤ cap l := by
  have hp : (1 : ℝ) ≤ l.length := by exact_mod_cast List.length_pos_iff.2 h
  rw [cap_eq]
  exact mul_nonneg (by linarith [grow_ge l.length]) (add_nonneg (size_nonneg l) (mul_nonneg (by linarith) η_pos.le))

/-- Finite, and within the bound. -/
def Good (l : List (Flt × Flt)) (s : Flt) : Prop := s.Finite ∧ |s.val - exact l| ≤ bound l

theorem Good.le_cap {l : List (Flt × Flt)} {s : Flt} (h : Good l s) : |s.val| ≤ cap l := by
  have h1 := abs_sub_abs_le_abs_sub s.val (exact l)
  have h2 := exact_le_size l
  have h3 := h.2
  unfold cap
  linarith

theorem grow_one : grow 1 = (1 + u) ^ 2 := rfl

theorem good_mono {l : List (Flt × Flt)} {s : Flt} {e : ℝ} (hs : s.Finite) (he : |s.val - exact l| ≤ e) (h : e ≤ bound l) : Good l s :=
  ⟨hs, he.trans h⟩

/-- A sum of products of finite `float`s, in any order and with any of the products fused: finite and within the bound, unless the
bound is too large. -/
theorem dot_good {l : List (Flt × Flt)} {s : Flt} (h : DotOf R l s) (hl : ∀ q ∈ l, q.1.Finite ∧ q.2.Finite) (hc : cap l ≤ big) :
    Good l s := by
  have hu := u_pos
  have hη := η_pos
  have single : ∀ a b : Flt, exact [(a, b)] = a.val * b.val ∧ size [(a, b)] = |a.val * b.val| ∧
      bound [(a, b)] = ((1 + u) ^ 2 - 1) * |a.val * b.val| + 2 * η * (1 + u) ^ 2 := fun a b => by
    refine ⟨by simp [exact], by simp [size, abs_mul], ?_⟩
    simp only [bound, List.length_singleton, grow_one, Nat.cast_one]
    rw [show size [(a, b)] = |a.val * b.val| by simp [size, abs_mul]]
    ring
  have capSingle : ∀ a b : Flt, cap [(a, b)] = |a.val * b.val| + (((1 + u) ^ 2 - 1) * |a.val * b.val| + 2 * η * (1 + u) ^ 2) := fun a b => by
    rw [cap, (single a b).2.1, (single a b).2.2]
  induction h with
  | one a b =>
    obtain ⟨(h1 : a.Finite), (h2 : b.Finite)⟩ := hl (a, b) (by simp)
    rw [capSingle] at hc
    have hP := abs_nonneg (a.val * b.val)
    have p1 := mul_nonneg hu.le hP
    have p2 := mul_nonneg hu.le p1
    have p3 := mul_nonneg hη.le hu.le
    have p4 := mul_nonneg p3 hu.le
    obtain ⟨hf, he⟩ := near_mul (R := R) h1 h2 (by nlinarith)
    rw [← (single a b).1] at he
    refine good_mono hf he ?_
    rw [(single a b).1]
    rw [(single a b).2.2]
    nlinarith
  | start a b =>
    obtain ⟨(h1 : a.Finite), (h2 : b.Finite)⟩ := hl (a, b) (by simp)
    rw [capSingle] at hc
    have hP := abs_nonneg (a.val * b.val)
    have p1 := mul_nonneg hu.le hP
    have p2 := mul_nonneg hu.le p1
    have p3 := mul_nonneg hη.le hu.le
    have p4 := mul_nonneg p3 hu.le
    obtain ⟨hf, he⟩ := near_mul (R := R) h1 h2 (by nlinarith)
    have h0 : (0 : Flt).val = 0 := by show (Flt.num false 0).val = 0; simp [Flt.val]
    have hm : |(mul R a b).val| ≤ |a.val * b.val| + (u * |a.val * b.val| + η) := by
      have := abs_sub_abs_le_abs_sub (mul R a b).val (a.val * b.val)
      linarith
    have hm' := mul_le_mul_of_nonneg_left hm hu.le
    obtain ⟨hf', he'⟩ := near_addWith (R := R) (a := 0) (show (0 : Flt).Finite from ENNReal.zero_ne_top) hf (by
      rw [h0, zero_add]; nlinarith)
    rw [h0, zero_add] at he'
    have ht : |(DW.Float.add R 0 (mul R a b)).val - a.val * b.val| ≤ u * |(mul R a b).val| + η + (u * |a.val * b.val| + η) :=
      (abs_sub_le _ (mul R a b).val _).trans (add_le_add he' he)
    rw [← (single a b).1] at ht
    refine good_mono hf' ht ?_
    rw [(single a b).1]
    rw [(single a b).2.2]
    nlinarith
  | fmaStart a b =>
    obtain ⟨(h1 : a.Finite), (h2 : b.Finite)⟩ := hl (a, b) (by simp)
    rw [capSingle] at hc
    have hP := abs_nonneg (a.val * b.val)
    have p1 := mul_nonneg hu.le hP
    have p2 := mul_nonneg hu.le p1
    have p3 := mul_nonneg hη.le hu.le
    have p4 := mul_nonneg p3 hu.le
    have h0 : (0 : Flt).val = 0 := by show (Flt.num false 0).val = 0; simp [Flt.val]
    obtain ⟨hf, he⟩ := near_fma (R := R) h1 h2 (show (0 : Flt).Finite from ENNReal.zero_ne_top) (by rw [h0, add_zero]; nlinarith)
    rw [h0, add_zero] at he
    rw [← (single a b).1] at he
    refine good_mono hf he ?_
    rw [(single a b).1]
    rw [(single a b).2.2]
    nlinarith
  | @add l l' a b h h' ih ih' =>
    have hn := dot_ne_nil h
    have hn' := dot_ne_nil h'
    have hp : 0 < l.length := List.length_pos_iff.2 hn
    have hq : 0 < l'.length := List.length_pos_iff.2 hn'
    have hp' : (1 : ℝ) ≤ l.length := by exact_mod_cast hp
    have hq' : (1 : ℝ) ≤ l'.length := by exact_mod_cast hq
    have ha := cap_append hn hn'
    have c1 := cap_nonneg hn
    have c2 := cap_nonneg hn'
    have g1 := ih (fun q hq => hl q (by simp [hq])) (by linarith)
    have g2 := ih' (fun q hq => hl q (by simp [hq])) (by linarith)
    have l1 := g1.le_cap
    have l2 := g2.le_cap
    obtain ⟨hf, he⟩ := near_addWith (R := R) g1.1 g2.1 ((abs_add_le _ _).trans (by linarith))
    have hab : |a.val + b.val| ≤ cap l + cap l' := (abs_add_le _ _).trans (by linarith)
    have ht : |(DW.Float.add R a b).val - exact (l ++ l')| ≤ u * (cap l + cap l') + η + (bound l + bound l') := by
      have t1 := abs_sub_le (DW.Float.add R a b).val (a.val + b.val) (exact (l ++ l'))
      have t2 : |a.val + b.val - exact (l ++ l')| ≤ bound l + bound l' := by
        rw [exact_append, show a.val + b.val - (exact l + exact l') = (a.val - exact l) + (b.val - exact l') by ring]
        exact (abs_add_le _ _).trans (add_le_add g1.2 g2.2)
      have t3 : |(DW.Float.add R a b).val - (a.val + b.val)| ≤ u * (cap l + cap l') + η :=
        he.trans (by linarith [mul_le_mul_of_nonneg_left hab hu.le])
      linarith
    refine good_mono hf ht ?_
    have hC := combine (x := bound l) (y := bound l') (A := grow l.length) (A' := grow l'.length) (C := grow (l ++ l').length)
      (S := size l) (T := size l') (p := 3 * l.length - 1) (q := 3 * l'.length - 1)
      (by rw [List.length_append]; exact grow_add hq) (by linarith) (size_nonneg l) le_rfl
      (by rw [List.length_append, Nat.add_comm]; exact grow_add hp) (by linarith) (size_nonneg l') le_rfl (grow_ge _)
    have e : bound (l ++ l') = (grow (l ++ l').length - 1) * (size l + size l') +
        (3 * l.length - 1 + (3 * l'.length - 1) + 1) * η * grow (l ++ l').length := by
      rw [bound, size_append]
      have : ((l ++ l').length : ℝ) = l.length + l'.length := by simp
      rw [this]; ring
    rw [e]
    unfold cap
    linarith
  | @fma l a b c h ih =>
    have hn := dot_ne_nil h
    have hp : 0 < l.length := List.length_pos_iff.2 hn
    have hp' : (1 : ℝ) ≤ l.length := by exact_mod_cast hp
    have ha := cap_append hn (l' := [(a, b)]) (by simp)
    have c1 := cap_nonneg hn
    have c2 := cap_nonneg (l := [(a, b)]) (by simp)
    have g1 := ih (fun q hq => hl q (by simp [hq])) (by linarith)
    have l1 := g1.le_cap
    obtain ⟨(h1 : a.Finite), (h2 : b.Finite)⟩ := hl (a, b) (by simp)
    have hP := abs_nonneg (a.val * b.val)
    have p1 := mul_nonneg hu.le hP
    have p2 := mul_nonneg hu.le p1
    have p3 := mul_nonneg hη.le hu.le
    have p4 := mul_nonneg p3 hu.le
    have hab : |a.val * b.val + c.val| ≤ |a.val * b.val| + cap l := (abs_add_le _ _).trans (by linarith)
    have hcs := capSingle a b
    have hle : |a.val * b.val| ≤ cap [(a, b)] := by rw [hcs]; nlinarith
    obtain ⟨hf, he⟩ := near_fma (R := R) h1 h2 g1.1 (by linarith)
    have ht : |(DW.Float.fma R a b c).val - exact (l ++ [(a, b)])| ≤ u * (|a.val * b.val| + cap l) + η + bound l := by
      have t1 := abs_sub_le (DW.Float.fma R a b c).val (a.val * b.val + c.val) (exact (l ++ [(a, b)]))
      have t2 : |a.val * b.val + c.val - exact (l ++ [(a, b)])| ≤ bound l := by
        rw [exact_append, (single a b).1, show a.val * b.val + c.val - (exact l + a.val * b.val) = c.val - exact l by ring]
        exact g1.2
      have t3 : |(DW.Float.fma R a b c).val - (a.val * b.val + c.val)| ≤ u * (|a.val * b.val| + cap l) + η :=
        he.trans (by linarith [mul_le_mul_of_nonneg_left hab hu.le])
      linarith
    refine good_mono hf ht ?_
    have hC := combine (x := bound l) (y := 0) (A := grow l.length) (A' := 1) (C := grow (l ++ [(a, b)]).length)
      (S := size l) (T := size [(a, b)]) (p := 3 * l.length - 1) (q := 0)
      (by rw [List.length_append]; exact grow_add (by simp)) (by linarith) (size_nonneg l) le_rfl
      (by
        have := grow_add (p := 0) (q := (l ++ [(a, b)]).length) (by simp)
        simpa [grow] using this) le_rfl (size_nonneg _) (by simp) (grow_ge _)
    have hG := grow_ge (l ++ [(a, b)]).length
    have e : bound (l ++ [(a, b)]) = (grow (l ++ [(a, b)]).length - 1) * (size l + size [(a, b)]) +
        (3 * l.length - 1 + 0 + 1) * η * grow (l ++ [(a, b)]).length + 2 * η * grow (l ++ [(a, b)]).length := by
      rw [bound, size_append]
      have : ((l ++ [(a, b)]).length : ℝ) = l.length + 1 := by simp
      rw [this]; ring
    rw [e]
    rw [(single a b).2.1] at hC ⊢
    unfold cap
    nlinarith
  | @perm l l' a hp _ ih =>
    have e1 : ∀ {l l' : List (Flt × Flt)}, l.Perm l' → exact l = exact l' := fun h => (h.map _).sum_eq
    have e2 : ∀ {l l' : List (Flt × Flt)}, l.Perm l' → size l = size l' := fun h => (h.map _).sum_eq
    have eb : bound l = bound l' := by unfold bound; rw [e2 hp, hp.length_eq]
    have := ih (fun q hq => hl q (hp.mem_iff.1 hq)) (by unfold cap at hc ⊢; rwa [eb, e2 hp])
    exact ⟨this.1, by rw [← e1 hp, ← eb]; exact this.2⟩

/-! ## `Linear` -/

/-- The exact output of `Linear`. -/
def linear (x w : Fin n → Flt) (b : Flt) : ℝ := ∑ r, (x r).val * (w r).val + b.val

/-- The sum of the magnitudes of its terms. -/
def linearSize (x w : Fin n → Flt) (b : Flt) : ℝ := ∑ r, |(x r).val| * |(w r).val| + |b.val|

/-- The outputs of `Linear` with `n` inputs, for each order of summation: if `(1 + u) ^ (2 n + 1)` times the magnitudes does not
overflow, they are finite and within the bound around the exact values. -/
theorem linear_error {X : Fin B → Fin n → Flt} {W : Fin k → Fin n → Flt} {b : Fin k → Flt} {Y : Fin B → Fin k → Flt}
    (h : LinearForward R X W b Y) (hX : ∀ i r, (X i r).Finite) (hW : ∀ j r, (W j r).Finite) (hb : ∀ j, (b j).Finite)
    (i : Fin B) (j : Fin k) (hmax : (1 + u) ^ (2 * n + 1) * (linearSize (X i) (W j) (b j) + 3 * n * η) ≤ big) :
    (Y i j).Finite ∧ |(Y i j).val - linear (X i) (W j) (b j)| ≤
      ((1 + u) ^ (2 * n + 1) - 1) * linearSize (X i) (W j) (b j) + 3 * n * η * (1 + u) ^ (2 * n + 1) := by
  have hu := u_pos
  have hη := η_pos
  obtain ⟨z, hz, hY⟩ := h i j
  have hn : 0 < n := by
    rcases Nat.eq_zero_or_pos n with rfl | h
    · exact absurd (by simp) (dot_ne_nil hz)
    · exact h
  have hn' : (1 : ℝ) ≤ n := by exact_mod_cast hn
  set l := List.ofFn fun r => (X i r, W j r) with hl
  have hlen : l.length = n := by simp [hl]
  have hE : exact l = ∑ r, (X i r).val * (W j r).val := by simp [exact, hl, List.map_ofFn, List.sum_ofFn]
  have hS : size l = ∑ r, |(X i r).val| * |(W j r).val| := by simp [size, hl, List.map_ofFn, List.sum_ofFn]
  have hlin : linear (X i) (W j) (b j) = exact l + (b j).val := by rw [linear, hE]
  have hsz : linearSize (X i) (W j) (b j) = size l + |(b j).val| := by rw [linearSize, hS]
  rw [hsz] at hmax ⊢
  rw [hlin]
  have hG : (1 + u) ^ (2 * n + 1) = (1 + u) * grow n := by rw [pow_succ, mul_comm]; rfl
  rw [hG] at hmax ⊢
  have hg := grow_ge n
  have hs0 := size_nonneg l
  have hb0 := abs_nonneg (b j).val
  have hcap : cap l + |(b j).val| ≤ big := by
    rw [cap_eq, hlen]
    refine le_trans ?_ hmax
    have a1 : 0 ≤ grow n * u * (size l + |(b j).val| + 3 * n * η) := by positivity
    have a2 : 0 ≤ (grow n - 1) * |(b j).val| := mul_nonneg (by linarith) hb0
    have a3 : 0 ≤ grow n * η := by positivity
    nlinarith
  have hgood := dot_good hz (fun q hq => by
    obtain ⟨r, rfl⟩ := List.mem_ofFn.1 hq
    exact ⟨hX i r, hW j r⟩) (by linarith)
  have hz' := hgood.le_cap
  obtain ⟨hf, he⟩ := near_addWith (R := R) hgood.1 (hb j) ((abs_add_le _ _).trans (by linarith))
  rw [hY]
  refine ⟨hf, ?_⟩
  have hsum : |z.val + (b j).val| ≤ cap l + |(b j).val| := (abs_add_le _ _).trans (by linarith)
  have t1 := abs_sub_le (add R z (b j)).val (z.val + (b j).val) (exact l + (b j).val)
  have t2 : |z.val + (b j).val - (exact l + (b j).val)| ≤ bound l := by
    rw [show z.val + (b j).val - (exact l + (b j).val) = z.val - exact l by ring]
    exact hgood.2
  have t3 : |(add R z (b j)).val - (z.val + (b j).val)| ≤ u * (cap l + |(b j).val|) + η :=
    he.trans (by linarith [mul_le_mul_of_nonneg_left hsum hu.le])
  refine (t1.trans (add_le_add t3 t2)).trans ?_
  unfold cap bound
  rw [hlen]
  have a1 : 0 ≤ (1 + u) * (grow n - 1) * |(b j).val| := mul_nonneg (mul_nonneg (by linarith) (by linarith)) hb0
  have a2 : 0 ≤ η * ((1 + u) * grow n - 1) := mul_nonneg hη.le (by nlinarith)
  nlinarith

/-- Factors as they appear in the bound. -/
theorem grow_le_two (hn : n ≤ 2 ^ 22) : (1 + u) ^ (2 * n + 1) ≤ 2 := by
  have h1 : (1 + u) ^ (2 * n + 1) ≤ Real.exp u ^ (2 * n + 1) :=
    pow_le_pow_left₀ (by linarith [u_pos]) (by linarith [Real.add_one_le_exp u]) _
  rw [← Real.exp_nat_mul] at h1
  have hn' : (n : ℝ) ≤ 4194304 := by exact_mod_cast hn
  have h2 : ((2 * n + 1 : ℕ) : ℝ) * u ≤ Real.log 2 := by
    have := Real.log_two_gt_d9
    push_cast
    unfold u
    have : (2 * (n : ℝ) + 1) * (1 / 2 ^ 24) ≤ 0.6 := by
      rw [mul_one_div, div_le_iff₀ (by norm_num)]
      norm_num
      linarith
    linarith
  exact h1.trans ((Real.exp_le_exp.2 h2).trans (Real.exp_log (by norm_num)).le)

/-- With up to `2 ^ 22` inputs, and terms whose magnitudes add up to at most `2 ^ 120`, nothing overflows. -/
theorem linear_finite {X : Fin B → Fin n → Flt} {W : Fin k → Fin n → Flt} {b : Fin k → Flt} {Y : Fin B → Fin k → Flt}
    (h : LinearForward R X W b Y) (hX : ∀ i r, (X i r).Finite) (hW : ∀ j r, (W j r).Finite) (hb : ∀ j, (b j).Finite)
    (i : Fin B) (j : Fin k) (hn : n ≤ 2 ^ 22) (hmax : linearSize (X i) (W j) (b j) ≤ 2 ^ 120) : (Y i j).Finite := by
  refine (linear_error h hX hW hb i j ?_).1
  have hg := grow_le_two hn
  have hn' : (n : ℝ) ≤ 4194304 := by exact_mod_cast hn
  have hs : 0 ≤ linearSize (X i) (W j) (b j) := by unfold linearSize; positivity
  have hη := η_pos
  have h3 : 3 * (n : ℝ) * η ≤ 1 := by
    unfold η
    rw [mul_one_div, div_le_iff₀ (by norm_num)]
    norm_num
    linarith
  have h3' : 0 ≤ 3 * (n : ℝ) * η := by positivity
  calc (1 + u) ^ (2 * n + 1) * (linearSize (X i) (W j) (b j) + 3 * n * η) ≤ 2 * (2 ^ 120 + 1) :=
        mul_le_mul hg (add_le_add hmax h3) (by linarith) (by norm_num)
    _ ≤ big := by unfold big; norm_num

/-- Two executions, for example with another number of threads or with other vector instructions, differ by at most twice the bound. -/
theorem linear_orders_agree {X : Fin B → Fin n → Flt} {W : Fin k → Fin n → Flt} {b : Fin k → Flt} {Y Y' : Fin B → Fin k → Flt}
    {R' : Rounding} (h : LinearForward R X W b Y) (h' : LinearForward R' X W b Y') (hX : ∀ i r, (X i r).Finite)
    (hW : ∀ j r, (W j r).Finite) (hb : ∀ j, (b j).Finite) (i : Fin B) (j : Fin k)
    (hmax : (1 + u) ^ (2 * n + 1) * (linearSize (X i) (W j) (b j) + 3 * n * η) ≤ big) :
    |(Y i j).val - (Y' i j).val| ≤
      2 * (((1 + u) ^ (2 * n + 1) - 1) * linearSize (X i) (W j) (b j) + 3 * n * η * (1 + u) ^ (2 * n + 1)) := by
  have h1 := (linear_error h hX hW hb i j hmax).2
  have h2 := (linear_error h' hX hW hb i j hmax).2
  rw [abs_sub_comm] at h2
  have := abs_sub_le (Y i j).val (linear (X i) (W j) (b j)) (Y' i j).val
  linarith

/-- Not vacuous: 1000 inputs of magnitude up to 10 and weights of magnitude up to 1, in `float` as it is. -/
example (X : Fin 5 → Fin 1000 → Flt) (W : Fin 3 → Fin 1000 → Flt) (hX : ∀ i r, (X i r).Finite ∧ |(X i r).val| ≤ 10)
    (hW : ∀ j r, (W j r).Finite ∧ |(W j r).val| ≤ 1) :
    ∃ Y, LinearForward binary32 X W (fun _ => 1) Y ∧ ∀ i j, (Y i j).Finite := by
  choose z hz using fun (i : Fin 5) (j : Fin 3) => dot_exists (R := binary32) _ (ofFn_ne (by norm_num) fun r => (X i r, W j r))
  have h : LinearForward binary32 X W (fun _ => 1) fun i j => add binary32 (z i j) 1 := fun i j => ⟨z i j, hz i j, rfl⟩
  refine ⟨_, h, fun i j => linear_finite h (fun i r => (hX i r).1) (fun j r => (hW j r).1) (fun _ => ENNReal.one_ne_top) i j (by norm_num) ?_⟩
  have h1 : (1 : Flt).val = 1 := by show (Flt.num false 1).val = 1; simp [Flt.val]
  have hs : ∑ r, |(X i r).val| * |(W j r).val| ≤ ∑ _r : Fin 1000, (10 : ℝ) :=
    Finset.sum_le_sum fun r _ => by nlinarith [(hX i r).2, (hW j r).2, abs_nonneg (X i r).val, abs_nonneg (W j r).val]
  rw [linearSize, h1]
  simp at hs ⊢
  norm_num
  linarith

end

end DW.Props.FloatDotP
