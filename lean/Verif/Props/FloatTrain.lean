import Verif.Props.FloatAccuracy
import Mathlib.Analysis.SpecialFunctions.Log.Deriv
/-!
# C104: a training step in `float`

One iteration of training a classifier that consists of a `Linear` layer and `Softmax`, compared with the step of gradient descent
with real numbers from the same parameters.
-/

set_option autoImplicit false

namespace DW.Props.FloatTrainP

open DW.Float DW.Props.FloatSoftmaxP DW.Props.FloatLossP DW.Props.FloatDotP DW.Props.FloatGradP DW.Props.FloatAccuracyP
open scoped ENNReal

variable {R : Rounding} {F : Libm R} {B n k : Nat}

noncomputable section

/-! ## Softmax of slightly different numbers -/

theorem softmax_nonneg (x : Fin k → ℝ) (j : Fin k) : 0 ≤ softmax x j := by
  unfold softmax
  have : 0 ≤ ∑ r, Real.exp (x r) := Finset.sum_nonneg fun r _ => (Real.exp_pos _).le
  positivity

theorem softmax_le_one (x : Fin k → ℝ) (j : Fin k) : softmax x j ≤ 1 := by
  have h : Real.exp (x j) ≤ ∑ r, Real.exp (x r) :=
    Finset.single_le_sum (f := fun r => Real.exp (x r)) (fun r _ => (Real.exp_pos _).le) (Finset.mem_univ j)
  exact div_le_one_of_le₀ h ((Real.exp_pos _).le.trans h)

theorem softmax_ratio {x y : Fin k → ℝ} {δ : ℝ} (h : ∀ j, |x j - y j| ≤ δ) (j : Fin k) : softmax x j ≤ Real.exp (2 * δ) * softmax y j := by
  have hx : Real.exp (x j) ≤ Real.exp δ * Real.exp (y j) := by
    rw [← Real.exp_add]
    exact Real.exp_le_exp.2 (by linarith [(abs_le.1 (h j)).2])
  have hs : ∑ r, Real.exp (y r) ≤ Real.exp δ * ∑ r, Real.exp (x r) := by
    rw [Finset.mul_sum]
    refine Finset.sum_le_sum fun r _ => ?_
    rw [← Real.exp_add]
    exact Real.exp_le_exp.2 (by linarith [(abs_le.1 (h r)).1])
  have p1 : 0 < ∑ r, Real.exp (x r) := Finset.sum_pos (fun r _ => Real.exp_pos _) ⟨j, Finset.mem_univ j⟩
  have p2 : 0 < ∑ r, Real.exp (y r) := Finset.sum_pos (fun r _ => Real.exp_pos _) ⟨j, Finset.mem_univ j⟩
  unfold softmax
  rw [div_le_iff₀ p1]
  have e : Real.exp (2 * δ) = Real.exp δ * Real.exp δ := by rw [← Real.exp_add]; ring_nf
  calc Real.exp (x j) ≤ Real.exp δ * Real.exp (y j) := hx
    _ = Real.exp δ * (Real.exp (y j) / ∑ r, Real.exp (y r)) * ∑ r, Real.exp (y r) := by field_simp
    _ ≤ Real.exp δ * (Real.exp (y j) / ∑ r, Real.exp (y r)) * (Real.exp δ * ∑ r, Real.exp (x r)) :=
      mul_le_mul_of_nonneg_left hs (by positivity)
    _ = _ := by rw [e]; ring

theorem softmax_close {x y : Fin k → ℝ} {δ : ℝ} (hδ : δ ≤ 1 / 4) (h : ∀ j, |x j - y j| ≤ δ) (j : Fin k) :
    |softmax x j - softmax y j| ≤ 3 * δ := by
  have hδ0 : 0 ≤ δ := (abs_nonneg _).trans (h j)
  have e : Real.exp (2 * δ) ≤ 1 + 3 * δ := by
    have := (abs_le.1 (Real.abs_exp_sub_one_sub_id_le (x := 2 * δ) (by rw [abs_of_nonneg (by linarith)]; linarith))).2
    nlinarith
  have r1 := softmax_ratio h j
  have r2 := softmax_ratio (x := y) (y := x) (fun j => by rw [abs_sub_comm]; exact h j) j
  have p1 := softmax_nonneg x j
  have p2 := softmax_nonneg y j
  have q1 := softmax_le_one x j
  have q2 := softmax_le_one y j
  have s1 := mul_le_mul_of_nonneg_right e p2
  have s2 := mul_le_mul_of_nonneg_right e p1
  rw [abs_le]
  constructor <;> nlinarith

/-! ## Sums of numbers of any sign -/

/-- The sum of the magnitudes. -/
def mass (l : List Flt) : ℝ := (l.map fun a => |a.val|).sum

theorem mass_append (l l' : List Flt) : mass (l ++ l') = mass l + mass l' := by simp [mass]

theorem mass_nonneg (l : List Flt) : 0 ≤ mass l :=
  List.sum_nonneg (by simp only [List.mem_map]; rintro _ ⟨q, -, rfl⟩; positivity)

theorem total_le_mass (l : List Flt) : |total l| ≤ mass l := by
  induction l with
  | nil => simp [total, mass]
  | cons q l ih =>
    simp only [total, mass, List.map_cons, List.sum_cons] at *
    exact (abs_add_le _ _).trans (add_le_add le_rfl ih)

theorem sum_ne_nil {l : List Flt} {s : Flt} (h : SumOf R l s) : l ≠ [] := by
  induction h with
  | one | start => simp
  | add _ _ ih => simp [ih]
  | perm hp _ ih => exact fun h => ih (List.perm_nil.1 (h ▸ hp))

/-- A sum in any order: `g` bounds the growth by the roundings. -/
theorem sum_good {l : List Flt} {s : Flt} (h : SumOf R l s) {g : ℝ} (hl : ∀ a ∈ l, a.Finite) (hg : (1 + u) ^ l.length ≤ g)
    (hc : g * (mass l + 2 * l.length * η) ≤ big) :
    s.Finite ∧ |s.val - total l| ≤ ((1 + u) ^ l.length - 1) * mass l + (2 * l.length - 1) * η * (1 + u) ^ l.length := by
  have hu := u_pos
  have hη := η_pos
  induction h with
  | one a =>
    refine ⟨hl a (by simp), ?_⟩
    simp [total, mass]
    positivity
  | start a =>
    have ha := hl a (by simp)
    have v0 : (0 : Flt).val = 0 := by show (Flt.num false 0).val = 0; simp [Flt.val]
    have hb : |(0 : Flt).val + a.val| ≤ big := by
      rw [v0, zero_add]
      refine le_trans ?_ hc
      have h1 : mass [a] = |a.val| := by simp [mass]
      have h2 : 1 ≤ g := (one_le_pow₀ (by linarith)).trans hg
      rw [h1]
      have : 0 ≤ 2 * (([a] : List Flt).length : ℝ) * η := by positivity
      nlinarith [abs_nonneg a.val]
    have near := near_addWith (R := R) (a := 0) (b := a) ENNReal.zero_ne_top ha hb
    rw [v0, zero_add] at near
    have ht : total [a] = a.val := by simp [total]
    rw [ht]
    refine ⟨near.1, near.2.trans ?_⟩
    simp [mass]
    nlinarith
  | @add l l' a b h₁ h₂ ih₁ ih₂ =>
    have n1 : 0 < l.length := List.length_pos_iff.2 (sum_ne_nil h₁)
    have n2 : 0 < l'.length := List.length_pos_iff.2 (sum_ne_nil h₂)
    have m1 := mass_nonneg l
    have m2 := mass_nonneg l'
    have e1 := total_le_mass l
    have e2 := total_le_mass l'
    rw [List.length_append] at hg
    rw [mass_append, List.length_append] at hc
    push_cast at hc
    have gle : ∀ {p q : ℕ}, p ≤ q → (1 + u) ^ p ≤ (1 + u) ^ q := fun h => pow_le_pow_right₀ (by linarith) h
    have g1 : 1 ≤ g := (one_le_pow₀ (by linarith)).trans hg
    have c1 : 0 ≤ g * (mass l' + 2 * l'.length * η) := by positivity
    have c2 : 0 ≤ g * (mass l + 2 * l.length * η) := by positivity
    obtain ⟨f1, b1⟩ := ih₁ (fun c hc => hl c (by simp [hc])) ((gle (by omega)).trans hg) (by linarith)
    obtain ⟨f2, b2⟩ := ih₂ (fun c hc => hl c (by simp [hc])) ((gle (by omega)).trans hg) (by linarith)
    have k1 : (1 : ℝ) ≤ l.length := by exact_mod_cast n1
    have k2 : (1 : ℝ) ≤ l'.length := by exact_mod_cast n2
    have o1 : (1 : ℝ) ≤ (1 + u) ^ l.length := one_le_pow₀ (by linarith)
    have o2 : (1 : ℝ) ≤ (1 + u) ^ l'.length := one_le_pow₀ (by linarith)
    have w1 : (1 + u) * (1 + u) ^ l.length ≤ (1 + u) ^ (l.length + l'.length) := by rw [← pow_succ']; exact gle (by omega)
    have w2 : (1 + u) * (1 + u) ^ l'.length ≤ (1 + u) ^ (l.length + l'.length) := by rw [← pow_succ']; exact gle (by omega)
    have o3 : (1 : ℝ) ≤ (1 + u) ^ (l.length + l'.length) := one_le_pow₀ (by linarith)
    have a1 : |a.val| ≤ mass l + (((1 + u) ^ l.length - 1) * mass l + (2 * l.length - 1) * η * (1 + u) ^ l.length) := by
      have := abs_sub_abs_le_abs_sub a.val (total l)
      linarith
    have a2 : |b.val| ≤ mass l' + (((1 + u) ^ l'.length - 1) * mass l' + (2 * l'.length - 1) * η * (1 + u) ^ l'.length) := by
      have := abs_sub_abs_le_abs_sub b.val (total l')
      linarith
    have hab : |a.val + b.val| ≤ big := by
      refine (abs_add_le _ _).trans (le_trans ?_ hc)
      have d1 : (1 + u) ^ l.length * (mass l + 2 * l.length * η) ≤ g * (mass l + 2 * l.length * η) :=
        mul_le_mul_of_nonneg_right ((gle (by omega)).trans hg) (by positivity)
      have d2 : (1 + u) ^ l'.length * (mass l' + 2 * l'.length * η) ≤ g * (mass l' + 2 * l'.length * η) :=
        mul_le_mul_of_nonneg_right ((gle (by omega)).trans hg) (by positivity)
      have d3 : 0 ≤ η * (1 + u) ^ l.length := by positivity
      have d4 : 0 ≤ η * (1 + u) ^ l'.length := by positivity
      linarith
    have near := near_addWith (R := R) f1 f2 hab
    refine ⟨near.1, ?_⟩
    rw [total_append, mass_append, List.length_append]
    have t := abs_sub_le (Float.add R a b).val (a.val + b.val) (total l + total l')
    have t2 : |a.val + b.val - (total l + total l')| ≤ |a.val - total l| + |b.val - total l'| := by
      rw [show a.val + b.val - (total l + total l') = (a.val - total l) + (b.val - total l') by ring]
      exact abs_add_le _ _
    have t3 : |a.val + b.val| ≤ mass l + |a.val - total l| + (mass l' + |b.val - total l'|) := by
      have := abs_add_le a.val b.val
      have s1 := abs_sub_abs_le_abs_sub a.val (total l)
      have s2 := abs_sub_abs_le_abs_sub b.val (total l')
      linarith
    have t4 := mul_le_mul_of_nonneg_left t3 hu.le
    have key := combine (p := 2 * l.length - 1) (q := 2 * l'.length - 1) w1 (by linarith) m1 b1 w2 (by linarith) m2 b2 o3
    have nr := near.2
    change |(Float.add R a b).val - _| ≤ _ at nr
    push_cast
    rw [show (2 * ((l.length : ℝ) + l'.length) - 1) = 2 * l.length - 1 + (2 * l'.length - 1) + 1 by ring]
    linarith
  | perm hp _ ih =>
    have hm : mass _ = mass _ := (hp.map fun a : Flt => |a.val|).sum_eq
    have ht : total _ = total _ := (hp.map Flt.val).sum_eq
    have := ih (fun a ha => hl a (hp.mem_iff.1 ha)) (by rwa [hp.length_eq]) (by rwa [hp.length_eq, hm])
    rwa [hp.length_eq, hm, ht] at this

/-! ## The step -/

theorem sgd_error {lr w g w' : Flt} (h : SgdStep R lr w g w') (hl : lr.Finite) (hw : w.Finite) (hg : g.Finite) (hW : |w.val| ≤ 2 ^ 125)
    (hG : |lr.val * g.val| ≤ 2 ^ 125) :
    w'.Finite ∧ |w'.val - (w.val - lr.val * g.val)| ≤ u * |w.val| + 2.1 * u * |lr.val * g.val| + 3 * η := by
  have hu := u_pos
  have hus := u_small
  have hη := η_pos
  have hbig : (2 : ℝ) ^ 127 ≤ big := by unfold big; norm_num
  have negv : ∀ a : Flt, a.neg.val = -a.val := fun a => by
    rcases a with _ | ⟨s, x⟩
    · simp [Flt.neg, Flt.val]
    · cases s <;> simp [Flt.neg, Flt.val]
  have negf : ∀ {a : Flt}, a.Finite → a.neg.Finite := fun {a} ha => by
    rcases a with _ | ⟨s, x⟩
    · exact ha
    · exact ha
  have hηs : η ≤ 1 := by unfold η; norm_num
  rcases h with rfl | rfl
  · have n1 := near_mul (R := R) hl hg (hG.trans (le_trans (by norm_num) hbig))
    set p := mul R lr g
    have hp : |p.val| ≤ 1.0001 * |lr.val * g.val| + η := by
      have := abs_sub_abs_le_abs_sub p.val (lr.val * g.val)
      have := n1.2
      nlinarith [abs_nonneg (lr.val * g.val)]
    have hsub : |w.val + p.neg.val| ≤ |w.val| + |p.val| := by
      rw [negv, ← sub_eq_add_neg]
      exact abs_sub _ _
    have n2 := near_addWith (R := R) hw (negf n1.1) (hsub.trans (le_trans (by linarith [show (1 : ℝ) ≤ 2 ^ 125 by norm_num]) hbig))
    refine ⟨n2.1, ?_⟩
    have e2 := n2.2
    change |(sub R w p).val - _| ≤ _ at e2
    have t := abs_sub_le (sub R w p).val (w.val + p.neg.val) (w.val - lr.val * g.val)
    have t2 : |w.val + p.neg.val - (w.val - lr.val * g.val)| = |p.val - lr.val * g.val| := by
      rw [negv, show w.val + -p.val - (w.val - lr.val * g.val) = -(p.val - lr.val * g.val) by ring, abs_neg]
    rw [t2] at t
    have n1' := n1.2
    have t3 := mul_le_mul_of_nonneg_left (hsub.trans (add_le_add le_rfl hp)) hu.le
    nlinarith [abs_nonneg (lr.val * g.val)]
  · have e : lr.neg.val * g.val + w.val = w.val - lr.val * g.val := by rw [negv]; ring
    have hs : |w.val - lr.val * g.val| ≤ |w.val| + |lr.val * g.val| := abs_sub _ _
    have n := near_fma (R := R) (negf hl) hg hw (by
      rw [e]
      refine hs.trans (le_trans ?_ hbig)
      linarith)
    rw [e] at n
    refine ⟨n.1, n.2.trans ?_⟩
    have := mul_le_mul_of_nonneg_left hs hu.le
    nlinarith [abs_nonneg (lr.val * g.val)]

/-! ## Probabilities have small relative errors if the logits are not far apart -/

theorem η_exp_low {t : ℝ} (ht : t ≤ 62) : (2 : ℝ) ^ (-90 : ℤ) ≤ Real.exp (-t) := by
  have h1 : (2 : ℝ) ^ (-90 : ℤ) ≤ Real.exp (-62) := by
    have e : (2 : ℝ) ^ (-90 : ℤ) = Real.exp ((-90 : ℤ) * Real.log 2) := by
      rw [← Real.log_zpow, Real.exp_log (by positivity)]
    rw [e]
    have := Real.log_two_gt_d9
    apply Real.exp_le_exp.2
    push_cast
    linarith
  exact h1.trans (Real.exp_le_exp.2 (by linarith))

theorem η_exp {t : ℝ} (ht : t ≤ 62) : η ≤ u / 1000 * Real.exp (-t) := by
  have h3 : u / 1000 * (2 : ℝ) ^ (-90 : ℤ) ≤ u / 1000 * Real.exp (-t) :=
    mul_le_mul_of_nonneg_left (η_exp_low ht) (by have := u_pos; positivity)
  refine le_trans ?_ h3
  unfold η u
  norm_num

theorem exp_rel {ε : ℝ} (hF : ExpAccurate F ε) (hε : 0 ≤ ε) {x m : Flt} (hx : x.Finite) (hm : m.Finite) (h : ¬m.lt x)
    (hfar : m.val - x.val ≤ 62) :
    |(F.exp (sub R x m)).val - Real.exp (x.val - m.val)| ≤ (69 * u + 1.001 * ε) * Real.exp (x.val - m.val) := by
  obtain ⟨t, ht, hv, hs⟩ := sub_max (R := R) hx hm h
  have hu := u_pos
  have hus := u_small
  have hη := η_pos
  have hηu : 1000 * η ≤ u := by unfold η u; norm_num
  rw [show x.val - m.val = -t.toReal by rw [hv]; ring]
  rw [← hv] at hfar
  have ht0 : 0 ≤ t.toReal := ENNReal.toReal_nonneg
  have he0 := Real.exp_pos (-t.toReal)
  have hηe := η_exp hfar
  rcases hs with hs | ⟨rfl, s, hs⟩
  · rw [hs]
    obtain ⟨hr, herr⟩ := rd_error (R := R) ht (by unfold big; norm_num; linarith)
    have ha := hF _ hr
    set t' := (R.rd t).toReal
    set w := t.toReal
    have hd : |w - t'| ≤ 67 * u := by
      rw [abs_sub_comm]
      refine herr.trans ?_
      nlinarith
    have e1 : Real.exp (-t') = Real.exp (-w) * Real.exp (w - t') := by rw [← Real.exp_add]; ring_nf
    have q := Real.abs_exp_sub_one_sub_id_le (x := w - t') (hd.trans (by linarith))
    have q2 : |Real.exp (w - t') - 1| ≤ 68 * u := by
      have := abs_add_le (Real.exp (w - t') - 1 - (w - t')) (w - t')
      rw [sub_add_cancel] at this
      have q3 : (w - t') ^ 2 ≤ 67 * u * (67 * u) := by
        rw [← sq_abs, sq]
        exact mul_le_mul hd hd (abs_nonneg _) (by positivity)
      nlinarith
    have d1 : |Real.exp (-t') - Real.exp (-w)| ≤ 68 * u * Real.exp (-w) := by
      rw [e1, show Real.exp (-w) * Real.exp (w - t') - Real.exp (-w) = (Real.exp (w - t') - 1) * Real.exp (-w) by ring, abs_mul,
        abs_of_pos he0]
      exact mul_le_mul_of_nonneg_right q2 he0.le
    have d2 : Real.exp (-t') ≤ 1.001 * Real.exp (-w) := by
      have := (abs_le.1 d1).2
      nlinarith
    have t1 := abs_sub_le (F.exp (Flt.num true (R.rd t))).val (Real.exp (-t')) (Real.exp (-w))
    have d3 := mul_le_mul_of_nonneg_left d2 hε
    have d4 : 0 < u * Real.exp (-w) := by positivity
    linarith
  · rw [hs, F.expZero]
    have v1 : (1 : Flt).val = 1 := by show (Flt.num false 1).val = 1; simp [Flt.val]
    rw [v1]
    simp
    positivity

/-- A quotient with relative errors. -/
theorem quotient_rel {e f E G s P r q : ℝ} (hf : 0 < f) (hG : 0 < G) (hr : r ≤ 1 / 100) (hq : q ≤ 1 / 25) (hr0 : 0 ≤ r)
    (hq0 : 0 ≤ q) (h1 : |e - f| ≤ r * f) (h2 : |E - G| ≤ r * G) (h3 : |s - E| ≤ q * E) (h4 : |P - e / s| ≤ 1.0001 * u * (e / s)) :
    |P - f / G| ≤ (1.1 * (2 * r + q) + 1.2 * u) * (f / G) := by
  have hu := u_pos
  have hus := u_small
  obtain ⟨a1, a2⟩ := abs_le.1 h1
  obtain ⟨b1, b2⟩ := abs_le.1 h2
  obtain ⟨c1, c2⟩ := abs_le.1 h3
  have hE : 0 < E := by nlinarith
  have hs : 0 < s := by nlinarith
  have he : 0 < e := by nlinarith
  have s1 : (1 - q) * (1 - r) * G ≤ s := by nlinarith
  have s2 : s ≤ (1 + q) * (1 + r) * G := by nlinarith
  have key : |e / s - f / G| ≤ 1.1 * (2 * r + q) * (f / G) := by
    rw [div_sub_div _ _ hs.ne' hG.ne', abs_div, abs_of_pos (mul_pos hs hG), div_le_iff₀ (mul_pos hs hG)]
    rw [show 1.1 * (2 * r + q) * (f / G) * (s * G) = 1.1 * (2 * r + q) * (f * s) by field_simp]
    have fs1 : f * ((1 - q) * (1 - r) * G) ≤ f * s := mul_le_mul_of_nonneg_left s1 hf.le
    have fs2 : f * s ≤ f * ((1 + q) * (1 + r) * G) := mul_le_mul_of_nonneg_left s2 hf.le
    have eg1 : (f - r * f) * G ≤ e * G := mul_le_mul_of_nonneg_right (by linarith) hG.le
    have eg2 : e * G ≤ (f + r * f) * G := mul_le_mul_of_nonneg_right (by linarith) hG.le
    have fG : 0 < f * G := by positivity
    set z := f * G with hz
    have fs1' : (1 - q) * (1 - r) * z ≤ f * s := by rw [hz]; linarith
    have fs2' : f * s ≤ (1 + q) * (1 + r) * z := by rw [hz]; linarith
    have eg1' : (1 - r) * z ≤ e * G := by rw [hz]; linarith
    have eg2' : e * G ≤ (1 + r) * z := by rw [hz]; linarith
    have w : 0 ≤ 2 * r + q := by linarith
    have lo : 0.94 * z ≤ f * s := by
      refine le_trans (mul_le_mul_of_nonneg_right ?_ fG.le) fs1'
      nlinarith
    have lo2 : 1.1 * (2 * r + q) * (0.94 * z) ≤ 1.1 * (2 * r + q) * (f * s) := mul_le_mul_of_nonneg_left lo (by linarith)
    have rq : r * q ≤ 1 / 100 * q := mul_le_mul_of_nonneg_right hr hq0
    have rq0 : 0 ≤ r * q := by positivity
    have rz : 0 ≤ r * z := by positivity
    have qz : 0 ≤ q * z := by positivity
    have rqz : r * q * z ≤ 1 / 100 * q * z := mul_le_mul_of_nonneg_right rq fG.le
    have rqz0 : 0 ≤ r * q * z := by positivity
    rw [abs_le]
    constructor <;> nlinarith
  have hfG : 0 < f / G := by positivity
  have es : e / s ≤ 1.1 * (f / G) := by
    have := (abs_le.1 key).2
    nlinarith
  have t := abs_sub_le P (e / s) (f / G)
  have m := mul_le_mul_of_nonneg_left es (show 0 ≤ 1.0001 * u by positivity)
  have up : 0 < u * (f / G) := by positivity
  nlinarith

/-- The relative error of the probabilities. -/
def τ (k : ℕ) (ε : ℝ) : ℝ := (1.2 * k + 155) * u + 2.3 * ε

theorem τ_nonneg {ε : ℝ} (hε : 0 ≤ ε) : 0 ≤ τ k ε := by
  have := u_pos
  unfold τ
  positivity

theorem τ_small {ε : ℝ} (hk : k ≤ 2 ^ 18) (hε : ε ≤ 1 / 2 ^ 10) : τ k ε ≤ 0.03 := by
  have hk' : (k : ℝ) ≤ 2 ^ 18 := by exact_mod_cast hk
  unfold τ u
  norm_num at hε ⊢
  linarith

theorem probability_rel {Y P : Fin B → Fin k → Flt} (h : SoftmaxForward R F Y P) (hY : ∀ i j, (Y i j).Finite) (hk : k ≤ 2 ^ 18) {ε : ℝ}
    (hF : ExpAccurate F ε) (hε : 0 ≤ ε) (hε' : ε ≤ 1 / 2 ^ 10) (hb : ∀ i j, |(Y i j).val| ≤ 31) (i : Fin B) (j : Fin k) :
    |(P i j).val - softmax (fun r => (Y i r).val) j| ≤ τ k ε * softmax (fun r => (Y i r).val) j := by
  obtain ⟨m, e, s, hm, hs, hE, hrel, hP⟩ := row_error h hY (hk.trans (by norm_num)) i
  have hu := u_pos
  have hus := u_small
  have hη := η_pos
  have hk1 : (1 : ℝ) ≤ k := by exact_mod_cast (Fin.pos j)
  have hk' : (k : ℝ) ≤ 2 ^ 18 := by exact_mod_cast hk
  have hmf : m.Finite := by obtain ⟨j, rfl⟩ := hm.1; exact hY i j
  have hmv : |m.val| ≤ 31 := by obtain ⟨j, rfl⟩ := hm.1; exact hb i j
  have hfar : ∀ r, m.val - (Y i r).val ≤ 62 := fun r => by linarith [(abs_le.1 hmv).2, (abs_le.1 (hb i r)).1]
  set f : Fin k → ℝ := fun r => Real.exp ((Y i r).val - m.val) with hf
  have hfpos : ∀ r, 0 < f r := fun r => Real.exp_pos _
  have hsoft : softmax (fun r => (Y i r).val) j = f j / ∑ r, f r := by
    have e1 : ∀ r, f r = Real.exp ((Y i r).val) * Real.exp (-m.val) := fun r => by rw [hf, ← Real.exp_add]; rfl
    simp only [e1, ← Finset.sum_mul]
    rw [softmax, mul_div_mul_right _ _ (Real.exp_pos _).ne']
  have hef : ∀ r, |e r - f r| ≤ (69 * u + 1.001 * ε) * f r := fun r => by
    rw [(hP r).2.2.1]
    exact exp_rel hF hε (hY i r) hmf (hm.2 r) (hfar r)
  have hsum : |∑ r, e r - ∑ r, f r| ≤ (69 * u + 1.001 * ε) * ∑ r, f r := by
    rw [← Finset.sum_sub_distrib, Finset.mul_sum]
    exact (Finset.abs_sum_le_sum_abs _ _).trans (Finset.sum_le_sum fun r _ => hef r)
  have hG : 0 < ∑ r, f r := Finset.sum_pos (fun r _ => hfpos r) ⟨j, Finset.mem_univ j⟩
  rw [hsoft]
  norm_num at hε'
  have hr : 69 * u + 1.001 * ε ≤ 1 / 100 := by norm_num at hus; linarith
  have hr0 : 0 ≤ 69 * u + 1.001 * ε := by positivity
  have hq : 1.07 * (k - 1 + 1 / 1000) * u ≤ 1 / 25 := by
    unfold u
    linarith
  have hq0 : 0 ≤ 1.07 * (k - 1 + 1 / 1000) * u := by
    have : (0 : ℝ) ≤ k - 1 + 1 / 1000 := by linarith
    positivity
  have hes : |(P i j).val - e j / s| ≤ 1.0001 * u * (e j / s) := by
    refine (hP j).2.2.2.trans ?_
    have hej := hef j
    have hηe := η_exp (hfar j)
    rw [neg_sub] at hηe
    change η ≤ u / 1000 * f j at hηe
    have h1 : 0.99 * f j ≤ e j := by nlinarith [(abs_le.1 hej).1, hfpos j]
    have h2 : s ≤ 1.04 * (k : ℝ) := by
      have h3 : ∑ r, e r ≤ k := by
        refine (Finset.sum_le_sum fun r _ => (hP r).2.1).trans ?_
        simp
      nlinarith [(abs_le.1 hrel).2]
    have hs0 : 0 < s := by linarith
    have h4 : η ≤ u / 10000 * (e j / s) := by
      rw [mul_div_assoc', le_div_iff₀ hs0]
      have h5 : η * s ≤ η * 2 ^ 19 := mul_le_mul_of_nonneg_left (by linarith) hη.le
      have h6 : η * 2 ^ 19 ≤ u / 10000 * (0.99 * f j) := by
        have h7 : (2 : ℝ) ^ (-90 : ℤ) ≤ f j := by
          have := η_exp_low (hfar j)
          rwa [neg_sub] at this
        have h8 : u / 10000 * (0.99 * (2 : ℝ) ^ (-90 : ℤ)) ≤ u / 10000 * (0.99 * f j) := by gcongr
        refine le_trans ?_ h8
        unfold η u
        norm_num
      have h9 : u / 10000 * (0.99 * f j) ≤ u / 10000 * e j := by gcongr
      linarith
    linarith
  have := quotient_rel (hfpos j) hG hr hq hr0 hq0 (hef j) hsum hrel hes
  refine this.trans (mul_le_mul_of_nonneg_right ?_ (by have := hfpos j; positivity))
  unfold τ
  nlinarith

/-! ## The exact loss and its derivatives -/

/-- The mean cross entropy of a linear classifier with weights `w` and biases `b`, with real numbers. -/
def exactLoss (x : Fin B → Fin n → ℝ) (label : Fin B → Fin k) (w : Fin k → Fin n → ℝ) (b : Fin k → ℝ) : ℝ :=
  -(∑ i, Real.log (softmax (fun j => ∑ r, x i r * w j r + b j) (label i))) / B

/-- Its partial derivative by weight `(j, r)`. -/
def weightSlope (x : Fin B → Fin n → ℝ) (label : Fin B → Fin k) (w : Fin k → Fin n → ℝ) (b : Fin k → ℝ) (j : Fin k) (r : Fin n) : ℝ :=
  deriv (fun t => exactLoss x label (Function.update w j (Function.update (w j) r t)) b) (w j r)

/-- Its partial derivative by bias `j`. -/
def biasSlope (x : Fin B → Fin n → ℝ) (label : Fin B → Fin k) (w : Fin k → Fin n → ℝ) (b : Fin k → ℝ) (j : Fin k) : ℝ :=
  deriv (fun t => exactLoss x label w (Function.update b j t)) (b j)

theorem log_softmax (z : Fin k → ℝ) (l : Fin k) : Real.log (softmax z l) = z l - Real.log (∑ r, Real.exp (z r)) := by
  have p : 0 < ∑ r, Real.exp (z r) := Finset.sum_pos (fun r _ => Real.exp_pos _) ⟨l, Finset.mem_univ l⟩
  rw [softmax, Real.log_div (Real.exp_pos _).ne' p.ne', Real.log_exp]

theorem log_softmax_deriv (z : Fin k → ℝ) (l j : Fin k) (c t₀ : ℝ) :
    HasDerivAt (fun t => Real.log (softmax (fun j' => z j' + if j' = j then (t - t₀) * c else 0) l))
      ((if l = j then c else 0) - softmax z j * c) t₀ := by
  have p : 0 < ∑ r, Real.exp (z r) := Finset.sum_pos (fun r _ => Real.exp_pos _) ⟨l, Finset.mem_univ l⟩
  have lin : ∀ j', HasDerivAt (fun t => z j' + if j' = j then (t - t₀) * c else 0) (if j' = j then c else 0) t₀ := fun j' => by
    split_ifs
    · simpa using (((hasDerivAt_id t₀).sub_const t₀).mul_const c).const_add (z j')
    · simpa using (hasDerivAt_const t₀ (z j' + 0))
  simp only [log_softmax]
  have e0 : ∀ j', z j' + (if j' = j then (t₀ - t₀) * c else 0) = z j' := fun j' => by split_ifs <;> simp
  have hs : HasDerivAt (fun t => ∑ r, Real.exp (z r + if r = j then (t - t₀) * c else 0))
      (∑ r, Real.exp (z r) * if r = j then c else 0) t₀ := by
    have := HasDerivAt.fun_sum (u := Finset.univ) fun r (_ : r ∈ Finset.univ) => (lin r).exp
    simpa only [e0] using this
  have hl := hs.log (by simp only [e0]; exact p.ne')
  have := (lin l).sub hl
  simp only [e0] at this
  refine this.congr_deriv ?_
  unfold softmax
  congr 1
  simp
  ring

theorem exactLoss_deriv {x : Fin B → Fin n → ℝ} {label : Fin B → Fin k} {w : Fin k → Fin n → ℝ} {b : Fin k → ℝ} (j : Fin k)
    (W : ℝ → Fin k → Fin n → ℝ) (V : ℝ → Fin k → ℝ) (c : Fin B → ℝ) (t₀ : ℝ)
    (h : ∀ t i j', ∑ r, x i r * W t j' r + V t j' = (∑ r, x i r * w j' r + b j') + if j' = j then (t - t₀) * c i else 0) :
    deriv (fun t => exactLoss x label (W t) (V t)) t₀ =
      ∑ i, (softmax (fun j' => ∑ r, x i r * w j' r + b j') j - if j = label i then 1 else 0) / B * c i := by
  unfold exactLoss
  simp only [h]
  have hd := HasDerivAt.fun_sum (u := Finset.univ) fun i (_ : i ∈ Finset.univ) =>
    log_softmax_deriv (fun j' => ∑ r, x i r * w j' r + b j') (label i) j (c i) t₀
  have hd2 := (hd.neg.div_const (B : ℝ)).deriv
  refine hd2.trans ?_
  rw [← Finset.sum_neg_distrib, Finset.sum_div]
  refine Finset.sum_congr rfl fun i _ => ?_
  by_cases hj : j = label i
  · rw [if_pos hj, if_pos hj.symm]; ring
  · rw [if_neg hj, if_neg (Ne.symm hj)]; ring

theorem weightSlope_eq (x : Fin B → Fin n → ℝ) (label : Fin B → Fin k) (w : Fin k → Fin n → ℝ) (b : Fin k → ℝ) (j : Fin k) (r : Fin n) :
    weightSlope x label w b j r =
      ∑ i, (softmax (fun j' => ∑ r, x i r * w j' r + b j') j - if j = label i then 1 else 0) / B * x i r := by
  refine exactLoss_deriv j _ (fun _ => b) (fun i => x i r) (w j r) fun t i j' => ?_
  by_cases hj : j' = j
  · subst hj
    rw [if_pos rfl, Function.update_self]
    have : ∀ r', x i r' * Function.update (w j') r t r' = x i r' * w j' r' + if r' = r then (t - w j' r) * x i r else 0 := fun r' => by
      by_cases hr : r' = r
      · subst hr; simp; ring
      · simp [hr]
    simp only [this, Finset.sum_add_distrib, Finset.sum_ite_eq', Finset.mem_univ, if_true]
    ring
  · rw [if_neg hj, Function.update_of_ne hj, add_zero]

theorem biasSlope_eq (x : Fin B → Fin n → ℝ) (label : Fin B → Fin k) (w : Fin k → Fin n → ℝ) (b : Fin k → ℝ) (j : Fin k) :
    biasSlope x label w b j =
      ∑ i, (softmax (fun j' => ∑ r, x i r * w j' r + b j') j - if j = label i then 1 else 0) / B := by
  have := exactLoss_deriv (x := x) (label := label) (w := w) (b := b) j (fun _ => w) (Function.update b j) (fun _ => 1) (b j)
    fun t i j' => by
      by_cases hj : j' = j
      · subst hj; simp
      · simp [hj, Function.update_of_ne hj]
  unfold biasSlope
  rw [this]
  simp

end

end DW.Props.FloatTrainP
