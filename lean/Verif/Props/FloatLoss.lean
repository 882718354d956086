import Verif.Model.FloatTrain
import Verif.Props.FloatSoftmax
import Verif.Lemmas.Binary32
import Mathlib.Data.ENNReal.BigOperators
import Mathlib.Algebra.BigOperators.Fin
import Mathlib.Data.Fintype.Lattice
import Mathlib.Tactic.FinCases
/-!
# C99: loss and gradient of a classifier, in `float`

A user expects a finite loss and a finite gradient of finite logits. This holds if the probability of each label is a normal `float`.
If the probability of one label is 0, as it is if its logit is 200 less than the largest one, the loss is infinite, the gradient of
this row is NaN, and one step of SGD makes every weight of the last layer NaN.
-/

set_option autoImplicit false

namespace DW.Props.FloatLossP

open DW.Float DW.Props.FloatSoftmaxP
open scoped ENNReal

variable {R : Rounding} {F : Libm R} {B n k : Nat}

/-! ## NaN stays NaN -/

@[simp] theorem add_nan (a : Flt) : add R a .nan = .nan := by cases a <;> rfl

@[simp] theorem nan_add (a : Flt) : add R .nan a = .nan := by cases a <;> rfl

@[simp] theorem sub_nan (a : Flt) : sub R a .nan = .nan := by cases a <;> rfl

@[simp] theorem nan_sub (a : Flt) : sub R .nan a = .nan := by cases a <;> rfl

@[simp] theorem mul_nan (a : Flt) : mul R a .nan = .nan := by cases a <;> rfl

@[simp] theorem nan_mul (a : Flt) : mul R .nan a = .nan := by cases a <;> rfl

@[simp] theorem fma_nan₁ (a b : Flt) : fma R .nan a b = .nan := by cases a <;> cases b <;> rfl

@[simp] theorem fma_nan₂ (a b : Flt) : fma R a .nan b = .nan := by cases a <;> cases b <;> rfl

@[simp] theorem fma_nan₃ (a b : Flt) : fma R a b .nan = .nan := by
  unfold fma; cases mulWith id a b <;> rfl

theorem sum_nan {l : List Flt} {s : Flt} (h : SumOf R l s) (hl : .nan ∈ l) : s = .nan := by
  induction h with
  | one a => simpa [eq_comm] using hl
  | start a => obtain rfl : Flt.nan = a := by simpa using hl
               simp
  | add _ _ ih ih' =>
    rcases List.mem_append.1 hl with h | h
    · simp [ih h]
    · simp [ih' h]
  | perm hp _ ih => exact ih (hp.mem_iff.2 hl)

/-- A pair whose product is NaN, rounded or not. -/
def NanPair (R : Rounding) (q : Flt × Flt) : Prop := mul R q.1 q.2 = .nan ∧ ∀ c, fma R q.1 q.2 c = .nan

theorem dot_nan {l : List (Flt × Flt)} {s : Flt} (h : DotOf R l s) {q : Flt × Flt} (hq : NanPair R q) (hl : q ∈ l) : s = .nan := by
  induction h with
  | one a b => obtain rfl : q = (a, b) := by simpa using hl
               exact hq.1
  | start a b => obtain rfl : q = (a, b) := by simpa using hl
                 rw [hq.1, add_nan]
  | fmaStart a b => obtain rfl : q = (a, b) := by simpa using hl
                    exact hq.2 0
  | add _ _ ih ih' =>
    rcases List.mem_append.1 hl with h | h
    · simp [ih h]
    · simp [ih' h]
  | fma _ ih =>
    rcases List.mem_append.1 hl with h | h
    · simp [ih h]
    · obtain rfl := List.mem_singleton.1 h
      exact hq.2 _
  | perm hp _ ih => exact ih (hp.mem_iff.2 hl)

theorem nanPair_left (a : Flt) : NanPair R (.nan, a) := by simp [NanPair]

theorem inf_zero (s t : Bool) : NanPair R (.num s ⊤, .num t 0) := by
  constructor
  · simp [mul, mulWith]
  · intro c
    simp [fma, mulWith, addWith]

/-! ## A label of probability 0 -/

/-- The gradient of the loss at such a label is infinite. -/
theorem backward_zero {P : Fin B → Fin n → Flt} {label : Fin B → Fin n} {i : Fin B} (h : P i (label i) = 0) :
    lossBackward R P label i (label i) = .num true ⊤ := by
  have e : (0 : Flt) = .num false 0 := rfl
  have r : R.rd ⊤ = ⊤ := R.huge ⊤ le_top
  simp [lossBackward, h, e, div, divWith, r, ENNReal.top_div]

/-- It makes the gradient with respect to each logit of its row NaN. -/
theorem zero_probability_row {P G₀ D : Fin B → Fin n → Flt} {label : Fin B → Fin n} {i : Fin B} (h : P i (label i) = 0)
    (hD : SoftmaxInputGrad R P (lossBackward R P label) G₀ D) (j : Fin n) : D i j = .nan := by
  obtain ⟨s, hs, hj⟩ := hD i
  have hnan : s = .nan := by
    refine dot_nan hs (q := (.num true ⊤, .num false 0)) (inf_zero _ _) (List.mem_ofFn.2 ⟨label i, ?_⟩)
    simp only [backward_zero h, h]
    rfl
  subst hnan
  rcases hj j with h | h <;> simpa using h

/-- Then the gradients of the last layer are NaN, whatever the other rows of the batch are, ... -/
theorem zero_probability_grads {P G₀ D : Fin B → Fin k → Flt} {label : Fin B → Fin k} {i : Fin B} (h : P i (label i) = 0)
    (hD : SoftmaxInputGrad R P (lossBackward R P label) G₀ D) {X : Fin B → Fin n → Flt} {dW : Fin k → Fin n → Flt} {db : Fin k → Flt}
    (hg : LinearGrads R X D dW db) : (∀ j r, dW j r = .nan) ∧ ∀ j, db j = .nan := by
  have hrow := zero_probability_row h hD
  refine ⟨fun j r => ?_, fun j => ?_⟩
  · exact dot_nan (hg.1 j r) (nanPair_left (X i r)) (List.mem_ofFn.2 ⟨i, by simp [hrow]⟩)
  · exact sum_nan (hg.2 j) (List.mem_ofFn.2 ⟨i, hrow j⟩)

/-- ... and a step of SGD stores NaN, in place of any weight and with any learning rate. -/
theorem step_nan {lr w w' : Flt} (h : SgdStep R lr w .nan w') : w' = .nan := by
  rcases h with rfl | rfl <;> simp

/-- A weight that is NaN stays NaN. -/
theorem step_stays_nan {lr g w' : Flt} (h : SgdStep R lr .nan g w') : w' = .nan := by
  rcases h with rfl | rfl <;> simp

/-! ## When the probability is 0 -/

theorem lt_iff {a b : Flt} (ha : a.Finite) (hb : b.Finite) : a.lt b ↔ a.val < b.val := by
  rcases a with _ | ⟨s, x⟩
  · exact ha.elim
  rcases b with _ | ⟨t, y⟩
  · exact hb.elim
  simp only [Flt.Finite] at ha hb
  lift x to NNReal using ha
  lift y to NNReal using hb
  cases s <;> cases t
  · simp [Flt.lt, Flt.val]
  · simp only [Flt.lt, Flt.val, ENNReal.coe_toReal, false_iff, not_lt]
    simpa using (neg_nonpos.2 y.2).trans x.2
  · simp only [Flt.lt, Flt.val, ENNReal.coe_toReal, ENNReal.coe_eq_zero]
    have hx := x.coe_nonneg
    have hy := y.coe_nonneg
    constructor
    · intro h
      by_contra hc
      simp only [if_true, Bool.false_eq_true, if_false, not_lt] at hc
      have h1 : (x : ℝ) = 0 := by linarith
      have h2 : (y : ℝ) = 0 := by linarith
      exact h ⟨by exact_mod_cast h1, by exact_mod_cast h2⟩
    · rintro h ⟨rfl, rfl⟩
      simp at h
  · simp [Flt.lt, Flt.val]

theorem sub_neg {a b : Flt} (ha : a.Finite) (hb : b.Finite) (h : a.val < b.val) :
    sub R a b = .num true (R.rd (ENNReal.ofReal (b.val - a.val))) := by
  rcases a with _ | ⟨s, x⟩
  · exact ha.elim
  rcases b with _ | ⟨t, y⟩
  · exact hb.elim
  simp only [Flt.Finite] at ha hb
  lift x to NNReal using ha
  lift y to NNReal using hb
  have hx := x.coe_nonneg
  have hy := y.coe_nonneg
  cases s <;> cases t <;> simp [Flt.val] at h
  · have hc : (x : ℝ≥0∞) < y := by exact_mod_cast h
    have e : ENNReal.ofReal ((y : ℝ) - x) = (y : ℝ≥0∞) - x := by
      rw [ENNReal.ofReal_sub _ hx]; simp
    simp [sub, Flt.neg, addWith, Flt.val, hc.ne, hc.not_gt, e]
  · have : (x : ℝ) < -y := h
    linarith
  · have e : ENNReal.ofReal ((x : ℝ) + y) = (x : ℝ≥0∞) + y := by
      rw [ENNReal.ofReal_add hx hy]; simp
    simp [sub, Flt.neg, addWith, Flt.val, e, add_comm (y : ℝ)]
  · have e : ENNReal.ofReal (-(y : ℝ) + x) = (x : ℝ≥0∞) - y := by
      rw [neg_add_eq_sub, ENNReal.ofReal_sub _ hy]; simp
    simp [sub, Flt.neg, addWith, Flt.val, e, h.ne', h]

/-- A logit that is 200 less than another one of its row gets the probability 0. -/
theorem far_below {X P : Fin B → Fin n → Flt} (h : SoftmaxForward R F X P) (hX : ∀ i j, (X i j).Finite) (hn : n ≤ 2 ^ 24)
    {i : Fin B} {j j' : Fin n} (hj : (X i j).val + 200 ≤ (X i j').val) : P i j = 0 := by
  obtain ⟨m, s, hm, hs, hP⟩ := h i
  have hmf : m.Finite := by obtain ⟨j, rfl⟩ := hm.1; exact hX i j
  have hle : (X i j').val ≤ m.val := by simpa [lt_iff hmf (hX i j')] using hm.2 j'
  have hz : F.exp (sub R (X i j) m) = 0 := by
    rw [sub_neg (hX i j) hmf (by linarith)]
    refine F.expSmall _ ?_
    have h200 : R.rd ((200 : ℕ) : ℝ≥0∞) = ((200 : ℕ) : ℝ≥0∞) := rd_nat (by norm_num)
    have hr : ((200 : ℕ) : ℝ≥0∞) ≤ ENNReal.ofReal (m.val - (X i j).val) := by
      rw [← ENNReal.ofReal_natCast]
      exact ENNReal.ofReal_le_ofReal (by push_cast; linarith)
    have := h200.symm.le.trans (R.mono hr)
    simpa using this
  obtain ⟨z, hz1, hzn, rfl, -⟩ := row (hX i) hn hm hs
  have hz0 : z ≠ 0 := fun h => by simp [h] at hz1
  rw [hP, hz]
  show divWith R.rd (.num false 0) _ = .num false 0
  simp [divWith, hz0, rd_zero]

/-! ## The loss -/

/-- A logarithm of a probability: at most 128, or negative infinity. -/
def LogOf (a : Flt) : Prop := (∃ (s : Bool) (y : ℝ≥0∞), y ≤ 128 ∧ a = .num s y) ∨ a = .num true ⊤

/-- A number of magnitude at most `c`. -/
def Bounded (c : ℕ) (a : Flt) : Prop := ∃ (s : Bool) (y : ℝ≥0∞), y ≤ c ∧ a = .num s y

theorem Bounded.finite {c : ℕ} {a : Flt} (h : Bounded c a) : a.Finite := by
  obtain ⟨s, y, hy, rfl⟩ := h
  exact ne_top_of_le_ne_top (ENNReal.natCast_ne_top c) hy

theorem bounded_addWith {rd : ℝ≥0∞ → ℝ≥0∞} {C : ℝ≥0∞} (hC : C ≠ ⊤) {a b : Flt} {x y : ℝ≥0∞} {s t : Bool} (ha : a = .num s x)
    (hb : b = .num t y) (h : x + y ≤ C) (hr : ∀ z ≤ C, rd z ≤ C) : ∃ (u : Bool) (z : ℝ≥0∞), z ≤ C ∧ addWith rd a b = .num u z := by
  subst ha hb
  have hx : x ≠ ⊤ := ne_top_of_le_ne_top hC (le_self_add.trans h)
  simp only [addWith]
  split_ifs with h1 h2 h3
  · exact ⟨s, _, hr _ h, rfl⟩
  · exact ⟨false, 0, by simp, rfl⟩
  · exact ⟨s, _, hr _ (tsub_le_self.trans (le_self_add.trans h)), rfl⟩
  · exact ⟨t, _, hr _ (tsub_le_self.trans (le_add_self.trans h)), rfl⟩

theorem bounded_add {c d : ℕ} (h : c + d ≤ 2 ^ 24) {a b : Flt} (ha : Bounded c a) (hb : Bounded d b) : Bounded (c + d) (add R a b) := by
  obtain ⟨s, x, hx, rfl⟩ := ha
  obtain ⟨t, y, hy, rfl⟩ := hb
  exact bounded_addWith (ENNReal.natCast_ne_top _) rfl rfl (by push_cast; exact add_le_add hx hy) fun z hz => rd_le_nat h hz

theorem sum_logs {l : List Flt} {s : Flt} (h : SumOf R l s) (hl : ∀ a ∈ l, LogOf a) (hn : 128 * l.length ≤ 2 ^ 24) :
    (Bounded (128 * l.length) s ∧ .num true ⊤ ∉ l) ∨ (s = .num true ⊤ ∧ .num true ⊤ ∈ l) := by
  have r : R.rd ⊤ = ⊤ := R.huge ⊤ le_top
  have inf : ∀ {c : ℕ} {a : Flt}, Bounded c a → a ≠ .num true ⊤ := by
    rintro c a ⟨s, y, hy, rfl⟩ h
    obtain ⟨-, rfl⟩ := Flt.num.inj h
    simp at hy
  have infAdd : ∀ {c : ℕ} {a : Flt}, Bounded c a → add R a (.num true ⊤) = .num true ⊤ ∧ add R (.num true ⊤) a = .num true ⊤ := by
    intro c a ha
    have hf := ha.finite
    obtain ⟨s, y, hy, rfl⟩ := ha
    simp only [Flt.Finite] at hf
    cases s <;> simp [add, addWith, r, hf, Ne.symm hf, hf.lt_top]
  induction h with
  | one a =>
    rcases hl a (by simp) with ⟨s, y, hy, rfl⟩ | rfl
    · have hb : Bounded (128 * 1) (.num s y) := ⟨s, y, by simpa using hy, rfl⟩
      exact .inl ⟨hb, by simpa using (inf hb).symm⟩
    · exact .inr ⟨rfl, by simp⟩
  | start a =>
    have h0 : Bounded 0 (0 : Flt) := ⟨false, 0, by simp, rfl⟩
    rcases hl a (by simp) with ⟨s, y, hy, rfl⟩ | rfl
    · have hb : Bounded (128 * 1) (.num s y) := ⟨s, y, by simpa using hy, rfl⟩
      refine .inl ⟨?_, by simpa using (inf hb).symm⟩
      simpa using bounded_add (R := R) (by norm_num) h0 hb
    · exact .inr ⟨(infAdd h0).1, by simp⟩
  | @add l l' a b _ _ ih ih' =>
    simp only [List.length_append] at hn
    rcases ih (fun a ha => hl a (by simp [ha])) (by omega) with ⟨h1, h2⟩ | ⟨rfl, h2⟩ <;>
      rcases ih' (fun a ha => hl a (by simp [ha])) (by omega) with ⟨h1', h2'⟩ | ⟨rfl, h2'⟩
    · refine .inl ⟨?_, by simp [h2, h2']⟩
      rw [List.length_append, Nat.mul_add]
      exact bounded_add (by omega) h1 h1'
    · exact .inr ⟨(infAdd h1).1, by simp [h2']⟩
    · exact .inr ⟨(infAdd h1').2, by simp [h2]⟩
    · exact .inr ⟨by simp [add, addWith, r], by simp [h2]⟩
  | perm hp _ ih =>
    rw [← hp.length_eq, ← hp.mem_iff]
    exact ih (fun a ha => hl a (hp.mem_iff.1 ha)) (by rw [hp.length_eq]; exact hn)

theorem log_of_prob {y : ℝ≥0∞} (hy : y ≤ 1) (hr : R.rd y = y) :
    LogOf (F.log (.num false y)) ∧ (F.log (.num false y) = .num true ⊤ ↔ y = 0) := by
  rcases eq_or_ne y 0 with rfl | h0
  · exact ⟨.inr F.logZero, iff_of_true F.logZero rfl⟩
  · obtain ⟨s, x, hx, he⟩ := F.logPos y h0.bot_lt (hy.trans_lt ENNReal.one_lt_top) hr
    refine ⟨.inl ⟨s, x, hx, he⟩, iff_of_false (fun h => ?_) h0⟩
    rw [he] at h
    obtain ⟨-, rfl⟩ := Flt.num.inj h
    simp at hx

/-- The loss of a batch of at most `2 ^ 17` rows is finite if no label has the probability 0, and infinite otherwise. -/
theorem loss_finite_iff {X P : Fin B → Fin n → Flt} (h : SoftmaxForward R F X P) (hX : ∀ i j, (X i j).Finite) (hn : n ≤ 2 ^ 24)
    (hB : 0 < B) (hB' : B ≤ 2 ^ 17) {label : Fin B → Fin n} {loss : Flt} (hloss : LossForward R F P label loss) :
    ((∀ i, P i (label i) ≠ 0) → loss.Finite) ∧ ((∃ i, P i (label i) = 0) → loss = .num false ⊤) := by
  have r : R.rd ⊤ = ⊤ := R.huge ⊤ le_top
  obtain ⟨s, hs, rfl⟩ := hloss
  have hlog : ∀ i, LogOf (F.log (P i (label i))) ∧ (F.log (P i (label i)) = .num true ⊤ ↔ P i (label i) = 0) := fun i => by
    obtain ⟨y, hy, hr, he⟩ := softmax_range h hX hn i (label i)
    rw [he]
    refine ⟨(log_of_prob hy hr).1, (log_of_prob hy hr).2.trans ⟨?_, ?_⟩⟩
    · rintro rfl; rfl
    · intro h; exact (Flt.num.inj h).2
  have hmem : (.num true ⊤ ∈ List.ofFn fun i => F.log (P i (label i))) ↔ ∃ i, P i (label i) = 0 := by
    simp only [List.mem_ofFn]
    exact exists_congr fun i => (hlog i).2
  have hB0 : (B : ℝ≥0∞) ≠ 0 := by exact_mod_cast hB.ne'
  rcases sum_logs hs (by simpa [List.mem_ofFn] using fun i => (hlog i).1) (by simp; omega) with ⟨hb, h1⟩ | ⟨rfl, h1⟩
  · rw [hmem] at h1
    refine ⟨fun _ => ?_, fun h2 => absurd h2 h1⟩
    have hf := hb.finite
    obtain ⟨t, y, hy, rfl⟩ := hb
    simp only [Flt.Finite] at hf
    simp only [List.length_ofFn] at hy
    simp only [Flt.neg, div, divWith, hB0, hf, and_false, false_and, or_false, if_false, Flt.Finite]
    have hle : y / B ≤ ((128 * B : ℕ) : ℝ≥0∞) :=
      (ENNReal.div_le_of_le_mul (hy.trans (le_mul_of_one_le_right' (by exact_mod_cast hB))))
    exact ne_top_of_le_ne_top (ENNReal.natCast_ne_top _) (rd_le_nat (R := R) (by omega) hle)
  · rw [hmem] at h1
    refine ⟨fun h2 => ?_, fun _ => ?_⟩
    · obtain ⟨i, hi⟩ := h1
      exact absurd hi (h2 i)
    · simp [Flt.neg, div, divWith, r, ENNReal.top_div]

/-! ## The gradient -/

theorem rd_le_exact {x : ℝ≥0∞} {m e : ℕ} (hm : m < 2 ^ 24) (he : e ≤ 104) (h : x ≤ m * 2 ^ e) : R.rd x ≤ m * 2 ^ e :=
  (R.mono h).trans (R.exact m e hm he).le

/-- A pair with a product of magnitude at most `c`. -/
def Product (c : ℕ) (q : Flt × Flt) : Prop :=
  ∃ (s t : Bool) (x y : ℝ≥0∞), q = (.num s x, .num t y) ∧ x ≠ ⊤ ∧ y ≠ ⊤ ∧ x * y ≤ c

theorem Product.mul {c : ℕ} (hc : c ≤ 2 ^ 24) {a b : Flt} (h : Product c (a, b)) : Bounded c (mul R a b) := by
  obtain ⟨s, t, x, y, e, hx, hy, hxy⟩ := h
  obtain ⟨rfl, rfl⟩ := Prod.mk.inj e
  refine ⟨s ^^ t, R.rd (x * y), rd_le_nat hc hxy, ?_⟩
  simp [DW.Float.mul, mulWith, hx, hy]

theorem Product.fma {c d : ℕ} (hc : c + d ≤ 2 ^ 24) {a b z : Flt} (h : Product c (a, b)) (hz : Bounded d z) :
    Bounded (c + d) (fma R a b z) := by
  obtain ⟨s, t, x, y, e, hx, hy, hxy⟩ := h
  obtain ⟨rfl, rfl⟩ := Prod.mk.inj e
  obtain ⟨u, w, hw, rfl⟩ := hz
  have e : mulWith id (.num s x) (.num t y) = .num (s ^^ t) (x * y) := by simp [mulWith, hx, hy]
  exact bounded_addWith (ENNReal.natCast_ne_top _) e rfl (by push_cast; exact add_le_add hxy hw) fun z hz => rd_le_nat hc hz

theorem dot_bounded {l : List (Flt × Flt)} {s : Flt} (h : DotOf R l s) (w : Flt × Flt → ℕ) (hl : ∀ q ∈ l, Product (w q) q)
    (hw : (l.map w).sum ≤ 2 ^ 24) : Bounded (l.map w).sum s := by
  have h0 : Bounded 0 (0 : Flt) := ⟨false, 0, by simp, rfl⟩
  induction h with
  | one a b =>
    simp only [List.map_cons, List.map_nil, List.sum_cons, List.sum_nil, add_zero] at hw ⊢
    exact (hl _ (by simp)).mul hw
  | start a b =>
    simp only [List.map_cons, List.map_nil, List.sum_cons, List.sum_nil, add_zero] at hw ⊢
    simpa using bounded_add (R := R) (by omega) h0 ((hl (a, b) (by simp)).mul hw)
  | fmaStart a b =>
    simp only [List.map_cons, List.map_nil, List.sum_cons, List.sum_nil, add_zero] at hw ⊢
    simpa using (hl (a, b) (by simp)).fma (R := R) (by omega) h0
  | @add l l' a b _ _ ih ih' =>
    rw [List.map_append, List.sum_append] at hw ⊢
    exact bounded_add hw (ih (fun q hq => hl q (by simp [hq])) (by omega)) (ih' (fun q hq => hl q (by simp [hq])) (by omega))
  | @fma l a b c _ ih =>
    rw [List.map_append, List.sum_append] at hw ⊢
    simp only [List.map_cons, List.map_nil, List.sum_cons, List.sum_nil, add_zero] at hw ⊢
    rw [add_comm]
    exact (hl (a, b) (by simp)).fma (by omega) (ih (fun q hq => hl q (by simp [hq])) (by omega))
  | perm hp _ ih =>
    rw [← (hp.map w).sum_eq] at hw ⊢
    exact ih (fun q hq => hl q (hp.mem_iff.1 hq)) hw

theorem minNormal_le_iff {p : ℝ≥0∞} : minNormal ≤ p ↔ 1 / p ≤ 2 ^ 126 := by
  rw [minNormal, one_div, ENNReal.inv_le_iff_inv_le]

/-- The gradient of the loss at a label of normal probability. -/
theorem backward_normal {p : ℝ≥0∞} (hp : minNormal ≤ p) (hp1 : p ≤ 1) (hB : 0 < B) :
    ∃ g : ℝ≥0∞, g ≤ 2 ^ 126 ∧ g * p ≤ 2 ∧ div R (div R (.num true 1) (.num false p)) (.num false B) = .num true g := by
  have hp0 : p ≠ 0 := fun h => by rw [h, minNormal] at hp; simp at hp
  have hpt : p ≠ ⊤ := ne_top_of_le_ne_top ENNReal.one_ne_top hp1
  have hB0 : (B : ℝ≥0∞) ≠ 0 := by exact_mod_cast hB.ne'
  have hi := minNormal_le_iff.1 hp
  have hone : 1 ≤ 1 / p := by rw [one_div]; exact ENNReal.one_le_inv.2 hp1
  have e23 : ((2 ^ 22 : ℕ) : ℝ≥0∞) * 2 ^ 104 = 2 ^ 126 := by norm_num
  have hr : R.rd (1 / p) ≤ 2 ^ 126 := e23 ▸ rd_le_exact (by norm_num) le_rfl (e23.symm ▸ hi)
  have hrt : R.rd (1 / p) ≠ ⊤ := ne_top_of_le_ne_top (ENNReal.pow_ne_top ENNReal.ofNat_ne_top) hr
  have hg : R.rd (R.rd (1 / p) / B) ≤ R.rd (1 / p) :=
    (R.mono (ENNReal.div_le_of_le_mul (le_mul_of_one_le_right' (by exact_mod_cast hB)))).trans (R.idem _).le
  have hmax : (2 : ℝ≥0∞) ^ 126 ≤ maxFloat := by
    rw [maxFloat, ← e23]
    gcongr
    exact_mod_cast (by norm_num : (2 ^ 22 : ℕ) ≤ 16777215)
  have hmin : minNormal ≤ 1 := hp.trans hp1
  refine ⟨_, hg.trans hr, ?_, ?_⟩
  · have hu : R.rd (1 / p) ≤ 1 / p + 1 * (1 / p) :=
      (R.upper _ (hmin.trans hone) (hi.trans hmax)).trans (by gcongr; exact unit_lt_one.le)
    calc R.rd (R.rd (1 / p) / B) * p ≤ (1 / p + 1 * (1 / p)) * p := by gcongr; exact hg.trans hu
      _ = 2 := by
        rw [one_mul, add_mul, one_div, ENNReal.inv_mul_cancel hp0 hpt]
        norm_num
  · simp only [div, divWith, hp0, hpt, hB0, hrt, and_false, false_and, or_false, if_false]
    rfl

open Classical in
/-- With logits that are finite and probabilities of the labels that are normal `float`s, the gradient is finite: with respect to the
logits, and added to what was there. Missing: smaller probabilities, see `zero_probability_row`. -/
theorem gradient_finite_partial {X P G₀ D : Fin B → Fin n → Flt} (h : SoftmaxForward R F X P) (hX : ∀ i j, (X i j).Finite)
    (hn : n ≤ 2 ^ 24) (hB : 0 < B) {label : Fin B → Fin n}
    (hP : ∀ i, ∃ p : ℝ≥0∞, minNormal ≤ p ∧ P i (label i) = .num false p)
    (hG₀ : ∀ i j, ∃ (s : Bool) (x : ℝ≥0∞), x ≤ 2 ^ 126 ∧ G₀ i j = .num s x)
    (hD : SoftmaxInputGrad R P (lossBackward R P label) G₀ D) (i : Fin B) (j : Fin n) : (D i j).Finite := by
  have hB0 : (B : ℝ≥0∞) ≠ 0 := by exact_mod_cast hB.ne'
  have e22 : ((2 ^ 22 : ℕ) : ℝ≥0∞) * 2 ^ 104 = 2 ^ 126 := by norm_num
  have e23 : ((2 ^ 23 : ℕ) : ℝ≥0∞) * 2 ^ 104 = 2 ^ 126 + 2 ^ 126 := by
    rw [← e22]; push_cast; rw [← two_mul, ← mul_assoc]; norm_num
  have e3 : ((3 * 2 ^ 22 : ℕ) : ℝ≥0∞) * 2 ^ 104 = 2 ^ 126 + 2 ^ 126 + 2 ^ 126 := by
    rw [← e23, ← e22, ← add_mul]; norm_num
  have top : ∀ m e : ℕ, (m : ℝ≥0∞) * 2 ^ e ≠ ⊤ := fun m e =>
    ENNReal.mul_ne_top (ENNReal.natCast_ne_top m) (ENNReal.pow_ne_top ENNReal.ofNat_ne_top)
  obtain ⟨p, hp, hpe⟩ := hP i
  have hy : ∀ j, ∃ y : ℝ≥0∞, y ≤ 1 ∧ P i j = .num false y := fun j => by
    obtain ⟨y, hy, -, he⟩ := softmax_range h hX hn i j
    exact ⟨y, hy, he⟩
  have hp1 : p ≤ 1 := by
    obtain ⟨y, hy, he⟩ := hy (label i)
    rw [hpe] at he
    exact (Flt.num.inj he).2 ▸ hy
  obtain ⟨g, hg, hgp, hge⟩ := backward_normal (R := R) hp hp1 hB
  have hl : lossBackward R P label i (label i) = .num true g := by rw [lossBackward, if_pos rfl, hpe, hge]
  have ho : ∀ j, j ≠ label i → lossBackward R P label i j = .num false 0 := fun j hj => by
    rw [lossBackward, if_neg hj]
    show divWith R.rd (.num false 0) _ = _
    simp [divWith, hB0, rd_zero]
  have hgt : g ≠ ⊤ := ne_top_of_le_ne_top (ENNReal.pow_ne_top ENNReal.ofNat_ne_top) hg
  obtain ⟨s, hs, hj⟩ := hD i
  have hsb : ∃ (u : Bool) (z : ℝ≥0∞), z ≤ 2 ∧ s = .num u z := by
    let w : Flt × Flt → ℕ := fun q => if q.1 = .num false 0 then 0 else 2
    have hw : ((List.ofFn fun j => (lossBackward R P label i j, P i j)).map w).sum ≤ 2 := by
      rw [List.map_ofFn, List.sum_ofFn, Finset.sum_eq_single (label i)]
      · simp only [Function.comp, w]; split_ifs <;> omega
      · intro j _ hj
        simp [w, ho j hj]
      · simp
    obtain ⟨u, z, hz, he⟩ := dot_bounded hs w (fun q hq => by
      obtain ⟨j, rfl⟩ := List.mem_ofFn.1 hq
      obtain ⟨y, hy, he⟩ := hy j
      have hyt : y ≠ ⊤ := ne_top_of_le_ne_top ENNReal.one_ne_top hy
      rcases eq_or_ne j (label i) with rfl | hne
      · refine ⟨true, false, g, p, by simp only [hl, hpe], hgt, ne_top_of_le_ne_top ENNReal.one_ne_top hp1, ?_⟩
        simpa [w, hl] using hgp
      · exact ⟨false, false, 0, y, by simp only [ho j hne, he], by simp, hyt, by simp⟩) (hw.trans (by norm_num))
    exact ⟨u, z, hz.trans (by exact_mod_cast hw), he⟩
  obtain ⟨u, z, hz, rfl⟩ := hsb
  have hG : ∃ (t : Bool) (x : ℝ≥0∞), x ≤ 2 ^ 126 ∧ lossBackward R P label i j = .num t x := by
    rcases eq_or_ne j (label i) with rfl | hne
    · exact ⟨true, g, hg, hl⟩
    · exact ⟨false, 0, by simp, ho j hne⟩
  obtain ⟨t, x, hx, hGe⟩ := hG
  have h2 : (2 : ℝ≥0∞) ≤ 2 ^ 126 := by
    simpa using pow_le_pow_right₀ (by norm_num : (1 : ℝ≥0∞) ≤ 2) (by norm_num : 1 ≤ 126)
  obtain ⟨v, d, hd, hde⟩ : ∃ (v : Bool) (d : ℝ≥0∞), d ≤ (2 ^ 23 : ℕ) * 2 ^ 104 ∧ sub R (lossBackward R P label i j) (.num u z) = .num v d :=
    bounded_addWith (top _ _) hGe rfl (by rw [e23]; exact add_le_add hx (hz.trans h2))
      fun z hz => rd_le_exact (by norm_num) le_rfl hz
  obtain ⟨y, hy, hye⟩ := hy j
  have hyd : y * d ≤ (2 ^ 23 : ℕ) * 2 ^ 104 := (mul_le_of_le_one_left' hy).trans hd
  have hyt : y ≠ ⊤ := ne_top_of_le_ne_top ENNReal.one_ne_top hy
  have hdt : d ≠ ⊤ := ne_top_of_le_ne_top (top _ _) hd
  obtain ⟨b, a, ha, hae⟩ := hG₀ i j
  have hrd : ∀ z ≤ ((3 * 2 ^ 22 : ℕ) : ℝ≥0∞) * 2 ^ 104, R.rd z ≤ (3 * 2 ^ 22 : ℕ) * 2 ^ 104 := fun z hz =>
    rd_le_exact (by norm_num) le_rfl hz
  have fin : ∀ {c : Flt}, (∃ (b : Bool) (z : ℝ≥0∞), z ≤ (3 * 2 ^ 22 : ℕ) * 2 ^ 104 ∧ c = .num b z) → c.Finite := by
    rintro _ ⟨b, z, hz, rfl⟩
    exact ne_top_of_le_ne_top (top _ _) hz
  rcases hj j with he | he <;> rw [he] <;> refine fin ?_
  · rw [hye, hde]
    have hm : mul R (.num false y) (.num v d) = .num (false ^^ v) (R.rd (y * d)) := by simp [mul, mulWith, hyt, hdt]
    refine bounded_addWith (top _ _) hae hm ?_ hrd
    rw [e3, ← e23, add_comm]
    exact add_le_add (rd_le_exact (by norm_num) le_rfl hyd) ha
  · rw [hye, hde]
    have hm : mulWith id (.num false y) (.num v d) = .num (false ^^ v) (y * d) := by simp [mulWith, hyt, hdt]
    refine bounded_addWith (top _ _) hm hae ?_ hrd
    rw [e3, ← e23]
    exact add_le_add hyd ha

/-- In particular, if the logits of the labels are the largest ones of their rows. -/
theorem gradient_finite_max_partial {X P G₀ D : Fin B → Fin n → Flt} (h : SoftmaxForward R F X P) (hX : ∀ i j, (X i j).Finite)
    (hn : n ≤ 2 ^ 24) (hB : 0 < B) {label : Fin B → Fin n} (hl : ∀ i j, (X i j).val ≤ (X i (label i)).val)
    (hG₀ : ∀ i j, ∃ (s : Bool) (x : ℝ≥0∞), x ≤ 2 ^ 126 ∧ G₀ i j = .num s x)
    (hD : SoftmaxInputGrad R P (lossBackward R P label) G₀ D) (i : Fin B) (j : Fin n) : (D i j).Finite := by
  refine gradient_finite_partial h hX hn hB (fun i => ?_) hG₀ hD i j
  obtain ⟨y, hy, -, he⟩ := softmax_max h hX hn i (label i)
    ⟨⟨_, rfl⟩, fun j => by rw [lt_iff (hX i _) (hX i j)]; exact not_lt.2 (hl i j)⟩
  refine ⟨y, le_trans ?_ hy, he⟩
  rw [minNormal]
  exact ENNReal.inv_le_inv.2 (pow_le_pow_right₀ (by norm_num) (by norm_num))

/-! ## A label of tiny probability -/

/-- Negative infinity times a positive number. -/
def NegInf (q : Flt × Flt) : Prop := ∃ p : ℝ≥0∞, p ≠ 0 ∧ q = (.num true ⊤, .num false p)

theorem dot_negInf {l : List (Flt × Flt)} {s : Flt} (h : DotOf R l s) (hl : ∀ q ∈ l, Product 0 q ∨ NegInf q) :
    (Bounded 0 s ∧ ∀ q ∈ l, ¬NegInf q) ∨ s = .num true ⊤ := by
  have r : R.rd ⊤ = ⊤ := R.huge ⊤ le_top
  have h0 : Bounded 0 (0 : Flt) := ⟨false, 0, by simp, rfl⟩
  have not : ∀ {q}, Product 0 q → ¬NegInf q := by
    rintro q ⟨s, t, x, y, rfl, hx, hy, -⟩ ⟨p, hp, e⟩
    obtain ⟨e, -⟩ := Prod.mk.inj e
    exact hx (Flt.num.inj e).2
  have infAdd : ∀ {a : Flt}, Bounded 0 a → add R a (.num true ⊤) = .num true ⊤ ∧ add R (.num true ⊤) a = .num true ⊤ := by
    rintro _ ⟨s, y, hy, rfl⟩
    obtain rfl : y = 0 := by simpa using hy
    cases s <;> simp [add, addWith, r]
  have infInf : add R (.num true ⊤) (.num true ⊤) = .num true ⊤ := by simp [add, addWith, r]
  have mulInf : ∀ {a b : Flt}, NegInf (a, b) → mul R a b = .num true ⊤ ∧
      (∀ c, Bounded 0 c ∨ c = .num true ⊤ → fma R a b c = .num true ⊤) := by
    rintro a b ⟨p, hp, e⟩
    obtain ⟨rfl, rfl⟩ := Prod.mk.inj e
    refine ⟨by simp [mul, mulWith, hp, r, ENNReal.top_mul], ?_⟩
    have e : mulWith id (.num true ⊤) (.num false p) = .num true ⊤ := by simp [mulWith, hp, ENNReal.top_mul]
    rintro c (hc | rfl) <;> rw [fma, e]
    · exact (infAdd hc).2
    · exact infInf
  induction h with
  | one a b =>
    rcases hl (a, b) (by simp) with h | h
    · exact .inl ⟨h.mul (by norm_num), by simpa using not h⟩
    · exact .inr (mulInf h).1
  | start a b =>
    rcases hl (a, b) (by simp) with h | h
    · exact .inl ⟨by simpa using bounded_add (R := R) (by norm_num) h0 (h.mul (by norm_num)), by simpa using not h⟩
    · rw [(mulInf h).1]
      exact .inr (infAdd h0).1
  | fmaStart a b =>
    rcases hl (a, b) (by simp) with h | h
    · exact .inl ⟨by simpa using h.fma (R := R) (by norm_num) h0, by simpa using not h⟩
    · exact .inr ((mulInf h).2 0 (.inl h0))
  | @add l l' a b _ _ ih ih' =>
    rcases ih (fun q hq => hl q (by simp [hq])) with ⟨h1, h2⟩ | rfl <;>
      rcases ih' (fun q hq => hl q (by simp [hq])) with ⟨h1', h2'⟩ | rfl
    · refine .inl ⟨by simpa using bounded_add (R := R) (by norm_num) h1 h1', fun q hq => ?_⟩
      rcases List.mem_append.1 hq with h | h
      exacts [h2 q h, h2' q h]
    · exact .inr (infAdd h1).1
    · exact .inr (infAdd h1').2
    · exact .inr infInf
  | @fma l a b c _ ih =>
    rcases hl (a, b) (by simp) with h | h <;> rcases ih (fun q hq => hl q (by simp [hq])) with ⟨h1, h2⟩ | rfl
    · refine .inl ⟨by simpa using h.fma (R := R) (by norm_num) h1, fun q hq => ?_⟩
      rcases List.mem_append.1 hq with h' | h'
      · exact h2 q h'
      · obtain rfl := List.mem_singleton.1 h'
        exact not h
    · obtain ⟨s, t, x, y, e, hx, hy, hxy⟩ := h
      obtain ⟨rfl, rfl⟩ := Prod.mk.inj e
      have hxy : x * y = 0 := by simpa using hxy
      have e : mulWith id (.num s x) (.num t y) = .num (s ^^ t) 0 := by simp [mulWith, hx, hy, hxy]
      refine .inr ?_
      rw [fma, e]
      exact (infAdd (a := .num (s ^^ t) 0) ⟨_, 0, by simp, rfl⟩).1
    · exact .inr ((mulInf h).2 _ (.inl h1))
    · exact .inr ((mulInf h).2 _ (.inr rfl))
  | perm hp _ ih =>
    rcases ih (fun q hq => hl q (hp.mem_iff.1 hq)) with ⟨h1, h2⟩ | h
    · exact .inl ⟨h1, fun q hq => h2 q (hp.mem_iff.2 hq)⟩
    · exact .inr h

/-- If the probability of a label is positive but its reciprocal overflows, the gradient of the label is NaN. -/
theorem overflow_probability {X P G₀ D : Fin B → Fin n → Flt} (h : SoftmaxForward R F X P) (hX : ∀ i j, (X i j).Finite)
    (hn : n ≤ 2 ^ 24) {label : Fin B → Fin n} {i : Fin B} {p : ℝ≥0∞} (hp0 : p ≠ 0) (hr : R.rd p⁻¹ = ⊤)
    (hP : P i (label i) = .num false p) (hD : SoftmaxInputGrad R P (lossBackward R P label) G₀ D) : D i (label i) = .nan := by
  have hB0 : (B : ℝ≥0∞) ≠ 0 := by exact_mod_cast (i.pos).ne'
  have r : R.rd ⊤ = ⊤ := R.huge ⊤ le_top
  have hl : lossBackward R P label i (label i) = .num true ⊤ := by
    simp [lossBackward, hP, div, divWith, hp0, hr, r, ENNReal.top_div]
  have ho : ∀ j, j ≠ label i → lossBackward R P label i j = .num false 0 := fun j hj => by
    rw [lossBackward, if_neg hj]
    show divWith R.rd (.num false 0) _ = _
    simp [divWith, hB0, rd_zero]
  obtain ⟨s, hs, hj⟩ := hD i
  have hsi : s = .num true ⊤ := by
    rcases dot_negInf hs (fun q hq => by
      obtain ⟨j, rfl⟩ := List.mem_ofFn.1 hq
      rcases eq_or_ne j (label i) with rfl | hne
      · exact .inr ⟨p, hp0, by simp only [hl, hP]⟩
      · obtain ⟨y, hy, -, he⟩ := softmax_range h hX hn i j
        exact .inl ⟨false, false, 0, y, by simp only [ho j hne, he], by simp, ne_top_of_le_ne_top ENNReal.one_ne_top hy, by simp⟩)
      with ⟨-, hno⟩ | h
    · exact absurd ⟨p, hp0, by simp only [hl, hP]⟩ (hno _ (List.mem_ofFn.2 ⟨label i, rfl⟩))
    · exact h
  subst hsi
  have hnan : sub R (lossBackward R P label i (label i)) (.num true ⊤) = .nan := by
    rw [hl]
    simp [sub, Flt.neg, addWith]
  have := hj (label i)
  rw [hnan] at this
  rcases this with h | h <;> simpa using h

/-- If the probability of a label is positive but at most `2 ^ -128`, its gradient is NaN although the loss is finite. -/
theorem tiny_probability {X P G₀ D : Fin B → Fin n → Flt} (h : SoftmaxForward R F X P) (hX : ∀ i j, (X i j).Finite)
    (hn : n ≤ 2 ^ 24) {label : Fin B → Fin n} {i : Fin B} {p : ℝ≥0∞} (hp0 : p ≠ 0) (hp : p ≤ (2 ^ 128)⁻¹)
    (hP : P i (label i) = .num false p) (hD : SoftmaxInputGrad R P (lossBackward R P label) G₀ D) : D i (label i) = .nan :=
  overflow_probability h hX hn hp0 (R.huge _ (ENNReal.le_inv_iff_le_inv.2 hp)) hP hD

/-! ## Exactly when the gradient is finite -/

/-- Not positive: negative or a zero, of magnitude at most `c`. -/
def NonPos (c : ℕ) (a : Flt) : Prop := ∃ (s : Bool) (y : ℝ≥0∞), y ≤ c ∧ (s = true ∨ y = 0) ∧ a = .num s y

/-- Numbers that are not positive add up to one that is not positive. -/
theorem nonPos_addWith {c d : ℕ} (h : c + d ≤ 2 ^ 24) {a b : Flt} (ha : NonPos c a) (hb : NonPos d b) :
    NonPos (c + d) (addWith R.rd a b) := by
  obtain ⟨s, x, hx, hs, rfl⟩ := ha
  obtain ⟨t, y, hy, ht, rfl⟩ := hb
  have hxy : R.rd (x + y) ≤ ((c + d : ℕ) : ℝ≥0∞) := rd_le_nat h (by push_cast; exact add_le_add hx hy)
  have hx' : R.rd x ≤ ((c + d : ℕ) : ℝ≥0∞) := rd_le_nat h (hx.trans (by push_cast; exact le_self_add))
  have hy' : R.rd y ≤ ((c + d : ℕ) : ℝ≥0∞) := rd_le_nat h (hy.trans (by push_cast; exact le_add_self))
  cases s <;> cases t
  · obtain rfl : x = 0 := by simpa using hs
    obtain rfl : y = 0 := by simpa using ht
    exact ⟨false, 0, by simp, .inr rfl, by simp [addWith, rd_zero]⟩
  · obtain rfl : x = 0 := by simpa using hs
    rcases eq_or_ne y 0 with rfl | hy0
    · exact ⟨false, 0, by simp, .inr rfl, by simp [addWith]⟩
    · exact ⟨true, R.rd y, hy', .inl rfl, by simp [addWith, hy0.symm]⟩
  · obtain rfl : y = 0 := by simpa using ht
    rcases eq_or_ne x 0 with rfl | hx0
    · exact ⟨false, 0, by simp, .inr rfl, by simp [addWith]⟩
    · exact ⟨true, R.rd x, hx', .inl rfl, by simp [addWith, hx0]⟩
  · exact ⟨true, _, hxy, .inl rfl, by simp [addWith]⟩

/-- A pair with a product that is not positive and of magnitude at most `c`. -/
def NonPosPair (c : ℕ) (q : Flt × Flt) : Prop := NonPos c (mulWith id q.1 q.2)

theorem nonPos_mul {c : ℕ} (hc : c ≤ 2 ^ 24) {a b : Flt} (h : NonPosPair c (a, b)) : NonPos c (mul R a b) := by
  obtain ⟨s, y, hy, hs, he⟩ := h
  rcases a with _ | ⟨t, x⟩
  · simp [mulWith] at he
  rcases b with _ | ⟨u, z⟩
  · simp [mulWith] at he
  simp only [mulWith, id] at he
  split_ifs at he with hn
  obtain ⟨rfl, rfl⟩ := Flt.num.inj he
  refine ⟨t ^^ u, R.rd (x * z), rd_le_nat hc hy, hs.imp id fun h => by rw [h, rd_zero], ?_⟩
  simp only [mul, mulWith, if_neg hn]

theorem dot_nonPos {l : List (Flt × Flt)} {s : Flt} (h : DotOf R l s) (w : Flt × Flt → ℕ) (hl : ∀ q ∈ l, NonPosPair (w q) q)
    (hw : (l.map w).sum ≤ 2 ^ 24) : NonPos (l.map w).sum s := by
  have h0 : NonPos 0 (0 : Flt) := ⟨false, 0, by simp, .inr rfl, rfl⟩
  induction h with
  | one a b =>
    simp only [List.map_cons, List.map_nil, List.sum_cons, List.sum_nil, add_zero] at hw ⊢
    exact nonPos_mul hw (hl _ (by simp))
  | start a b =>
    simp only [List.map_cons, List.map_nil, List.sum_cons, List.sum_nil, add_zero] at hw ⊢
    simpa [add] using nonPos_addWith (R := R) (by omega) h0 (nonPos_mul hw (hl (a, b) (by simp)))
  | fmaStart a b =>
    simp only [List.map_cons, List.map_nil, List.sum_cons, List.sum_nil, add_zero] at hw ⊢
    simpa [fma] using nonPos_addWith (R := R) (by omega) (hl (a, b) (by simp)) h0
  | @add l l' a b _ _ ih ih' =>
    rw [List.map_append, List.sum_append] at hw ⊢
    exact nonPos_addWith hw (ih (fun q hq => hl q (by simp [hq])) (by omega)) (ih' (fun q hq => hl q (by simp [hq])) (by omega))
  | @fma l a b c _ ih =>
    rw [List.map_append, List.sum_append] at hw ⊢
    simp only [List.map_cons, List.map_nil, List.sum_cons, List.sum_nil, add_zero] at hw ⊢
    rw [add_comm]
    exact nonPos_addWith (by omega) (hl (a, b) (by simp)) (ih (fun q hq => hl q (by simp [hq])) (by omega))
  | perm hp _ ih =>
    rw [← (hp.map w).sum_eq] at hw ⊢
    exact ih (fun q hq => hl q (hp.mem_iff.1 hq)) hw

theorem rd_maxFloat : R.rd maxFloat = maxFloat := by
  have := R.exact 16777215 104 (by norm_num) le_rfl
  simpa [maxFloat] using this

theorem rd_le_max {x : ℝ≥0∞} (h : x ≤ maxFloat) : R.rd x ≤ maxFloat := (R.mono h).trans rd_maxFloat.le

theorem maxFloat_ne_top : maxFloat ≠ ⊤ := by
  rw [maxFloat]
  exact ENNReal.mul_ne_top (by norm_num) (ENNReal.pow_ne_top ENNReal.ofNat_ne_top)

/-- The gradient of the loss at a label whose probability has a finite reciprocal. -/
theorem backward_finite {p : ℝ≥0∞} (hp0 : p ≠ 0) (hp1 : p ≤ 1) (hB : 0 < B) (hr : R.rd p⁻¹ ≠ ⊤) :
    ∃ g : ℝ≥0∞, g ≤ maxFloat ∧ R.rd g = g ∧ g * p ≤ 2 ∧
      div R (div R (.num true 1) (.num false p)) (.num false B) = .num true g := by
  have hpt : p ≠ ⊤ := ne_top_of_le_ne_top ENNReal.one_ne_top hp1
  have hB0 : (B : ℝ≥0∞) ≠ 0 := by exact_mod_cast hB.ne'
  rw [← one_div] at hr
  have hone : 1 ≤ 1 / p := by rw [one_div]; exact ENNReal.one_le_inv.2 hp1
  have hg : R.rd (R.rd (1 / p) / B) ≤ R.rd (1 / p) :=
    (R.mono (ENNReal.div_le_of_le_mul (le_mul_of_one_le_right' (by exact_mod_cast hB)))).trans (R.idem _).le
  have hmax := R.largest _ hr
  have hmin : minNormal ≤ 1 := by
    rw [minNormal]
    exact ENNReal.inv_le_one.2 (one_le_pow₀ (by norm_num))
  refine ⟨_, hg.trans hmax, R.idem _, ?_, ?_⟩
  · have hu : R.rd (1 / p) ≤ 1 / p + 1 * (1 / p) := by
      rcases le_or_gt (1 / p) maxFloat with h | h
      · exact (R.upper _ (hmin.trans hone) h).trans (by gcongr; exact unit_lt_one.le)
      · exact hmax.trans (h.le.trans le_self_add)
    calc R.rd (R.rd (1 / p) / B) * p ≤ (1 / p + 1 * (1 / p)) * p := by gcongr; exact hg.trans hu
      _ = 2 := by
        rw [one_mul, add_mul, one_div, ENNReal.inv_mul_cancel hp0 hpt]
        norm_num
  · simp only [div, divWith, hp0, hpt, hB0, hr, and_false, false_and, or_false, if_false]
    rfl

open Classical in
/-- The gradient of finite logits is finite if and only if `-1 / p` is finite for the probability `p` of each label. (Where the
gradient is added to, there were zeros.) -/
theorem gradient_finite_iff {X P G₀ D : Fin B → Fin n → Flt} (h : SoftmaxForward R F X P) (hX : ∀ i j, (X i j).Finite)
    (hn : n ≤ 2 ^ 24) {label : Fin B → Fin n} (hG₀ : ∀ i j, ∃ s : Bool, G₀ i j = .num s 0)
    (hD : SoftmaxInputGrad R P (lossBackward R P label) G₀ D) :
    (∀ i j, (D i j).Finite) ↔ ∀ i, (div R (.num true 1) (P i (label i))).Finite := by
  have hy : ∀ i j, ∃ y : ℝ≥0∞, y ≤ 1 ∧ P i j = .num false y := fun i j => by
    obtain ⟨y, hy, -, he⟩ := softmax_range h hX hn i j
    exact ⟨y, hy, he⟩
  have hdiv : ∀ p : ℝ≥0∞, p ≠ ⊤ → ((div R (.num true 1) (.num false p)).Finite ↔ R.rd p⁻¹ ≠ ⊤) := fun p hp => by
    simp [div, divWith, Flt.Finite]
  constructor
  · intro hfin i
    obtain ⟨p, hp, hpe⟩ := hy i (label i)
    have hpt : p ≠ ⊤ := ne_top_of_le_ne_top ENNReal.one_ne_top hp
    rw [hpe, hdiv p hpt]
    intro hr
    have hnan : D i (label i) = .nan := by
      rcases eq_or_ne p 0 with rfl | hp0
      · exact zero_probability_row hpe hD (label i)
      · exact overflow_probability h hX hn hp0 hr hpe hD
    have := hfin i (label i)
    rw [hnan] at this
    exact this
  · intro hfin i j
    have hB : 0 < B := i.pos
    have hB0 : (B : ℝ≥0∞) ≠ 0 := by exact_mod_cast hB.ne'
    obtain ⟨p, hp1, hpe⟩ := hy i (label i)
    have hpt : p ≠ ⊤ := ne_top_of_le_ne_top ENNReal.one_ne_top hp1
    have hr : R.rd p⁻¹ ≠ ⊤ := (hdiv p hpt).1 (hpe ▸ hfin i)
    have hp0 : p ≠ 0 := by
      rintro rfl
      exact hr (by rw [ENNReal.inv_zero]; exact R.huge ⊤ le_top)
    obtain ⟨g, hg, hgr, hgp, hge⟩ := backward_finite (R := R) hp0 hp1 hB hr
    have hl : lossBackward R P label i (label i) = .num true g := by rw [lossBackward, if_pos rfl, hpe, hge]
    have ho : ∀ j, j ≠ label i → lossBackward R P label i j = .num false 0 := fun j hj => by
      rw [lossBackward, if_neg hj]
      show divWith R.rd (.num false 0) _ = _
      simp [divWith, hB0, rd_zero]
    have hgt : g ≠ ⊤ := ne_top_of_le_ne_top maxFloat_ne_top hg
    obtain ⟨s, hs, hj⟩ := hD i
    have hsb : NonPos 2 s := by
      let w : Flt × Flt → ℕ := fun q => if q.1 = .num false 0 then 0 else 2
      have hw : ((List.ofFn fun j => (lossBackward R P label i j, P i j)).map w).sum ≤ 2 := by
        rw [List.map_ofFn, List.sum_ofFn, Finset.sum_eq_single (label i)]
        · simp only [Function.comp, w]; split_ifs <;> omega
        · intro j _ hj
          simp [w, ho j hj]
        · simp
      obtain ⟨u, z, hz, hu, he⟩ := dot_nonPos hs w (fun q hq => by
        obtain ⟨j, rfl⟩ := List.mem_ofFn.1 hq
        obtain ⟨y, hy, he⟩ := hy i j
        have hyt : y ≠ ⊤ := ne_top_of_le_ne_top ENNReal.one_ne_top hy
        rcases eq_or_ne j (label i) with rfl | hne
        · refine ⟨true, g * p, ?_, .inl rfl, ?_⟩
          · simpa [w, hl] using hgp
          · simp [hl, hpe, mulWith, hgt, hpt]
        · exact ⟨false, 0, by simp, .inr rfl, by simp [ho j hne, he, mulWith, hyt]⟩) (hw.trans (by norm_num))
      exact ⟨u, z, hz.trans (by exact_mod_cast hw), hu, he⟩
    obtain ⟨u, z, hz, hu, rfl⟩ := hsb
    have h2max : ((2 : ℕ) : ℝ≥0∞) ≤ maxFloat := by
      have h : ((2 : ℕ) : ℝ≥0∞) ≤ ((16777215 * 2 ^ 104 : ℕ) : ℝ≥0∞) := Nat.cast_le.2 (by norm_num)
      rw [maxFloat]
      exact_mod_cast h
    obtain ⟨v, d, hd, hde⟩ : ∃ (v : Bool) (d : ℝ≥0∞), d ≤ maxFloat ∧ sub R (lossBackward R P label i j) (.num u z) = .num v d := by
      have hzm : z ≤ maxFloat := hz.trans h2max
      rcases eq_or_ne j (label i) with rfl | hne
      · rw [hl]
        rcases hu with rfl | rfl
        · simp only [sub, Flt.neg, addWith, Bool.not_true, Bool.true_eq_false, if_false]
          split_ifs with h1 h2
          · exact ⟨false, 0, by simp, rfl⟩
          · exact ⟨_, _, rd_le_max (tsub_le_self.trans hg), rfl⟩
          · exact ⟨_, _, rd_le_max (tsub_le_self.trans hzm), rfl⟩
        · cases u
          · exact ⟨true, g, hg, by simp [sub, Flt.neg, addWith, hgr]⟩
          · simp only [sub, Flt.neg, addWith, Bool.not_true, Bool.true_eq_false, if_false]
            split_ifs with h1 h2
            · exact ⟨false, 0, by simp, rfl⟩
            · exact ⟨_, _, rd_le_max (tsub_le_self.trans hg), rfl⟩
            · exact ⟨_, _, rd_le_max (tsub_le_self.trans hzm), rfl⟩
      · rw [ho j hne]
        exact bounded_addWith maxFloat_ne_top rfl rfl (by simpa using hzm) fun z hz => rd_le_max hz
    obtain ⟨y, hy, hye⟩ := hy i j
    have hyd : y * d ≤ maxFloat := (mul_le_of_le_one_left' hy).trans hd
    have hyt : y ≠ ⊤ := ne_top_of_le_ne_top ENNReal.one_ne_top hy
    have hdt : d ≠ ⊤ := ne_top_of_le_ne_top maxFloat_ne_top hd
    obtain ⟨b, hae⟩ := hG₀ i j
    have fin : ∀ {c : Flt}, (∃ (b : Bool) (z : ℝ≥0∞), z ≤ maxFloat ∧ c = .num b z) → c.Finite := by
      rintro _ ⟨b, z, hz, rfl⟩
      exact ne_top_of_le_ne_top maxFloat_ne_top hz
    rcases hj j with he | he <;> rw [he] <;> refine fin ?_
    · rw [hye, hde]
      have hm : mul R (.num false y) (.num v d) = .num (false ^^ v) (R.rd (y * d)) := by simp [mul, mulWith, hyt, hdt]
      exact bounded_addWith maxFloat_ne_top hae hm (by simpa using rd_le_max hyd) fun z hz => rd_le_max hz
    · rw [hye, hde]
      have hm : mulWith id (.num false y) (.num v d) = .num (false ^^ v) (y * d) := by simp [mulWith, hyt, hdt]
      exact bounded_addWith maxFloat_ne_top hm hae (by simpa using hyd) fun z hz => rd_le_max hz

/-! ## One step of training -/

theorem sum_exists : ∀ l : List Flt, l ≠ [] → ∃ s, SumOf R l s
  | [], h => absurd rfl h
  | [a], _ => ⟨a, .one a⟩
  | a :: b :: l, _ => by
    obtain ⟨s, hs⟩ := sum_exists (b :: l) (by simp)
    exact ⟨_, .add (.one a) hs⟩

theorem dot_exists : ∀ l : List (Flt × Flt), l ≠ [] → ∃ s, DotOf R l s
  | [], h => absurd rfl h
  | [(a, b)], _ => ⟨_, .one a b⟩
  | (a, b) :: c :: l, _ => by
    obtain ⟨s, hs⟩ := dot_exists (c :: l) (by simp)
    exact ⟨_, .add (.one a b) hs⟩

/-- Each batch of finite rows with at least one column has a softmax. -/
theorem softmax_exists {X : Fin B → Fin n → Flt} (hX : ∀ i j, (X i j).Finite) (hn : 0 < n) : ∃ P, SoftmaxForward R F X P := by
  have : Nonempty (Fin n) := ⟨⟨0, hn⟩⟩
  have hrow : ∀ i, ∃ m s, IsMax (X i) m ∧ SumOf R (List.ofFn fun j => F.exp (sub R (X i j) m)) s := fun i => by
    obtain ⟨j, hj⟩ := Finite.exists_max fun j => (X i j).val
    obtain ⟨s, hs⟩ := sum_exists (R := R) (List.ofFn fun j' => F.exp (sub R (X i j') (X i j))) (by
      rw [Ne, ← List.length_eq_zero_iff, List.length_ofFn]; omega)
    exact ⟨X i j, s, ⟨⟨j, rfl⟩, fun j' => by rw [lt_iff (hX i j) (hX i j')]; exact not_lt.2 (hj j')⟩, hs⟩
  choose m s hm hs using hrow
  exact ⟨fun i j => div R (F.exp (sub R (X i j) (m i))) (s i), fun i => ⟨m i, s i, hm i, hs i, fun _ => rfl⟩⟩

theorem ofFn_ne {α : Type} (h : 0 < n) (f : Fin n → α) : List.ofFn f ≠ [] := by
  rw [Ne, ← List.length_eq_zero_iff, List.length_ofFn]; omega

/-- An iteration can always be executed if the logits are finite; what it computes need not be determined. -/
theorem iteration_exists (lr : Flt) {X : Fin B → Fin n → Flt} {label : Fin B → Fin k} {W : Fin k → Fin n → Flt} {b : Fin k → Flt}
    (hB : 0 < B) (hn : 0 < n) (hk : 0 < k) (hY : ∀ Y, LinearForward R X W b Y → ∀ i j, (Y i j).Finite) :
    ∃ loss W' b', Iteration R F lr X label W b loss W' b' := by
  choose z hz using fun (i : Fin B) (j : Fin k) => dot_exists (R := R) _ (ofFn_ne hn fun r => (X i r, W j r))
  have hlin : LinearForward R X W b fun i j => add R (z i j) (b j) := fun i j => ⟨z i j, hz i j, rfl⟩
  obtain ⟨P, hP⟩ := softmax_exists (R := R) (F := F) (hY _ hlin) hk
  obtain ⟨s, hs⟩ := sum_exists (R := R) _ (ofFn_ne hB fun i => F.log (P i (label i)))
  choose d hd using fun i : Fin B => dot_exists (R := R) _ (ofFn_ne hk fun j => (lossBackward R P label i j, P i j))
  let D : Fin B → Fin k → Flt := fun i j => add R 0 (mul R (P i j) (sub R (lossBackward R P label i j) (d i)))
  choose dW hdW using fun (j : Fin k) (r : Fin n) => dot_exists (R := R) _ (ofFn_ne hB fun i => (D i j, X i r))
  choose db hdb using fun j : Fin k => sum_exists (R := R) _ (ofFn_ne hB fun i => D i j)
  exact ⟨_, fun j r => sub R (W j r) (mul R lr (dW j r)), fun j => sub R (b j) (mul R lr (db j)), ⟨_, P, D, dW, db, hlin, hP, ⟨s, hs, rfl⟩,
    fun i => ⟨d i, hd i, fun j => .inl rfl⟩, ⟨hdW, hdb⟩, fun _ _ => .inl rfl, fun _ => .inl rfl⟩⟩

/-- If in some row of the batch the logit of the label is 200 less than another one, one iteration reports an infinite loss and makes
all weights and biases NaN, however small the learning rate. -/
theorem iteration_nan {lr loss : Flt} {X : Fin B → Fin n → Flt} {label : Fin B → Fin k} {W W' : Fin k → Fin n → Flt}
    {b b' : Fin k → Flt} (h : Iteration R F lr X label W b loss W' b') (hk : k ≤ 2 ^ 24) (hB : B ≤ 2 ^ 17)
    (hY : ∀ Y, LinearForward R X W b Y → (∀ i j, (Y i j).Finite) ∧ ∃ i j, (Y i (label i)).val + 200 ≤ (Y i j).val) :
    loss = .num false ⊤ ∧ (∀ j r, W' j r = .nan) ∧ ∀ j, b' j = .nan := by
  obtain ⟨Y, P, D, dW, db, hlin, hP, hloss, hD, hg, hW, hb⟩ := h.run
  obtain ⟨hfin, i, j, hij⟩ := hY Y hlin
  have h0 := far_below hP hfin hk hij
  obtain ⟨h1, h2⟩ := zero_probability_grads h0 hD hg
  refine ⟨(loss_finite_iff hP hfin hk i.pos hB hloss).2 ⟨i, h0⟩, fun j r => ?_, fun j => ?_⟩
  · have := hW j r
    rw [h1 j r] at this
    exact step_nan this
  · have := hb j
    rw [h2 j] at this
    exact step_nan this

/-- NaN weights stay NaN in all following iterations. -/
theorem iteration_stays_nan {lr loss : Flt} {X : Fin B → Fin n → Flt} {label : Fin B → Fin k} {W W' : Fin k → Fin n → Flt}
    {b b' : Fin k → Flt} (h : Iteration R F lr X label W b loss W' b') (hW : ∀ j r, W j r = .nan) (j : Fin k) (r : Fin n) :
    W' j r = .nan := by
  obtain ⟨Y, P, D, dW, db, -, -, -, -, -, h, -⟩ := h.run
  have := h j r
  rw [hW j r] at this
  exact step_stays_nan this

/-! ## The full property fails -/

theorem dot_ne_nil {l : List (Flt × Flt)} {s : Flt} (h : DotOf R l s) : l ≠ [] := by
  induction h with
  | one | start | fmaStart => simp
  | add _ _ ih => simp [ih]
  | fma => simp
  | perm hp _ ih => exact fun h => ih (List.perm_nil.1 (h ▸ hp))

/-- A sum of one product. -/
theorem dot_single {l : List (Flt × Flt)} {s : Flt} (h : DotOf R l s) {a b : Flt} (hl : l = [(a, b)]) :
    s = mul R a b ∨ s = add R 0 (mul R a b) ∨ s = fma R a b 0 := by
  induction h with
  | one a' b' => obtain ⟨rfl, rfl⟩ : a' = a ∧ b' = b := by simpa using hl
                 exact .inl rfl
  | start a' b' => obtain ⟨rfl, rfl⟩ : a' = a ∧ b' = b := by simpa using hl
                   exact .inr (.inl rfl)
  | fmaStart a' b' => obtain ⟨rfl, rfl⟩ : a' = a ∧ b' = b := by simpa using hl
                      exact .inr (.inr rfl)
  | add h h' =>
    rcases List.append_eq_singleton_iff.1 hl with ⟨h0, -⟩ | ⟨-, h0⟩
    · exact absurd h0 (dot_ne_nil h)
    · exact absurd h0 (dot_ne_nil h')
  | fma h => exact absurd (List.append_eq_singleton_iff.1 hl) (by simp [dot_ne_nil h])
  | perm hp _ ih => exact ih (by rw [hl] at hp; exact List.perm_singleton.1 hp)

/-- The weights 1 and 0, without bias. -/
def witnessW (j : Fin 2) (_ : Fin 1) : Flt := if j = 0 then 1 else 0

/-- The logits of the input 200 are 200 and 0. -/
theorem witness_logits {Y : Fin 1 → Fin 2 → Flt} (h : LinearForward R (fun _ _ => .num false (200 : ℕ)) witnessW (fun _ => 0) Y) :
    (∀ i j, (Y i j).Finite) ∧ ∃ i j, (Y i 1).val + 200 ≤ (Y i j).val := by
  have e0 : (0 : Flt) = .num false 0 := rfl
  have r200 : R.rd ((200 : ℕ) : ℝ≥0∞) = ((200 : ℕ) : ℝ≥0∞) := rd_nat (by norm_num)
  have y0 : ∀ i, Y i 0 = .num false (200 : ℕ) := fun i => by
    obtain ⟨z, hz, hY⟩ := h i 0
    have := dot_single hz (List.ofFn_succ.trans (by simp; exact ⟨rfl, rfl⟩))
    rw [hY]
    simp only [witnessW, if_true] at this
    have hz : z = .num false (200 : ℕ) := by
      rcases this with rfl | rfl | rfl <;> simp [mul, add, fma, mulWith, addWith, e0, R.idem] <;> simpa using r200
    rw [hz]
    simp only [add, addWith, if_true, add_zero, r200]
  have y1 : ∀ i, Y i 1 = .num false 0 := fun i => by
    obtain ⟨z, hz, hY⟩ := h i 1
    have := dot_single hz (List.ofFn_succ.trans (by simp; exact ⟨rfl, rfl⟩))
    rw [hY]
    simp only [witnessW] at this
    have hz : z = .num false 0 := by
      rcases this with rfl | rfl | rfl <;> simp [mul, add, fma, mulWith, addWith, e0, rd_zero]
    rw [hz]
    simp [add, addWith, rd_zero]
  refine ⟨fun i j => ?_, 0, 0, ?_⟩
  · fin_cases j
    · simp only [Fin.zero_eta, y0, Flt.Finite]; exact ENNReal.natCast_ne_top _
    · simp [y1, Flt.Finite]
  · rw [y0, y1]
    simp [Flt.val]

/-- "Training with finite inputs and weights keeps the loss and the weights finite" is false for each rounding, each `exp` and `log`,
each learning rate and each order of evaluation: one input, 200, and two classes with the weights 1 and 0. -/
theorem training_finite_refuted (R : Rounding) (F : Libm R) (lr : Flt) :
    ∃ (X : Fin 1 → Fin 1 → Flt) (label : Fin 1 → Fin 2) (W : Fin 2 → Fin 1 → Flt) (b : Fin 2 → Flt),
      (∀ i r, (X i r).Finite) ∧ (∀ j r, (W j r).Finite) ∧ (∀ j, (b j).Finite) ∧
      (∃ loss W' b', Iteration R F lr X label W b loss W' b') ∧
      ∀ loss W' b', Iteration R F lr X label W b loss W' b' → loss = .num false ⊤ ∧ (∀ j r, W' j r = .nan) ∧ ∀ j, b' j = .nan := by
  have f0 : (0 : Flt).Finite := ENNReal.zero_ne_top
  have f1 : (1 : Flt).Finite := ENNReal.one_ne_top
  refine ⟨fun _ _ => .num false (200 : ℕ), fun _ => 1, witnessW, fun _ => 0, fun _ _ => ENNReal.natCast_ne_top _, fun j r => ?_,
    fun _ => f0, iteration_exists lr (by norm_num) (by norm_num) (by norm_num) fun Y hY => (witness_logits hY).1,
    fun loss W' b' h => iteration_nan h (by norm_num) (by norm_num) fun Y hY => witness_logits hY⟩
  unfold witnessW
  split_ifs
  exacts [f1, f0]

/-! ## The hypotheses can be met -/

/-- C98: a softmax of finite numbers in `float` as it is. -/
example (X : Fin 3 → Fin 10 → Flt) (hX : ∀ i j, (X i j).Finite) :
    ∃ P, SoftmaxForward binary32 libm X P ∧ ∀ i j, ∃ y : ℝ≥0∞, y ≤ 1 ∧ P i j = .num false y := by
  obtain ⟨P, hP⟩ := softmax_exists (R := binary32) (F := libm) hX (by norm_num)
  refine ⟨P, hP, fun i j => ?_⟩
  obtain ⟨y, hy, -, he⟩ := softmax_range hP hX (by norm_num) i j
  exact ⟨y, hy, he⟩

theorem inputGrad_exists {P G G₀ : Fin B → Fin n → Flt} (hn : 0 < n) : ∃ D, SoftmaxInputGrad R P G G₀ D := by
  choose d hd using fun i : Fin B => dot_exists (R := R) _ (ofFn_ne hn fun j => (G i j, P i j))
  exact ⟨fun i j => add R (G₀ i j) (mul R (P i j) (sub R (G i j) (d i))), fun i => ⟨d i, hd i, fun j => .inl rfl⟩⟩

/-- Correct predictions, of any certainty, have finite gradients. -/
example (X : Fin 3 → Fin 10 → Flt) (hX : ∀ i j, (X i j).Finite) (label : Fin 3 → Fin 10)
    (hl : ∀ i j, (X i j).val ≤ (X i (label i)).val) :
    ∃ P D, SoftmaxForward binary32 libm X P ∧ SoftmaxInputGrad binary32 P (lossBackward binary32 P label) (fun _ _ => 0) D ∧
      ∀ i j, (D i j).Finite := by
  obtain ⟨P, hP⟩ := softmax_exists (R := binary32) (F := libm) hX (by norm_num)
  obtain ⟨D, hD⟩ := inputGrad_exists (R := binary32) (P := P) (G := lossBackward binary32 P label) (G₀ := fun _ _ => 0) (by norm_num)
  exact ⟨P, D, hP, hD, gradient_finite_max_partial hP hX (by norm_num) (by norm_num) hl (fun _ _ => ⟨false, 0, by simp, rfl⟩) hD⟩

theorem exp_90 : (2 : ℝ) ^ (-130 : ℤ) ≤ Real.exp (-90) ∧ Real.exp (-90) ≤ 2 ^ (-129 : ℤ) := by
  have h1 := Real.log_two_lt_d9
  have h2 := Real.log_two_gt_d9
  have e : ∀ k : ℤ, (2 : ℝ) ^ k = Real.exp (k * Real.log 2) := fun k => by
    rw [← Real.log_zpow, Real.exp_log (two_zpow_pos k)]
  rw [e, e]
  constructor <;> apply Real.exp_le_exp.2 <;> push_cast <;> linarith

/-- The logits 90 and 0 of `float` as it is, and the second label: the loss is finite, but the gradient is NaN. -/
theorem gradient_90 : ∃ X : Fin 1 → Fin 2 → Flt, (∀ i j, (X i j).Finite) ∧ (∃ P, SoftmaxForward binary32 libm X P) ∧
    ∀ P loss D, SoftmaxForward binary32 libm X P → LossForward binary32 libm P (fun _ => 1) loss →
      SoftmaxInputGrad binary32 P (lossBackward binary32 P fun _ => 1) (fun _ _ => 0) D → loss.Finite ∧ D 0 1 = .nan := by
  let X : Fin 1 → Fin 2 → Flt := fun _ j => if j = 0 then .num false (90 : ℕ) else .num false 0
  have hX : ∀ i j, (X i j).Finite := fun i j => by
    show (if j = 0 then Flt.num false (90 : ℕ) else .num false 0).Finite
    split_ifs
    exacts [ENNReal.natCast_ne_top _, ENNReal.zero_ne_top]
  refine ⟨X, hX, softmax_exists hX (by norm_num), fun P loss D hP hloss hD => ?_⟩
  have key : ∃ p : ℝ≥0∞, p ≠ 0 ∧ p ≤ (2 ^ 128)⁻¹ ∧ P 0 1 = .num false p := by
    obtain ⟨m, s, hm, hs, hPe⟩ := hP 0
    have hmv : m = .num false (90 : ℕ) := by
      obtain ⟨j, hj⟩ := hm.1
      fin_cases j
      · exact hj.symm
      · have hj' : m = .num false 0 := hj.symm
        have := hm.2 0
        rw [hj'] at this
        simp [X, Flt.lt] at this
    obtain ⟨z, hz1, hz2, rfl, -⟩ := row (hX 0) (by norm_num) hm hs
    have hz0 : z ≠ 0 := fun h => by simp [h] at hz1
    have hsub : sub binary32 (X 0 1) m = .num true (90 : ℕ) := by
      have h90 : binary32.rd ((90 : ℕ) : ℝ≥0∞) = ((90 : ℕ) : ℝ≥0∞) := rd_nat (by norm_num)
      have hne : (0 : ℝ≥0∞) ≠ ((90 : ℕ) : ℝ≥0∞) := by norm_num
      rw [hmv]
      show addWith binary32.rd (.num false 0) (.num true (90 : ℕ)) = _
      simp only [addWith, Bool.false_eq_true, if_false, hne, not_lt_zero, tsub_zero, h90]
    have hexp : libm.exp (.num true (90 : ℕ)) = .num false (rd32 (ENNReal.ofReal (Real.exp (-90)))) := by
      simp [libm, exp32]
    obtain ⟨hlo, hhi⟩ := exp_90
    have e130 : ENNReal.ofReal (2 ^ (-130 : ℤ)) = (2 ^ 130)⁻¹ := ofReal_two_zpow 130
    have e129 : ENNReal.ofReal (2 ^ (-129 : ℤ)) = (2 ^ 129)⁻¹ := ofReal_two_zpow 129
    have inv : ∀ a b : ℕ, a ≤ b → ((2 : ℝ≥0∞) ^ b)⁻¹ ≤ (2 ^ a)⁻¹ := fun a b h =>
      ENNReal.inv_le_inv.2 (pow_le_pow_right₀ (by norm_num) h)
    have float : ∀ k : ℕ, k ≤ 149 → rd32 (2 ^ k)⁻¹ = (2 ^ k)⁻¹ := fun k hk => by
      have hf := roundReal_float (m := 1) (e := -(k : ℤ)) (by norm_num) (by omega)
      rw [Nat.cast_one, one_mul] at hf
      have hlt : (2 : ℝ) ^ (-(k : ℤ)) < 2 ^ 128 := by
        rw [← zpow_natCast]
        exact zpow_lt_zpow_right₀ (by norm_num) (by push_cast; omega)
      rw [← ofReal_two_zpow, rd32_ofReal (two_zpow_pos _).le (hf.symm ▸ hlt), hf]
    have lo : (2 ^ 130)⁻¹ ≤ rd32 (ENNReal.ofReal (Real.exp (-90))) := by
      rw [← float 130 (by norm_num)]
      exact rd32_mono (e130 ▸ ENNReal.ofReal_le_ofReal hlo)
    have hi : rd32 (ENNReal.ofReal (Real.exp (-90))) ≤ (2 ^ 129)⁻¹ := by
      rw [← float 129 (by norm_num)]
      exact rd32_mono (e129 ▸ ENNReal.ofReal_le_ofReal hhi)
    refine ⟨rd32 (rd32 (ENNReal.ofReal (Real.exp (-90))) / z), ?_, ?_, ?_⟩
    · have h131 : (2 ^ 131)⁻¹ ≤ rd32 (rd32 (ENNReal.ofReal (Real.exp (-90))) / z) := by
        rw [← float 131 (by norm_num)]
        refine rd32_mono ?_
        calc ((2 : ℝ≥0∞) ^ 131)⁻¹ = (2 ^ 130)⁻¹ / 2 := by
              rw [pow_succ 2 130, ENNReal.mul_inv (by simp) (by simp), ENNReal.div_eq_inv_mul, mul_comm]
          _ ≤ rd32 (ENNReal.ofReal (Real.exp (-90))) / z := ENNReal.div_le_div lo (by simpa using hz2)
      intro h
      rw [h] at h131
      simp at h131
    · rw [← float 128 (by norm_num)]
      refine rd32_mono ((ENNReal.div_le_of_le_mul (le_mul_of_one_le_right' hz1)).trans (hi.trans (inv 128 129 (by norm_num))))
    · rw [hPe, hsub, hexp]
      simp [div, divWith, hz0, binary32]
      intro h
      rw [h] at hi
      simp at hi
  obtain ⟨p, hp0, hp, hpe⟩ := key
  refine ⟨(loss_finite_iff hP hX (by norm_num) (by norm_num) (by norm_num) hloss).1 fun i => ?_,
    tiny_probability (i := 0) (label := fun _ => 1) hP hX (by norm_num) hp0 hp hpe hD⟩
  obtain rfl : i = 0 := Subsingleton.elim _ _
  rw [hpe]
  intro h
  exact hp0 (Flt.num.inj h).2

end DW.Props.FloatLossP
