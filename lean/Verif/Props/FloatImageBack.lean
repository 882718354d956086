import Verif.Props.FloatImageExact
import Verif.Props.FloatBack
/-!
# C121: backpropagation through networks on images in `float`

The distance of the gradients of a network with convolutions, pooling and branches from those of exact arithmetic.
-/

set_option autoImplicit false

namespace DW.Props.FloatImageBackP

open DW.Float DW.Props.FloatDotP DW.Props.FloatAccuracyP DW.Props.FloatNetP DW.Props.FloatImageP DW.Props.FloatGradP DW.Props.FloatSoftmaxP
  DW.Props.FloatLossP DW.Props.FloatActP DW.Props.FloatAdamP DW.Props.FloatAdamStepP
open DW.Props.FloatTrainP hiding tiny slope
open DW.Props.FloatBackP (slope backLinear backAct weightError biasError FitsLinear FitsAct isFloat_dot zero_accumulate linear_input_near weight_near bias_near
  act_back_near)
open DW.Spec (Axis)
open DW.FlatL (pair)
open scoped ENNReal

noncomputable section

variable {R : Rounding} {F : Libm R} {q : Sqrt} {ε ρ : ℝ} {N C O H W : ℕ} {s t w : Sh} {ι : Type}

/-! ## Numbers that are added to an element -/

/-- Bounds for the numbers added to an element of a gradient: the exact sum is at most `A`, theirs is within `d` of it, the sum of their magnitudes is at
most `M`, and there are at most `c`. -/
structure Heap where
  A : ℝ
  d : ℝ
  M : ℝ
  c : ℕ

/-- The numbers `K n i` are within the bounds, `D n i` being the exact sum. -/
structure Heaped (R : Rounding) (K : Fin N → ι → Multiset Flt) (D : Fin N → ι → ℝ) (h : Heap) : Prop where
  nonneg : 0 ≤ h.A ∧ 0 ≤ h.d ∧ 0 ≤ h.M
  card : ∀ n i, (K n i).card ≤ h.c
  finite : ∀ n i, ∀ x ∈ K n i, x.Finite ∧ IsFloat R x
  mass : ∀ n i, ((K n i).map fun x => |x.val|).sum ≤ h.M
  size : ∀ n i, |D n i| ≤ h.A
  error : ∀ n i, |((K n i).map Flt.val).sum - D n i| ≤ h.d

/-- One number. -/
def single (b : Bounds) : Heap := ⟨b.A, b.d, b.A + b.d, 1⟩

/-- Up to `k` numbers. -/
def spread (k : ℕ) (b : Bounds) : Heap := ⟨k * b.A, k * b.d, k * (b.A + b.d), k⟩

/-- The numbers of two layers. -/
def Heap.plus (h k : Heap) : Heap := ⟨h.A + k.A, h.d + k.d, h.M + k.M, h.c + k.c⟩

/-- The bounds for the element after all have been added. One number added to 0 is not rounded. -/
def settle (h : Heap) : Bounds :=
  if h.c ≤ 1 then ⟨h.A, h.d⟩ else ⟨h.A, h.d + ((1 + u) ^ h.c - 1) * h.M + 2 * h.c * η * (1 + u) ^ h.c⟩

/-- The element does not overflow. -/
def FitsHeap (h : Heap) : Prop := h.c ≤ 1 ∨ (1 + u) ^ h.c * (h.M + 2 * h.c * η) ≤ big

theorem fold_sum {l : List Flt} (hl : l ≠ []) : SumOf R l (l.foldl (add R) 0) := by
  induction l using List.reverseRecOn with
  | nil => exact (hl rfl).elim
  | append_singleton l x ih =>
    rw [List.foldl_append]
    by_cases h : l = []
    · rw [h]; exact .start x
    · exact .add (ih h) (.one x)

theorem isFloat_fold (l : List Flt) : IsFloat R (l.foldl (add R) 0) := by
  induction l using List.reverseRecOn with
  | nil => exact isFloat_zero
  | append_singleton l x _ =>
    rw [List.foldl_append]
    exact isFloat_add _ _

theorem piled_close {K : Fin N → ι → Multiset Flt} {D : Fin N → ι → ℝ} {h : Heap} (hK : Heaped R K D h) (hf : FitsHeap h) {E : Fin N → ι → Flt}
    (hE : ∀ n i, Piled R (K n i) (E n i)) (n : Fin N) : Close R (E n) (D n) (settle h) := by
  have hu := u_pos
  have hη := η_pos
  obtain ⟨hA, hd, hM⟩ := hK.nonneg
  have g0 : 1 ≤ (1 + u) ^ h.c := one_le_pow₀ (by linarith)
  have g1 : 0 ≤ (1 + u) ^ h.c - 1 := by linarith
  suffices key : ∀ i, (E n i).Finite ∧ IsFloat R (E n i) ∧ |(E n i).val - D n i| ≤ (settle h).d by
    refine ⟨?_, fun i => (key i).1, fun i => (key i).2.1, fun i => ?_, fun i => (key i).2.2⟩
    · unfold settle
      split
      · exact ⟨hA, hd⟩
      · exact ⟨hA, by positivity⟩
    · have e : (settle h).A = h.A := by unfold settle; split <;> rfl
      rw [e]
      exact hK.size n i
  intro i
  obtain ⟨l, hl, hs⟩ := hE n i
  have err := hK.error n i
  have ms := hK.mass n i
  have cd := hK.card n i
  have fin := hK.finite n i
  rw [← hl] at err ms cd fin
  rw [Multiset.map_coe, Multiset.sum_coe] at err ms
  rw [Multiset.coe_card] at cd
  refine ⟨?_, hs ▸ isFloat_fold l, ?_⟩ <;> rw [hs]
  · rcases l with _ | ⟨x, l⟩
    · exact finite_zero
    rcases hf with hf | hf
    · have : l = [] := List.length_eq_zero_iff.1 (by simp at cd; omega)
      subst this
      obtain ⟨f1, f2⟩ := fin x (by simp)
      exact (zero_accumulate f1 f2).1
    · refine (sum_good (fold_sum (by simp)) (fun a ha => (fin a ha).1) (pow_le_pow_right₀ (by linarith) cd) (le_trans ?_ hf)).1
      have c1 : ((x :: l).length : ℝ) ≤ h.c := by exact_mod_cast cd
      have c2 := mul_le_mul_of_nonneg_right c1 hη.le
      refine mul_le_mul_of_nonneg_left ?_ (by linarith)
      change FloatTrainP.mass (x :: l) ≤ h.M at ms
      linarith
  · unfold settle
    split
    · next hc =>
      rcases l with _ | ⟨x, l⟩
      · simpa [val_zero] using err
      have : l = [] := List.length_eq_zero_iff.1 (by simp at cd; omega)
      subst this
      obtain ⟨f1, f2⟩ := fin x (by simp)
      show |(accumulate R 0 x).val - D n i| ≤ h.d
      rw [(zero_accumulate f1 f2).2]
      simpa using err
    · next hc =>
      have hf' := hf.resolve_left hc
      have p1 : 0 ≤ ((1 + u) ^ h.c - 1) * h.M := mul_nonneg g1 hM
      have p2 : 0 ≤ 2 * h.c * η * (1 + u) ^ h.c := by positivity
      show |_| ≤ h.d + ((1 + u) ^ h.c - 1) * h.M + 2 * h.c * η * (1 + u) ^ h.c
      by_cases hnil : l = []
      · subst hnil
        have : |(0 : Flt).val - D n i| ≤ h.d := by simpa [val_zero] using err
        exact this.trans (by linarith)
      have c1 : (l.length : ℝ) ≤ h.c := by exact_mod_cast cd
      have c2 := mul_le_mul_of_nonneg_right c1 hη.le
      change FloatTrainP.mass l ≤ h.M at ms
      have m0 := mass_nonneg l
      have pw : (1 + u) ^ l.length ≤ (1 + u) ^ h.c := pow_le_pow_right₀ (by linarith) cd
      obtain ⟨-, e⟩ := sum_good (fold_sum (R := R) hnil) (fun a ha => (fin a ha).1) pw (by
        refine le_trans (mul_le_mul_of_nonneg_left ?_ (by linarith)) hf'
        linarith)
      have t := abs_sub_le (l.foldl (add R) 0).val (total l) (D n i)
      change |total l - D n i| ≤ h.d at err
      have a1 : ((1 + u) ^ l.length - 1) * FloatTrainP.mass l ≤ ((1 + u) ^ h.c - 1) * h.M := mul_le_mul (by linarith) ms m0 g1
      have a2 : (2 * (l.length : ℝ) - 1) * η * (1 + u) ^ l.length ≤ 2 * h.c * η * (1 + u) ^ h.c := by
        have p0 : 0 ≤ (1 + u) ^ l.length := by positivity
        calc (2 * (l.length : ℝ) - 1) * η * (1 + u) ^ l.length ≤ 2 * h.c * η * (1 + u) ^ l.length :=
              mul_le_mul_of_nonneg_right (by linarith) p0
          _ ≤ _ := mul_le_mul_of_nonneg_left pw (by positivity)
      linarith

theorem single_heaped [NeZero N] {K : Fin N → ι → Multiset Flt} {x : Fin N → ι → Flt} {D : Fin N → ι → ℝ} {b : Bounds}
    (h : ∀ n, Close R (x n) (D n) b) (hK : ∀ n i, K n i = {x n i}) : Heaped R K D (single b) := by
  obtain ⟨hA, hd⟩ := (h 0).nonneg
  refine ⟨⟨hA, hd, add_nonneg hA hd⟩, fun n i => ?_, fun n i y hy => ?_, fun n i => ?_, fun n i => (h n).size i, fun n i => ?_⟩
  · rw [hK, Multiset.card_singleton]; exact le_rfl
  · rw [hK, Multiset.mem_singleton] at hy
    rw [hy]
    exact ⟨(h n).finite i, (h n).isFloat i⟩
  · rw [hK, Multiset.map_singleton, Multiset.sum_singleton]
    exact (h n).val_le i
  · rw [hK, Multiset.map_singleton, Multiset.sum_singleton]
    exact (h n).error i

theorem plus_heaped {K L S : Fin N → ι → Multiset Flt} {D E Z : Fin N → ι → ℝ} {h k : Heap} (h1 : Heaped R K D h) (h2 : Heaped R L E k)
    (hS : ∀ n i, S n i = K n i + L n i) (hZ : ∀ n i, Z n i = D n i + E n i) : Heaped R S Z (h.plus k) := by
  obtain ⟨a1, a2, a3⟩ := h1.nonneg
  obtain ⟨b1, b2, b3⟩ := h2.nonneg
  refine ⟨⟨add_nonneg a1 b1, add_nonneg a2 b2, add_nonneg a3 b3⟩, fun n i => ?_, fun n i y hy => ?_, fun n i => ?_, fun n i => ?_, fun n i => ?_⟩
  · rw [hS, Multiset.card_add]; exact Nat.add_le_add (h1.card n i) (h2.card n i)
  · rw [hS, Multiset.mem_add] at hy
    exact hy.elim (h1.finite n i y) (h2.finite n i y)
  · rw [hS, Multiset.map_add, Multiset.sum_add]
    exact add_le_add (h1.mass n i) (h2.mass n i)
  · rw [hZ]
    exact (abs_add_le _ _).trans (add_le_add (h1.size n i) (h2.size n i))
  · rw [hS, hZ, Multiset.map_add, Multiset.sum_add, add_sub_add_comm]
    exact (abs_add_le _ _).trans (add_le_add (h1.error n i) (h2.error n i))

/-- With positive strides, an element of the image lies under at most one element of the buffer for each element of the window. -/
theorem over_card {a b : Axis} (ha : 0 < a.stride) (hb : 0 < b.stride) (i : Fin C × Fin a.size × Fin b.size) :
    (Finset.univ.filter fun z : Fin (C * (a.kernel * b.kernel)) × Fin (a.out * b.out) => Over a b z.1 z.2 i).card ≤ a.kernel * b.kernel := by
  have := Finset.card_le_card_of_injOn (s := Finset.univ.filter fun z : Fin (C * (a.kernel * b.kernel)) × Fin (a.out * b.out) => Over a b z.1 z.2 i)
    (t := (Finset.univ : Finset (Fin (a.kernel * b.kernel)))) (fun z => z.1.modNat) (fun _ _ => Finset.mem_univ _) (by
      rintro ⟨t, p⟩ h1 ⟨t', p'⟩ h2 e
      simp only [Finset.coe_filter, Finset.mem_univ, true_and, Set.mem_setOf_eq] at h1 h2 e
      obtain ⟨c1, y1, x1⟩ := h1
      obtain ⟨c2, y2, x2⟩ := h2
      have et : t = t' := by rw [← FlatL.pair_div_mod t, ← FlatL.pair_div_mod t', c1, c2, e]
      subst et
      have inj : ∀ (ax : Axis) (r r' k : ℕ), 0 < ax.stride → ax.pos r k = ax.pos r' k → r = r' := fun ax r r' k hs h => by
        unfold Axis.pos at h
        have h' : (r : ℤ) * ax.stride = r' * ax.stride := by linarith
        have hs' : (ax.stride : ℤ) ≠ 0 := by exact_mod_cast hs.ne'
        exact_mod_cast mul_right_cancel₀ hs' h'
      have e1 : p.divNat = p'.divNat := Fin.ext (inj a _ _ _ ha (y1.trans y2.symm))
      have e2 : p.modNat = p'.modNat := Fin.ext (inj b _ _ _ hb (x1.trans x2.symm))
      rw [← FlatL.pair_div_mod p, ← FlatL.pair_div_mod p', e1, e2])
  rwa [Finset.card_univ, Fintype.card_fin] at this

theorem gather_heaped {a b : Axis} (ha : 0 < a.stride) (hb : 0 < b.stride) {S : Fin N → Fin (C * (a.kernel * b.kernel)) → Fin (a.out * b.out) → Flt}
    {σ : Fin N → Fin (C * (a.kernel * b.kernel)) → Fin (a.out * b.out) → ℝ} {e : Bounds} (he : 0 ≤ e.A ∧ 0 ≤ e.d)
    (h : ∀ n t p, (S n t p).Finite ∧ IsFloat R (S n t p) ∧ |σ n t p| ≤ e.A ∧ |(S n t p).val - σ n t p| ≤ e.d)
    {K : Fin N → Fin C × Fin a.size × Fin b.size → Multiset Flt} {D : Fin N → Fin C × Fin a.size × Fin b.size → ℝ}
    (hK : ∀ n i, K n i = col2imFloat a b (S n) i) (hD : ∀ n i, D n i = gather a b (σ n) i) : Heaped R K D (spread (a.kernel * b.kernel) e) := by
  obtain ⟨hA, hd⟩ := he
  have count : ∀ (i : Fin C × Fin a.size × Fin b.size) (z : Fin (C * (a.kernel * b.kernel)) × Fin (a.out * b.out) → ℝ) (c : ℝ), 0 ≤ c → (∀ w, z w ≤ c) →
      ∑ w with Over a b w.1 w.2 i, z w ≤ (a.kernel * b.kernel : ℕ) * c := fun i z c hc hz => by
    refine (Finset.sum_le_sum fun w _ => hz w).trans ?_
    rw [Finset.sum_const, nsmul_eq_mul]
    exact mul_le_mul_of_nonneg_right (by exact_mod_cast over_card ha hb i) hc
  have val : ∀ n t p, |(S n t p).val| ≤ e.A + e.d := fun n t p => by
    obtain ⟨-, -, h1, h2⟩ := h n t p
    have := abs_add_le (σ n t p) ((S n t p).val - σ n t p)
    rw [add_sub_cancel] at this
    linarith
  refine ⟨⟨by simp only [spread]; positivity, by simp only [spread]; positivity, by simp only [spread]; positivity⟩, fun n i => ?_, fun n i y hy => ?_,
    fun n i => ?_, fun n i => ?_, fun n i => ?_⟩
  · rw [hK, col2imFloat, Multiset.card_map]
    exact over_card ha hb i
  · rw [hK, col2imFloat, Multiset.mem_map] at hy
    obtain ⟨z, -, rfl⟩ := hy
    exact ⟨(h n z.1 z.2).1, (h n z.1 z.2).2.1⟩
  · rw [hK, col2imFloat, Multiset.map_map]
    exact count i (fun z => |(S n z.1 z.2).val|) _ (add_nonneg hA hd) fun w => val n w.1 w.2
  · rw [hD]
    exact (Finset.abs_sum_le_sum_abs _ _).trans (count i (fun z => |σ n z.1 z.2|) _ hA fun w => (h n w.1 w.2).2.2.1)
  · rw [hK, hD, col2imFloat, Multiset.map_map]
    have e1 : (Multiset.map (Flt.val ∘ fun z : Fin (C * (a.kernel * b.kernel)) × Fin (a.out * b.out) => S n z.1 z.2)
        (Finset.univ.filter fun z : Fin (C * (a.kernel * b.kernel)) × Fin (a.out * b.out) => Over a b z.1 z.2 i).val).sum =
        ∑ z : Fin (C * (a.kernel * b.kernel)) × Fin (a.out * b.out) with Over a b z.1 z.2 i, (S n z.1 z.2).val := rfl
    rw [e1, gather, ← Finset.sum_sub_distrib]
    exact (Finset.abs_sum_le_sum_abs _ _).trans (count i (fun z => |(S n z.1 z.2).val - σ n z.1 z.2|) _ hd fun w => (h n w.1 w.2).2.2.2)

/-! ## The bounds -/

/-- The bounds for the numbers added to the gradient of the inputs; `p` are the bounds for the inputs, `e` those for the gradient of the outputs. -/
def heap (ε ρ : ℝ) : {s t : Sh} → ImgNet s t → (p e : Bounds) → Heap
  | _, _, .skip, _, e => single e
  | _, _, .act a, p, e => single (backAct ε p.d a e)
  | _, _, .linear W _, _, e => single (backLinear W e)
  | _, _, .conv a b W _, _, e => spread (a.kernel * b.kernel) (backLinear W e)
  | _, _, .maxPool a b, _, e => spread (a.kernel * b.kernel) e
  | _, _, .avgPool (H := H) (W := W), _, e => single ⟨e.A / (H * W : ℕ), e.d / (H * W : ℕ) + u * ((e.A + e.d) / (H * W : ℕ)) + η⟩
  | _, _, .flat, _, e => single e
  | _, _, .seq f g, p, e => heap ε ρ f p (settle (heap ε ρ g (after' ε ρ f.net p) e))
  | _, _, .join f g, p, e => (heap ε ρ f p e).plus (heap ε ρ g p e)

/-- The bounds for the gradient of a weight of a convolution from one image, of which `P` windows are taken. -/
def convWeight (P : ℕ) (p e : Bounds) : Bounds := ⟨P * (e.A * p.A), weightError P p e⟩

/-- The same for a bias. -/
def convBias (P : ℕ) (e : Bounds) : Bounds := ⟨P * e.A, biasError P e⟩

/-- A sum of `N` numbers within the bounds does not overflow. -/
def FitsSum (N : ℕ) (e : Bounds) : Prop := (1 + u) ^ N * (N * (e.A + e.d) + 2 * N * η) ≤ big

/-- Nothing overflows in the backward pass; strides are positive. -/
def FitsImgBack (N : ℕ) (ε ρ : ℝ) : {s t : Sh} → ImgNet s t → (p e : Bounds) → Prop
  | _, _, .skip, _, _ => True
  | _, _, .act a, _, e => FitsAct a e
  | _, _, .linear W _, p, e => FitsLinear N W p e
  | _, _, .conv a b W _, p, e => (0 < a.stride ∧ 0 < b.stride) ∧ FitsLinear (a.out * b.out) W p e ∧ FitsSum N (convWeight (a.out * b.out) p e) ∧
    FitsSum N (convBias (a.out * b.out) e)
  | _, _, .maxPool a b, _, _ => 0 < a.stride ∧ 0 < b.stride
  | _, _, .avgPool (H := H) (W := W), _, e => H * W ≤ 2 ^ 24 ∧ e.A + e.d ≤ big
  | _, _, .flat, _, _ => True
  | _, _, .seq f g, p, e => FitsImgBack N ε ρ g (after' ε ρ f.net p) e ∧ FitsHeap (heap ε ρ g (after' ε ρ f.net p) e) ∧
    FitsImgBack N ε ρ f p (settle (heap ε ρ g (after' ε ρ f.net p) e))
  | _, _, .join f g, p, e => FitsImgBack N ε ρ f p e ∧ FitsImgBack N ε ρ g p e

/-- The errors of the program's numbers do not change the side of a kink: the exact inputs of ReLU, LeakyReLU and ELU are farther from 0, and an
element of a window of max pooling that is not a largest is farther below the largest. -/
def ImgClear (ε ρ : ℝ) : {s t : Sh} → ImgNet s t → (p : Bounds) → (Fin N → s.Ix → ℝ) → Prop
  | _, _, .act a, p, T => a = .sigmoid ∨ ∀ n i, p.d < |T n i|
  | _, _, .maxPool a b, p, T => ∀ n c (x : Fin (a.out * b.out)) t, (∀ t', poolCol a b (T n) floatMin c x t' ≤ poolCol a b (T n) floatMin c x t) ∨
    ∃ t', poolCol a b (T n) floatMin c x t + 2 * p.d < poolCol a b (T n) floatMin c x t'
  | _, _, .seq f g, p, T => ImgClear ε ρ f p T ∧ ImgClear ε ρ g (after' ε ρ f.net p) fun n => net f.net (T n)
  | _, _, .join f g, p, T => ImgClear ε ρ f p T ∧ ImgClear ε ρ g p T
  | _, _, _, _, _ => True

/-- A number of the program is finite, within `e.d` of the exact one, and that is at most `e.A`. -/
def Good (x : Flt) (y : ℝ) (e : Bounds) : Prop := x.Finite ∧ |x.val - y| ≤ e.d ∧ |y| ≤ e.A

/-- The gradients `g` of the parameters are finite and within the bounds of `P`. -/
def ImgParamsNear (N : ℕ) (ε ρ : ℝ) : {s t : Sh} → (f : ImgNet s t) → (p e : Bounds) → Params Flt f → Params ℝ f → Prop
  | _, _, .linear _ _, p, e, g, P => (∀ j r, Good (g.1 j r) (P.1 j r) (convWeight N p e)) ∧ ∀ j, Good (g.2 j) (P.2 j) (convBias N e)
  | _, _, .conv a b _ _, p, e, g, P => (∀ j r, Good (g.1 j r) (P.1 j r) (convBias N (convWeight (a.out * b.out) p e))) ∧
    ∀ j, Good (g.2 j) (P.2 j) (convBias N (convBias (a.out * b.out) e))
  | _, _, .seq f h, p, e, g, P =>
    ImgParamsNear N ε ρ f p (settle (heap ε ρ h (after' ε ρ f.net p) e)) g.1 P.1 ∧ ImgParamsNear N ε ρ h (after' ε ρ f.net p) e g.2 P.2
  | _, _, .join f h, p, e, g, P => ImgParamsNear N ε ρ f p e g.1 P.1 ∧ ImgParamsNear N ε ρ h p e g.2 P.2
  | _, _, _, _, _, _, _ => True

/-! ## All layers -/

theorem backward_forward (f : ImgNet s t) {X : Fin N → s.Ix → Flt} {Y G : Fin N → t.Ix → Flt} {K : Fin N → s.Ix → Multiset Flt} {g : Params Flt f}
    (h : f.Backward R F X Y G K g) (n : Fin N) : f.net.Forward R F q (X n) (Y n) := by
  induction f with
  | skip => rw [h.1]; rfl
  | act a => exact h.1 n
  | linear W b => exact fun _ => h.1 n
  | conv a b W bias => exact h.1 n
  | maxPool a b =>
    obtain ⟨row, h1, -⟩ := h
    intro c r s
    obtain ⟨k1, k2⟩ := h1 n c (pair r s)
    simp only [poolPixel, FlatL.pair_divNat, FlatL.pair_modNat] at k1 k2
    exact ⟨⟨_, k2.symm⟩, fun t => by rw [k2]; exact k1 t⟩
  | avgPool => exact h.1 n
  | flat => exact h.1 n
  | seq f g ihf ihg =>
    obtain ⟨Z, E, L, h1, h2, -⟩ := h
    exact ⟨Z n, ihf h1, ihg h2⟩
  | join f g ihf ihg =>
    obtain ⟨Z, Z', E, E', L, L', h1, h2, h3, -⟩ := h
    exact ⟨Z n, Z' n, ihf h1, ihg h2, h3 n⟩

theorem isFloat_sum {l : List Flt} {x : Flt} (h : SumOf R l x) (hl : ∀ a ∈ l, IsFloat R a) : IsFloat R x := by
  induction h with
  | one a => exact hl a (by simp)
  | start a => exact isFloat_add _ _
  | add _ _ => exact isFloat_add _ _
  | perm hp _ ih => exact ih fun a ha => hl a (hp.subset ha)

theorem copied_close {G E : ι → Flt} {Γ : ι → ℝ} {e : Bounds} (hG : Close R G Γ e) (hE : ∀ i, E i = G i ∨ E i = add R 0 (G i)) : Close R E Γ e := by
  have key : ∀ i, (E i).Finite ∧ IsFloat R (E i) ∧ (E i).val = (G i).val := fun i => by
    rcases hE i with h | h
    · rw [h]; exact ⟨hG.finite i, hG.isFloat i, rfl⟩
    · have := zero_accumulate (hG.finite i) (hG.isFloat i)
      rw [h]
      exact ⟨this.1, isFloat_add _ _, this.2⟩
  exact ⟨hG.nonneg, fun i => (key i).1, fun i => (key i).2.1, hG.size, fun i => by rw [(key i).2.2]; exact hG.error i⟩

theorem patch_within {a b : Axis} {X : Fin C × Fin a.size × Fin b.size → Flt} {T : Fin C × Fin a.size × Fin b.size → ℝ} {p : Bounds} (hp : Close R X T p) :
    Within R (patch a b (fun c y x => X (c, y, x)) 0) (col a b T) p := by
  have px := fun (c : Fin C) (y x : ℤ) => pixel_close (R := R) (X := fun y x => X (c, y, x)) (T := fun y x => T (c, y, x)) hp.nonneg.2 (fun _ _ => hp.finite _)
    (fun _ _ => hp.isFloat _) (fun _ _ => hp.size _) (fun _ _ => hp.error _) finite_zero isFloat_zero (by rw [val_zero, abs_zero]; exact hp.nonneg.1) y x
  rw [val_zero] at px
  exact ⟨hp.nonneg, fun _ _ => (px _ _ _).1, fun _ _ => (px _ _ _).2.1, fun _ _ => (px _ _ _).2.2.1, fun _ _ => (px _ _ _).2.2.2⟩

theorem fold_near [NeZero N] {s : Fin N → Flt} {σ : Fin N → ℝ} {e : Bounds} (he : 0 ≤ e.A ∧ 0 ≤ e.d) (h : ∀ n, Good (s n) (σ n) e)
    (hi : ∀ n, IsFloat R (s n)) (hf : FitsSum N e) : Good ((List.ofFn s).foldl (add R) 0) (∑ n, σ n) (convBias N e) :=
  bias_near (R := R) (E := fun n (_ : Fin 1) => s n) (Γ := fun n _ => σ n) (j := 0)
    ⟨he, fun n _ => (h n).1, fun n _ => hi n, fun n _ => (h n).2.2, fun n _ => (h n).2.1⟩ hf
    (fold_sum (by rw [Ne, List.ofFn_eq_nil_iff]; exact NeZero.ne N))

theorem backward_near [NeZero N] (hL : Accurate F q ε ρ) (hmin : IsFloat R fltMin) (f : ImgNet s t) {X : Fin N → s.Ix → Flt} {Y G : Fin N → t.Ix → Flt}
    {K : Fin N → s.Ix → Multiset Flt} {g : Params Flt f} {T : Fin N → s.Ix → ℝ} {Γ : Fin N → t.Ix → ℝ} {p e : Bounds}
    (hX : ∀ n, Close R (X n) (T n) p) (hG : ∀ n, Close R (G n) (Γ n) e) (hf : Fits' ε ρ f.net p) (hb : FitsImgBack N ε ρ f p e)
    (hc : ImgClear ε ρ f p T) (h : f.Backward R F X Y G K g) :
    ∃ D P, Back f T Γ D P ∧ Heaped R K D (heap ε ρ f p e) ∧ ImgParamsNear N ε ρ f p e g P := by
  induction f generalizing p e with
  | skip => exact ⟨Γ, (), rfl, single_heaped hG h.2, trivial⟩
  | act a =>
    refine ⟨fun n i => Γ n i * slope a (T n i), (), fun _ _ => rfl, ?_, trivial⟩
    have key := fun n i => act_back_near (n := 1) (B := 1) (q := q) hL a (X := fun _ _ => X n i) (Z := fun _ _ => Y n i) (E := fun _ _ => G n i) ((hX n).rows fun _ _ => i)
      (by cases a <;> exact hf) (by cases a <;> exact fun _ _ => h.1 n i) ((hG n).rows fun _ _ => i) hb (hc.imp_right fun hc _ _ => hc n i)
    have key0 : 0 ≤ (backAct ε p.d a e).A ∧ 0 ≤ (backAct ε p.d a e).d := by
      have n1 := (hX 0).nonneg
      have n2 := (hG 0).nonneg
      obtain ⟨n3, n4⟩ := n1
      obtain ⟨n5, n6⟩ := n2
      have := hL.exp_nonneg
      have := u_pos
      have := η_pos
      have l1 : ∀ x : ℝ, 0 ≤ max 1 |x| := fun x => le_trans zero_le_one (le_max_left _ _)
      cases a with
      | relu => exact ⟨n5, n6⟩
      | leakyRelu alpha => have := l1 alpha.val; exact ⟨by simp only [backAct]; positivity, by simp only [backAct]; positivity⟩
      | elu alpha => have := l1 alpha.val; exact ⟨by simp only [backAct]; positivity, by simp only [backAct]; positivity⟩
      | sigmoid => exact ⟨by simp only [backAct]; positivity, by simp only [backAct]; positivity⟩
    exact single_heaped (x := fun n i => a.back R F (X n i) (Y n i) (G n i)) (fun n => ⟨key0, fun i => ((key n i).2 0 0).1, fun i => ((key n i).2 0 0).2.1,
      fun i => ((key n i).2 0 0).2.2.1, fun i => ((key n i).2 0 0).2.2.2⟩) h.2
  | @linear n' k W b =>
    obtain ⟨h1, h2, h3⟩ := h
    choose x hx hK using h3
    have wX : Within R X T p := ⟨(hX 0).nonneg, fun n => (hX n).finite, fun n => (hX n).isFloat, fun n => (hX n).size, fun n => (hX n).error⟩
    have wG : Within R G Γ e := ⟨(hG 0).nonneg, fun n => (hG n).finite, fun n => (hG n).isFloat, fun n => (hG n).size, fun n => (hG n).error⟩
    refine ⟨fun n r => ∑ j, Γ n j * (W j r).val, (fun j r => ∑ n, Γ n j * T n r, fun j => ∑ n, Γ n j), ⟨fun _ _ => rfl, fun _ _ => rfl, fun _ => rfl⟩, ?_,
      fun j r => weight_near wX wG hb.2.1 (h2.1 j r), fun j => bias_near wG hb.2.2 (h2.2 j)⟩
    have key := linear_input_near hf.1 wG hb.1 (D := x) fun i r => ⟨x i r, hx i r, Or.inl rfl⟩
    exact single_heaped (fun n => ⟨key.nonneg, key.finite n, key.isFloat n, key.size n, key.error n⟩) hK
  | @conv C O a b W bias =>
    obtain ⟨h1, ⟨h2, h3⟩, h4⟩ := h
    obtain ⟨⟨sa, sb⟩, b1, b2, b3⟩ := hb
    choose S hS hK using h4
    have wX := fun n => patch_within (a := a) (b := b) (hX n)
    have wG := fun n => (hG n).rows fun (p : Fin (a.out * b.out)) (o : Fin O) => (o, p.divNat, p.modNat)
    have key := fun n => linear_input_near hf.1 (wG n) b1.1 (D := fun p t => S n t p) fun p t => ⟨S n t p, hS n t p, Or.inl rfl⟩
    have hw := fun n o t x => weight_near (wX n) (wG n) b1.2.1 (j := o) (r := t) (s := x)
    have hv := fun n o x => bias_near (wG n) b1.2.2 (j := o) (s := x)
    refine ⟨fun n i => gather a b (fun t p => ∑ o, Γ n (o, p.divNat, p.modNat) * (W o t).val) i,
      (fun o t => ∑ n, ∑ p : Fin (a.out * b.out), Γ n (o, p.divNat, p.modNat) * col a b (T n) p t,
        fun o => ∑ n, ∑ p : Fin (a.out * b.out), Γ n (o, p.divNat, p.modNat)), ⟨fun _ _ => rfl, fun _ _ => rfl, fun _ => rfl⟩, ?_, fun o t => ?_, fun o => ?_⟩
    · exact gather_heaped sa sb (key 0).nonneg (S := S) (σ := fun n t p => ∑ o, Γ n (o, p.divNat, p.modNat) * (W o t).val)
        (fun n t p => ⟨(key n).finite p t, (key n).isFloat p t, (key n).size p t, (key n).error p t⟩) hK fun _ _ => rfl
    · obtain ⟨x, hx, hg⟩ := h2 o t
      have good := fun n => hw n o t (x n) (hx n)
      rw [hg]
      exact fold_near (e := convWeight (a.out * b.out) p e) ⟨(abs_nonneg _).trans (good 0).2.2, (abs_nonneg _).trans (good 0).2.1⟩ good
        (fun n => isFloat_dot (hx n)) b2
    · obtain ⟨x, hx, hg⟩ := h3 o
      have good := fun n => hv n o (x n) (hx n)
      rw [hg]
      exact fold_near (e := convBias (a.out * b.out) e) ⟨(abs_nonneg _).trans (good 0).2.2, (abs_nonneg _).trans (good 0).2.1⟩ good
        (fun n => isFloat_sum (hx n) fun y hy => by
          obtain ⟨i, rfl⟩ := List.mem_ofFn.1 hy
          exact (hG n).isFloat _) b3
  | @maxPool C a b =>
    obtain ⟨row, h1, h2⟩ := h
    refine ⟨_, (), ⟨row, fun n c p' t => ?_, fun _ _ => rfl⟩, ?_, trivial⟩
    · have px := fun t : Fin (a.kernel * b.kernel) => pixel_close (R := R) (X := fun y x => X n (c, y, x)) (T := fun y x => T n (c, y, x)) (A := max p.A floatMin)
        (hX n).nonneg.2 (fun _ _ => (hX n).finite _) (fun _ _ => (hX n).isFloat _) (fun _ _ => ((hX n).size _).trans (le_max_left _ _))
        (fun _ _ => (hX n).error _) fltMin_finite hmin
        (by rw [fltMin_val, abs_of_pos floatMin_pos]; exact le_max_right _ _) (a.pos p'.divNat t.divNat) (b.pos p'.modNat t.modNat)
      rw [fltMin_val] at px
      rcases hc n c p' (row n c p') with h3 | ⟨t', h3⟩
      · exact h3 t
      · have k1 := (h1 n c p').1 t'
        unfold poolPixel at k1
        rw [lt_iff (px _).1 (px _).1] at k1
        have k2 := (abs_le.1 (px (row n c p')).2.2.2).2
        have k3 := (abs_le.1 (px t').2.2.2).1
        refine absurd h3 (not_lt.2 ?_)
        have k4 := not_lt.1 k1
        unfold poolCol
        linarith
    · refine gather_heaped hb.1 hb.2 (hG 0).nonneg (S := fun n t p => if t.modNat = row n t.divNat p then G n (t.divNat, p.divNat, p.modNat) else 0)
        (σ := fun n t p => if t.modNat = row n t.divNat p then Γ n (t.divNat, p.divNat, p.modNat) else 0) (fun n t p => ?_) h2 fun _ _ => rfl
      split_ifs
      · exact ⟨(hG n).finite _, (hG n).isFloat _, (hG n).size _, (hG n).error _⟩
      · refine ⟨finite_zero, isFloat_zero, by rw [abs_zero]; exact (hG n).nonneg.1, by rw [val_zero, sub_zero, abs_zero]; exact (hG n).nonneg.2⟩
  | @avgPool C H W =>
    obtain ⟨hA, hd⟩ := (hG 0).nonneg
    have hu := u_pos
    have hη := η_pos
    refine ⟨fun n i => Γ n i.1 / (H * W : ℕ), (), fun _ _ => rfl, ?_, trivial⟩
    refine single_heaped (x := fun n i => div R (G n i.1) (ofNat R (H * W))) (fun n => ?_) h.2
    have key : ∀ i : Fin C × Fin H × Fin W, (div R (G n i.1) (ofNat R (H * W))).Finite ∧ |Γ n i.1 / (H * W : ℕ)| ≤ e.A / (H * W : ℕ) ∧
        |(div R (G n i.1) (ofNat R (H * W))).val - Γ n i.1 / (H * W : ℕ)| ≤ e.d / (H * W : ℕ) + u * ((e.A + e.d) / (H * W : ℕ)) + η := fun i => by
      have hn0 : 0 < H * W := Nat.mul_pos (i.2.1.pos) (i.2.2.pos)
      have hN : (0 : ℝ) < (H * W : ℕ) := by exact_mod_cast hn0
      have hN1 : (1 : ℝ) ≤ (H * W : ℕ) := by exact_mod_cast hn0
      rw [FloatCountP.ofNat_exact hb.1]
      set M : ℝ := ((H * W : ℕ) : ℝ) with hM
      have nv : (Flt.num false ((H * W : ℕ) : ℝ≥0∞)).val = M := by simp [Flt.val, hM]
      have gv := (hG n).val_le i.1
      have q1 : |(G n i.1).val / M| ≤ (e.A + e.d) / M := by
        rw [abs_div, abs_of_pos hN]
        exact div_le_div_of_nonneg_right gv hN.le
      have nd := near_div (R := R) ((hG n).finite i.1) (b := .num false ((H * W : ℕ) : ℝ≥0∞)) (ENNReal.natCast_ne_top _) (by rw [nv]; exact hN.ne') (by
        rw [nv]
        refine q1.trans ((div_le_self (add_nonneg hA hd) hN1).trans hb.2))
      rw [nv] at nd
      refine ⟨nd.1, ?_, ?_⟩
      · rw [abs_div, abs_of_pos hN]
        exact div_le_div_of_nonneg_right ((hG n).size _) hN.le
      · have e1 := nd.2
        have e2 : |(G n i.1).val / M - Γ n i.1 / M| ≤ e.d / M := by
          rw [← sub_div, abs_div, abs_of_pos hN]
          exact div_le_div_of_nonneg_right ((hG n).error _) hN.le
        have e3 := mul_le_mul_of_nonneg_left q1 hu.le
        have e4 := abs_sub_le (div R (G n i.1) (.num false ((H * W : ℕ) : ℝ≥0∞))).val ((G n i.1).val / M) (Γ n i.1 / M)
        linarith
    exact ⟨⟨by positivity, by positivity⟩, fun i => (key i).1, fun i => isFloat_div _ _, fun i => (key i).2.1, fun i => (key i).2.2⟩
  | @flat C H W =>
    refine ⟨fun n i => Γ n (pair i.1 (pair i.2.1 i.2.2)), (), fun n k => congrArg (Γ n) (pair_place k), ?_, trivial⟩
    refine single_heaped (x := fun n i => G n (pair i.1 (pair i.2.1 i.2.2))) (fun n => ⟨(hG n).nonneg, fun _ => (hG n).finite _, fun _ => (hG n).isFloat _,
      fun _ => (hG n).size _, fun _ => (hG n).error _⟩) fun n i => ?_
    have := h.2 n (pair i.1 (pair i.2.1 i.2.2))
    rwa [place_pair] at this
  | seq f h' ihf ihg =>
    obtain ⟨Z, E, L, h1, h2, h3⟩ := h
    have hZ := fun n => image_near hL hmin f.net (hX n) hf.1 (backward_forward f h1 n)
    obtain ⟨D₂, P₂, k1, k2, k3⟩ := ihg hZ hG hf.2 hb.1 hc.2 h2
    obtain ⟨D₁, P₁, m1, m2, m3⟩ := ihf hX (piled_close k2 hb.2.1 h3) hf.1 hb.2.2 hc.1 h1
    exact ⟨D₁, (P₁, P₂), ⟨D₂, k1, m1⟩, m2, m3, k3⟩
  | join f h' ihf ihg =>
    obtain ⟨Z, Z', E, E', L, L', h1, h2, h3, h4, h5, h6⟩ := h
    obtain ⟨D₁, P₁, m1, m2, m3⟩ := ihf hX (fun n => copied_close (hG n) (h4 n)) hf.1 hb.1 hc.1 h1
    obtain ⟨D₂, P₂, k1, k2, k3⟩ := ihg hX (fun n => copied_close (hG n) (h5 n)) hf.2.1 hb.2 hc.2 h2
    exact ⟨fun n i => D₁ n i + D₂ n i, (P₁, P₂), ⟨D₁, D₂, m1, k1, fun _ _ => rfl⟩, plus_heaped m2 k2 h6 fun _ _ => rfl, m3, k3⟩

/-- **C121**. If nothing can overflow, the network has no kink at the exact inputs, and the errors of the program's numbers do not change the side of
one, then the gradients the program computes with respect to the images and to all parameters of a network with convolutions, pooling and branches
are finite and within the bounds of the exact gradients, whatever the orders in which the sums are computed. -/
theorem image_gradients_near [NeZero N] (hL : Accurate F q ε ρ) (hmin : IsFloat R fltMin) (f : ImgNet s t) {X : Fin N → s.Ix → Flt}
    {Y G : Fin N → t.Ix → Flt} {D : Fin N → s.Ix → Flt} {g : Params Flt f} {T : Fin N → s.Ix → ℝ} {Γ : Fin N → t.Ix → ℝ} {p e : Bounds}
    (hX : ∀ n, Close R (X n) (T n) p) (hG : ∀ n, Close R (G n) (Γ n) e) (hf : Fits' ε ρ f.net p) (hb : FitsImgBack N ε ρ f p e)
    (hh : FitsHeap (heap ε ρ f p e)) (hs : Smooth f (fun _ _ => False) T) (hc : ImgClear ε ρ f p T) (h : f.Gradients R F X Y G D g) :
    ∃ D₀ P₀, IsGradient f T Γ D₀ P₀ ∧ (∀ n, Close R (D n) (D₀ n) (settle (heap ε ρ f p e))) ∧ ImgParamsNear N ε ρ f p e g P₀ := by
  obtain ⟨K, h1, h2⟩ := h
  obtain ⟨D₀, P₀, k1, k2, k3⟩ := backward_near hL hmin f hX hG hf hb hc h1
  exact ⟨D₀, P₀, back_gradient f hs k1, piled_close k2 hh h2, k3⟩

/-! ## What `col2im` adds -/

/-- The loops of `col2im` go through the buffer `S` row after row and add some of its elements to the image (`Verif.Model.Conv`); those added at the place
of element `i` of the image are the numbers `col2imFloat a b S i`. -/
theorem scattered {a b : Axis} (S : Fin (C * (a.kernel * b.kernel)) → Fin (a.out * b.out) → Flt) (i : Fin C × Fin a.size × Fin b.size) :
    ((((col2imWrites C a.size b.size (Im2colL.geo a b) a.dil b.dil a.out b.out).zip (Spec.rowMajor S)).filter
      fun z => z.1 = some (pair i.1 (pair i.2.1 i.2.2)).val).map Prod.snd : List Flt) = col2imFloat a b S i := by
  have ew : col2imWrites C a.size b.size (Im2colL.geo a b) a.dil b.dil a.out b.out =
      Spec.rowMajor fun (t : Fin (C * (a.kernel * b.kernel))) (p : Fin (a.out * b.out)) =>
        Im2colL.addr a.size b.size t.divNat (a.pos p.divNat t.modNat.divNat) (b.pos p.modNat t.modNat.modNat) := by
    rw [Im2colL.writes_eq]
    refine MatL.eq_rowMajor (by rw [FlatL.flat4_length]; ring) fun t p => ?_
    obtain ⟨c, k, rfl⟩ := FlatL.exists_pair t
    obtain ⟨kh, kw, rfl⟩ := FlatL.exists_pair k
    have e : (pair c (pair kh kw)).val * (a.out * b.out) + p.val = (pair c (pair kh (pair kw p))).val := by simp only [FlatL.pair_val]; ring
    rw [e, FlatL.flat4_getElem?]
    simp only [FlatL.pair_divNat, FlatL.pair_modNat]
  have ez : ∀ {m n : ℕ} (f : Fin m → Fin n → Option ℕ) (g : Fin m → Fin n → Flt),
      (Spec.rowMajor f).zip (Spec.rowMajor g) = List.ofFn fun k : Fin (m * n) => (f k.divNat k.modNat, g k.divNat k.modNat) := fun f g => by
    unfold Spec.rowMajor
    refine List.ext_getElem (by simp) fun k h1 h2 => ?_
    simp
  have over : ∀ t p, Im2colL.addr a.size b.size (Fin.divNat t).val (a.pos (Fin.divNat p).val t.modNat.divNat.val) (b.pos (Fin.modNat p).val t.modNat.modNat.val) =
      some (pair i.1 (pair i.2.1 i.2.2)).val ↔ Over a b t p i := fun t p => by
    unfold Im2colL.addr Over
    constructor
    · intro h
      split at h
      · next hin =>
        have h' := Option.some.inj h
        have e : (pair t.divNat (pair (⟨(a.pos p.divNat t.modNat.divNat).toNat, by omega⟩ : Fin a.size)
          (⟨(b.pos p.modNat t.modNat.modNat).toNat, by omega⟩ : Fin b.size))).val = (pair i.1 (pair i.2.1 i.2.2)).val := h'
        have e' := Fin.ext e
        have e1 := congrArg Fin.divNat e'
        have e2 := congrArg Fin.modNat e'
        rw [FlatL.pair_divNat, FlatL.pair_divNat] at e1
        rw [FlatL.pair_modNat, FlatL.pair_modNat] at e2
        have e3 := congrArg Fin.divNat e2
        have e4 := congrArg Fin.modNat e2
        rw [FlatL.pair_divNat, FlatL.pair_divNat] at e3
        rw [FlatL.pair_modNat, FlatL.pair_modNat] at e4
        have e3' := congrArg Fin.val e3
        have e4' := congrArg Fin.val e4
        simp only at e3' e4'
        exact ⟨e1, by omega, by omega⟩
      · exact (Option.some_ne_none _ h.symm).elim
    · rintro ⟨h1, h2, h3⟩
      have y := i.2.1.isLt
      have x := i.2.2.isLt
      rw [if_pos (by omega), h1, h2, h3]
      simp only [Int.toNat_natCast, FlatL.pair_val]
  rw [ew, ez]
  unfold col2imFloat
  rw [← Multiset.map_coe, ← Multiset.filter_coe, ← Fin.univ_val_map, Multiset.filter_map, Multiset.map_map]
  have eu : (Finset.univ : Finset (Fin (C * (a.kernel * b.kernel)) × Fin (a.out * b.out))).val =
      (Finset.univ : Finset (Fin (C * (a.kernel * b.kernel) * (a.out * b.out)))).val.map fun k => (k.divNat, k.modNat) := by
    have := Finset.map_univ_equiv (finProdFinEquiv (m := C * (a.kernel * b.kernel)) (n := a.out * b.out)).symm
    rw [← this]
    rfl
  rw [Finset.filter_val, eu, Multiset.filter_map, Multiset.map_map]
  congr 1
  refine Multiset.filter_congr fun k _ => ?_
  simp only [Function.comp]
  exact over _ _

/-! ## There are such runs -/

/-- No sums without elements in the backward pass. -/
def BackNotEmpty : {s t : Sh} → ImgNet s t → Prop
  | _, _, .linear (k := k) _ _ => 0 < k
  | _, _, .conv (O := O) a b _ _ => 0 < O ∧ 0 < a.out * b.out
  | _, _, .seq f g => BackNotEmpty f ∧ BackNotEmpty g
  | _, _, .join f g => BackNotEmpty f ∧ BackNotEmpty g
  | _, _, _ => True

theorem dotFn_exists {n : ℕ} (hn : 0 < n) (z : Fin n → Flt × Flt) : ∃ s, DotOf R (List.ofFn z) s :=
  dot_exists _ (by rw [Ne, List.ofFn_eq_nil_iff]; exact hn.ne')

theorem sumFn_exists {n : ℕ} (hn : 0 < n) (z : Fin n → Flt) : ∃ s, SumOf R (List.ofFn z) s :=
  sum_exists _ (by rw [Ne, List.ofFn_eq_nil_iff]; exact hn.ne')

theorem piled_exists (m : Multiset Flt) : ∃ s, Piled R m s := ⟨_, m.toList, m.coe_toList, rfl⟩

/-- There is a forward pass, and a backward pass for every gradient of its outputs. -/
theorem backward_exists [NeZero N] (hL : Accurate F q ε ρ) (hmin : IsFloat R fltMin) (f : ImgNet s t) (hr : NotEmpty f.net) (hr' : BackNotEmpty f)
    {X : Fin N → s.Ix → Flt} {T : Fin N → s.Ix → ℝ} {p : Bounds} (hX : ∀ n, Close R (X n) (T n) p) (hf : Fits' ε ρ f.net p) :
    ∃ Y, ∀ G, ∃ K g, f.Backward R F X Y G K g := by
  have hN : 0 < N := Nat.pos_of_ne_zero (NeZero.ne N)
  induction f generalizing p with
  | skip => exact ⟨X, fun G => ⟨_, (), rfl, fun _ _ => rfl⟩⟩
  | act a => exact ⟨_, fun G => ⟨_, (), fun _ _ => rfl, fun _ _ => rfl⟩⟩
  | linear W b =>
    obtain ⟨Y, hY⟩ := linear_exists (R := R) hr X W b
    refine ⟨Y, fun G => ?_⟩
    choose x hx using fun n r => dotFn_exists (R := R) hr' fun j => (G n j, W j r)
    choose dW hW using fun j r => dotFn_exists (R := R) hN fun n => (G n j, X n r)
    choose db hb using fun j => sumFn_exists (R := R) hN fun n => G n j
    exact ⟨fun n r => {x n r}, (dW, db), hY, ⟨hW, hb⟩, fun n r => ⟨x n r, hx n r, rfl⟩⟩
  | @conv C O a b W bias =>
    choose Y hY using fun n => linear_exists (R := R) hr (patch a b (fun c y x => X n (c, y, x)) 0) W bias
    refine ⟨fun n i => Y n (pair i.2.1 i.2.2) i.1, fun G => ?_⟩
    choose S hS using fun n t (p : Fin (a.out * b.out)) => dotFn_exists (R := R) hr'.1 fun o => (G n (o, p.divNat, p.modNat), W o t)
    choose x hx using fun o t n => dotFn_exists (R := R) hr'.2 fun p => (G n (o, p.divNat, p.modNat), patch a b (fun c y x => X n (c, y, x)) 0 p t)
    choose z hz using fun o n => sumFn_exists (R := R) hr'.2 fun p => G n (o, p.divNat, p.modNat)
    refine ⟨fun n i => col2imFloat a b (S n) i, (fun o t => (List.ofFn (x o t)).foldl (add R) 0, fun o => (List.ofFn (z o)).foldl (add R) 0), fun n => ?_,
      ⟨fun o t => ⟨x o t, hx o t, rfl⟩, fun o => ⟨z o, hz o, rfl⟩⟩, fun n => ⟨S n, hS n, fun _ => rfl⟩⟩
    show LinearForward R _ W bias fun p o => Y n (pair p.divNat p.modNat) o
    simp only [FlatL.pair_div_mod]
    exact hY n
  | @maxPool C a b =>
    have : Nonempty (Fin (a.kernel * b.kernel)) := ⟨⟨0, hr⟩⟩
    have fin := fun n c (y x : ℤ) => (pixel_close (R := R) (X := fun y x => X n (c, y, x)) (T := fun y x => T n (c, y, x)) (A := max p.A floatMin)
      (hX n).nonneg.2 (fun _ _ => (hX n).finite _) (fun _ _ => (hX n).isFloat _) (fun _ _ => ((hX n).size _).trans (le_max_left _ _))
      (fun _ _ => (hX n).error _) fltMin_finite hmin (by rw [fltMin_val, abs_of_pos floatMin_pos]; exact le_max_right _ _) y x).1
    choose row hrow using fun n c x => Finite.exists_max fun t : Fin (a.kernel * b.kernel) => (poolPixel a b (X n) c x t).val
    refine ⟨fun n i => poolPixel a b (X n) i.1 (pair i.2.1 i.2.2) (row n i.1 (pair i.2.1 i.2.2)), fun G => ⟨_, (), row, fun n c x => ⟨fun t => ?_, ?_⟩,
      fun _ _ => rfl⟩⟩
    · unfold poolPixel
      rw [lt_iff (fin _ _ _ _) (fin _ _ _ _)]
      exact not_lt.2 (hrow n c x t)
    · simp only [FlatL.pair_div_mod]
  | avgPool =>
    choose x hx using fun n c => sumFn_exists (R := R) (Nat.pos_iff_ne_zero.2 (Nat.pos_iff_ne_zero.1 hr)) fun t => X n (c, t.divNat, t.modNat)
    exact ⟨_, fun G => ⟨_, (), fun n c => ⟨x n c, hx n c, rfl⟩, fun _ _ => rfl⟩⟩
  | flat =>
    exact ⟨fun n k => X n (place k), fun G => ⟨fun n i => {G n (pair i.1 (pair i.2.1 i.2.2))}, (), fun _ _ => rfl, fun n k => by
      show {G n (pair (place k).1 (pair (place k).2.1 (place k).2.2))} = _
      rw [pair_place]⟩⟩
  | seq f g ihf ihg =>
    obtain ⟨Z, hZ⟩ := ihf hr.1 hr'.1 hX hf.1
    obtain ⟨K₀, g₀, h₀⟩ := hZ fun _ _ => 0
    obtain ⟨Y, hY⟩ := ihg hr.2 hr'.2 (fun n => image_near hL hmin f.net (hX n) hf.1 (backward_forward f h₀ n)) hf.2
    refine ⟨Y, fun G => ?_⟩
    obtain ⟨L, g₂, h2⟩ := hY G
    choose E hE using fun n i => piled_exists (R := R) (L n i)
    obtain ⟨K, g₁, h1⟩ := hZ E
    exact ⟨K, (g₁, g₂), Z, E, L, h1, h2, hE⟩
  | join f g ihf ihg =>
    obtain ⟨Z, hZ⟩ := ihf hr.1 hr'.1 hX hf.1
    obtain ⟨Z', hZ'⟩ := ihg hr.2 hr'.2 hX hf.2.1
    refine ⟨fun n i => add R (Z n i) (Z' n i), fun G => ?_⟩
    obtain ⟨L, g₁, h1⟩ := hZ G
    obtain ⟨L', g₂, h2⟩ := hZ' G
    exact ⟨fun n i => L n i + L' n i, (g₁, g₂), Z, Z', G, G, L, L', h1, h2, fun _ _ => rfl, fun _ _ => Or.inl rfl, fun _ _ => Or.inl rfl, fun _ _ => rfl⟩

theorem gradients_exist [NeZero N] (hL : Accurate F q ε ρ) (hmin : IsFloat R fltMin) (f : ImgNet s t) (hr : NotEmpty f.net) (hr' : BackNotEmpty f)
    {X : Fin N → s.Ix → Flt} {T : Fin N → s.Ix → ℝ} {p : Bounds} (hX : ∀ n, Close R (X n) (T n) p) (hf : Fits' ε ρ f.net p) (G : Fin N → t.Ix → Flt) :
    ∃ Y D g, f.Gradients R F X Y G D g := by
  obtain ⟨Y, hY⟩ := backward_exists hL hmin f hr hr' hX hf
  obtain ⟨K, g, h⟩ := hY G
  choose D hD using fun n i => piled_exists (R := R) (K n i)
  exact ⟨Y, D, g, K, h, hD⟩

end

end DW.Props.FloatImageBackP
