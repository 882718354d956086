import Verif.Model.FloatImageBack
import Verif.Props.FloatImage
import Verif.Props.FloatBackExact
/-!
# The gradient of a network on images

What C121 compares the gradients the program computes with: the derivatives of a network with convolutions, pooling and branches with respect to the
images and to all parameters, in exact arithmetic.
-/

set_option autoImplicit false

namespace DW.Props.FloatImageBackP

open DW.Float DW.Props.FloatNetP DW.Props.FloatImageP
open DW.Props.FloatBackP (fn slope fn_deriv linear_sums)
open DW.Spec (Axis)
open DW.FlatL (pair)
open scoped Topology

noncomputable section

instance (s : Sh) : Fintype s.Ix := match s with
  | .vec n => inferInstanceAs (Fintype (Fin n))
  | .img C H W => inferInstanceAs (Fintype (Fin C × Fin H × Fin W))

variable {N C O H W : ℕ} {s t w : Sh}

/-! ## What a gradient is -/

/-- The parameters of the network as real numbers. -/
def values : {s t : Sh} → (f : ImgNet s t) → Params ℝ f
  | _, _, .skip => ()
  | _, _, .act _ => ()
  | _, _, .linear W b => (fun j r => (W j r).val, fun j => (b j).val)
  | _, _, .conv _ _ W bias => (fun o t => (W o t).val, fun o => (bias o).val)
  | _, _, .maxPool _ _ => ()
  | _, _, .avgPool => ()
  | _, _, .flat => ()
  | _, _, .seq f g => (values f, values g)
  | _, _, .join f g => (values f, values g)

/-- The outputs for one image in exact arithmetic with the parameters `P` in place of the network's own. -/
def run : {s t : Sh} → (f : ImgNet s t) → Params ℝ f → (s.Ix → ℝ) → t.Ix → ℝ
  | _, _, .skip, _, X => X
  | _, _, .act a, _, X => fun i => fn a (X i)
  | _, _, .linear _ _, P, X => Spec.linear (fun _ : Fin 1 => X) P.1 P.2 0
  | _, _, .conv a b _ _, P, X => fun p => Spec.conv a b (image X) (fun o c kh kw => P.1 o (pair c (pair kh kw))) P.2 0 p.1 p.2.1 p.2.2
  | _, _, .maxPool a b, _, X => fun p => Spec.maxPool a b floatMin (image X) 0 p.1 p.2.1 p.2.2
  | _, _, .avgPool, _, X => fun c => Spec.planeMean (image X) 0 c
  | _, _, .flat, _, X => fun k => X (place k)
  | _, _, .seq f g, P, X => run g P.2 (run f P.1 X)
  | _, _, .join f g, P, X => fun i => run f P.1 X i + run g P.2 X i

/-- `P + t V`. -/
def shift : {s t : Sh} → (f : ImgNet s t) → Params ℝ f → ℝ → Params ℝ f → Params ℝ f
  | _, _, .skip, P, _, _ => P
  | _, _, .act _, P, _, _ => P
  | _, _, .linear _ _, P, t, V => (fun j r => P.1 j r + t * V.1 j r, fun j => P.2 j + t * V.2 j)
  | _, _, .conv _ _ _ _, P, t, V => (fun j r => P.1 j r + t * V.1 j r, fun j => P.2 j + t * V.2 j)
  | _, _, .maxPool _ _, P, _, _ => P
  | _, _, .avgPool, P, _, _ => P
  | _, _, .flat, P, _, _ => P
  | _, _, .seq f g, P, t, V => (shift f P.1 t V.1, shift g P.2 t V.2)
  | _, _, .join f g, P, t, V => (shift f P.1 t V.1, shift g P.2 t V.2)

/-- The sum of the products of the elements. -/
def paired : {s t : Sh} → (f : ImgNet s t) → Params ℝ f → Params ℝ f → ℝ
  | _, _, .skip, _, _ => 0
  | _, _, .act _, _, _ => 0
  | _, _, .linear _ _, P, V => ∑ j, ∑ r, P.1 j r * V.1 j r + ∑ j, P.2 j * V.2 j
  | _, _, .conv _ _ _ _, P, V => ∑ j, ∑ r, P.1 j r * V.1 j r + ∑ j, P.2 j * V.2 j
  | _, _, .maxPool _ _, _, _ => 0
  | _, _, .avgPool, _, _ => 0
  | _, _, .flat, _, _ => 0
  | _, _, .seq f g, P, V => paired f P.1 V.1 + paired g P.2 V.2
  | _, _, .join f g, P, V => paired f P.1 V.1 + paired g P.2 V.2

/-- `D` and `P` are the gradients with respect to the images `T` and to the parameters of the sum of the outputs times `Γ`: they give its
derivative in every direction `U`, `V`. -/
def IsGradient (f : ImgNet s t) (T : Fin N → s.Ix → ℝ) (Γ : Fin N → t.Ix → ℝ) (D : Fin N → s.Ix → ℝ) (P : Params ℝ f) : Prop :=
  ∀ (U : Fin N → s.Ix → ℝ) (V : Params ℝ f),
    HasDerivAt (fun τ => ∑ n, ∑ k, Γ n k * run f (shift f (values f) τ V) (fun i => T n i + τ * U n i) k)
      (∑ n, ∑ i, D n i * U n i + paired f P V) 0

/-! ## The formulas -/

/-- The element of the image under element `t` of the window at `p`, or 0 outside of it. -/
def col (a b : Axis) (T : Fin C × Fin a.size × Fin b.size → ℝ) (p : Fin (a.out * b.out)) (t : Fin (C * (a.kernel * b.kernel))) : ℝ :=
  Spec.pixel (fun y x => T (t.divNat, y, x)) 0 (a.pos p.divNat t.modNat.divNat) (b.pos p.modNat t.modNat.modNat)

/-- The same for max pooling, which fills with another number. -/
def poolCol (a b : Axis) (T : Fin C × Fin a.size × Fin b.size → ℝ) (fill : ℝ) (c : Fin C) (p : Fin (a.out * b.out)) (t : Fin (a.kernel * b.kernel)) : ℝ :=
  Spec.pixel (fun y x => T (c, y, x)) fill (a.pos p.divNat t.divNat) (b.pos p.modNat t.modNat)

/-- The sum of the elements of `S` over an element of the image. -/
def gather (a b : Axis) (S : Fin (C * (a.kernel * b.kernel)) → Fin (a.out * b.out) → ℝ) (i : Fin C × Fin a.size × Fin b.size) : ℝ :=
  ∑ z : Fin (C * (a.kernel * b.kernel)) × Fin (a.out * b.out) with Over a b z.1 z.2 i, S z.1 z.2

/-- Backpropagation in exact arithmetic. If several elements of a window are the largest, the gradient goes to any of them. -/
def Back : {s t : Sh} → (f : ImgNet s t) → (T : Fin N → s.Ix → ℝ) → (Γ : Fin N → t.Ix → ℝ) → (D : Fin N → s.Ix → ℝ) → Params ℝ f → Prop
  | _, _, .skip, _, Γ, D, _ => D = Γ
  | _, _, .act a, T, Γ, D, _ => ∀ n i, D n i = Γ n i * slope a (T n i)
  | _, _, .linear W _, T, Γ, D, P => (∀ n r, D n r = ∑ j, Γ n j * (W j r).val) ∧ (∀ j r, P.1 j r = ∑ n, Γ n j * T n r) ∧ ∀ j, P.2 j = ∑ n, Γ n j
  | _, _, .conv a b W _, T, Γ, D, P => (∀ n i, D n i = gather a b (fun t p => ∑ o, Γ n (o, p.divNat, p.modNat) * (W o t).val) i) ∧
    (∀ o t, P.1 o t = ∑ n, ∑ p : Fin (a.out * b.out), Γ n (o, p.divNat, p.modNat) * col a b (T n) p t) ∧
    ∀ o, P.2 o = ∑ n, ∑ p : Fin (a.out * b.out), Γ n (o, p.divNat, p.modNat)
  | _, _, .maxPool (C := C) a b, T, Γ, D, _ => ∃ row : Fin N → Fin C → Fin (a.out * b.out) → Fin (a.kernel * b.kernel),
    (∀ n c p t, poolCol a b (T n) floatMin c p t ≤ poolCol a b (T n) floatMin c p (row n c p)) ∧
    ∀ n i, D n i = gather a b (fun t p => if t.modNat = row n t.divNat p then Γ n (t.divNat, p.divNat, p.modNat) else 0) i
  | _, _, .avgPool (H := H) (W := W), _, Γ, D, _ => ∀ n i, D n i = Γ n i.1 / (H * W : ℕ)
  | _, _, .flat, _, Γ, D, _ => ∀ n k, D n (place k) = Γ n k
  | _, _, .seq f g, T, Γ, D, P => ∃ E, Back g (fun n => net f.net (T n)) Γ E P.2 ∧ Back f T E D P.1
  | _, _, .join f g, T, Γ, D, P => ∃ D₁ D₂, Back f T Γ D₁ P.1 ∧ Back g T Γ D₂ P.2 ∧ ∀ n i, D n i = D₁ n i + D₂ n i

/-- All largest elements of the window at `c`, `p` are still: fixed when the inputs and the parameters change a little. -/
def StillMax (a b : Axis) (still : Fin C × Fin a.size × Fin b.size → Prop) (T : Fin C × Fin a.size × Fin b.size → ℝ) (c : Fin C) (p : Fin (a.out * b.out)) : Prop :=
  ∀ t, (∀ t', poolCol a b T floatMin c p t' ≤ poolCol a b T floatMin c p t) → ∀ (y : Fin a.size) (x : Fin b.size), a.pos p.divNat t.divNat = y.val →
    b.pos p.modNat t.modNat = x.val → still (c, y, x)

/-- The outputs that stay fixed when the inputs other than `still` and the parameters change a little: where ReLU gets negative numbers. -/
def Still : {s t : Sh} → (f : ImgNet s t) → (Fin N → s.Ix → Prop) → (Fin N → s.Ix → ℝ) → Fin N → t.Ix → Prop
  | _, _, .skip, still, _ => still
  | _, _, .act a, still, T => fun n i => still n i ∨ a = .relu ∧ T n i < 0
  | _, _, .linear _ _, _, _ => fun _ _ => False
  | _, _, .conv _ _ _ _, _, _ => fun _ _ => False
  | _, _, .maxPool a b, still, T => fun n k => StillMax a b (still n) (T n) k.1 (pair k.2.1 k.2.2)
  | _, _, .avgPool, _, _ => fun _ _ => False
  | _, _, .flat, still, _ => fun n k => still n (place k)
  | _, _, .seq f g, still, T => Still g (Still f still T) fun n => net f.net (T n)
  | _, _, .join f g, still, T => fun n i => Still f still T n i ∧ Still g still T n i

/-- No kinks: activations other than Sigmoid do not get 0, and in each window of a max pooling there is one largest element, or all largest are still,
for example because they are zeros that come from ReLU. -/
def Smooth : {s t : Sh} → (f : ImgNet s t) → (Fin N → s.Ix → Prop) → (Fin N → s.Ix → ℝ) → Prop
  | _, _, .skip, _, _ => True
  | _, _, .act a, still, T => a = .sigmoid ∨ ∀ n i, T n i ≠ 0 ∨ still n i
  | _, _, .linear _ _, _, _ => True
  | _, _, .conv _ _ _ _, _, _ => True
  | _, _, .maxPool a b, still, T => ∀ n c (p : Fin (a.out * b.out)),
    (∃ t, ∀ t', t' ≠ t → poolCol a b (T n) floatMin c p t' < poolCol a b (T n) floatMin c p t) ∨ StillMax a b (still n) (T n) c p
  | _, _, .avgPool, _, _ => True
  | _, _, .flat, _, _ => True
  | _, _, .seq f g, still, T => Smooth f still T ∧ Smooth g (Still f still T) fun n => net f.net (T n)
  | _, _, .join f g, still, T => Smooth f still T ∧ Smooth g still T

/-! ## Windows -/

theorem run_values (f : ImgNet s t) (X : s.Ix → ℝ) : run f (values f) X = net f.net X := by
  induction f with
  | skip => rfl
  | act a => cases a <;> rfl
  | linear W b => rfl
  | conv a b W bias => rfl
  | maxPool a b => rfl
  | avgPool => rfl
  | flat => rfl
  | seq f g ihf ihg =>
    show run g (values g) (run f (values f) X) = net g.net (net f.net X)
    rw [ihf, ihg]
  | join f g ihf ihg =>
    show (fun i => run f (values f) X i + run g (values g) X i) = fun i => net f.net X i + net g.net X i
    rw [ihf, ihg]

theorem shift_zero (f : ImgNet s t) (P V : Params ℝ f) : shift f P 0 V = P := by
  induction f with
  | skip | act | maxPool | avgPool | flat => rfl
  | linear W b =>
    show ((fun j r => P.1 j r + 0 * V.1 j r, fun j => P.2 j + 0 * V.2 j) : Params ℝ (.linear W b)) = (P.1, P.2)
    simp
  | conv a b W bias =>
    show ((fun j r => P.1 j r + 0 * V.1 j r, fun j => P.2 j + 0 * V.2 j) : Params ℝ (.conv a b W bias)) = (P.1, P.2)
    simp
  | seq f g ihf ihg =>
    show ((shift f P.1 0 V.1, shift g P.2 0 V.2) : Params ℝ (.seq f g)) = (P.1, P.2)
    rw [ihf, ihg]
  | join f g ihf ihg =>
    show ((shift f P.1 0 V.1, shift g P.2 0 V.2) : Params ℝ (.join f g)) = (P.1, P.2)
    rw [ihf, ihg]

theorem conv_col (a b : Axis) (P : Fin O → Fin (C * (a.kernel * b.kernel)) → ℝ) (v : Fin O → ℝ) (X : Fin C × Fin a.size × Fin b.size → ℝ) (o : Fin O)
    (p : Fin (a.out * b.out)) : Spec.conv a b (image X) (fun o c kh kw => P o (pair c (pair kh kw))) v 0 o p.divNat p.modNat =
      ∑ t, col a b X p t * P o t + v o := by
  simp only [Spec.conv, col, image, FlatL.sum_pair, FlatL.pair_divNat, FlatL.pair_modNat]
  rw [add_comm]
  congr 1
  exact Finset.sum_congr rfl fun _ _ => Finset.sum_congr rfl fun _ _ => Finset.sum_congr rfl fun _ _ => mul_comm _ _

/-- Sums over the elements of an image. -/
theorem sum_img {M : Type} [AddCommMonoid M] (f : Fin O × Fin H × Fin W → M) : ∑ k, f k = ∑ o, ∑ p : Fin (H * W), f (o, p.divNat, p.modNat) := by
  rw [Fintype.sum_prod_type]
  refine Finset.sum_congr rfl fun o _ => ?_
  rw [Fintype.sum_prod_type, FlatL.sum_pair]
  simp only [FlatL.pair_divNat, FlatL.pair_modNat]

theorem place_pair (i : Fin C × Fin H × Fin W) : place (pair i.1 (pair i.2.1 i.2.2)) = i := by
  simp only [place, FlatL.pair_divNat, FlatL.pair_modNat]

theorem pair_place (k : Fin (C * (H * W))) : pair (place k).1 (pair (place k).2.1 (place k).2.2) = k := by
  simp only [place, FlatL.pair_div_mod]

theorem sum_place {M : Type} [AddCommMonoid M] (f : Fin C × Fin H × Fin W → M) : ∑ i, f i = ∑ k, f (place k) :=
  (Finset.sum_bij' (fun k _ => place k) (fun i _ => pair i.1 (pair i.2.1 i.2.2)) (fun _ _ => Finset.mem_univ _) (fun _ _ => Finset.mem_univ _)
    (fun k _ => pair_place k) (fun i _ => place_pair i) fun _ _ => rfl).symm

theorem pixel_sum (T : Fin C × Fin H × Fin W → ℝ) (c : Fin C) (y x : ℤ) :
    Spec.pixel (fun y x => T (c, y, x)) 0 y x = ∑ i : Fin C × Fin H × Fin W, if c = i.1 ∧ y = i.2.1.val ∧ x = i.2.2.val then T i else 0 := by
  unfold Spec.pixel
  split
  · next h =>
    rw [Finset.sum_eq_single (c, ⟨y.toNat, by omega⟩, ⟨x.toNat, by omega⟩)]
    · rw [if_pos ⟨rfl, by show y = (y.toNat : ℤ); omega, by show x = (x.toNat : ℤ); omega⟩]
    · rintro ⟨c', y', x'⟩ - hne
      refine if_neg fun h' => hne ?_
      obtain ⟨h1, h2, h3⟩ := h'
      simp only at h1 h2 h3
      subst h1 h2 h3
      simp
    · simp
  · next h =>
    refine (Finset.sum_eq_zero fun i _ => if_neg fun h' => h ?_).symm
    have := i.2.1.isLt
    have := i.2.2.isLt
    omega

/-- `col2im` is the adjoint of `im2col`. -/
theorem gather_adjoint (a b : Axis) (S : Fin (C * (a.kernel * b.kernel)) → Fin (a.out * b.out) → ℝ) (U : Fin C × Fin a.size × Fin b.size → ℝ) :
    ∑ p, ∑ t, S t p * col a b U p t = ∑ i, gather a b S i * U i := by
  have e : ∀ p t, S t p * col a b U p t = ∑ i, if Over a b t p i then S t p * U i else 0 := fun p t => by
    unfold col
    rw [pixel_sum, Finset.mul_sum]
    refine Finset.sum_congr rfl fun i _ => ?_
    rw [mul_ite, mul_zero]
    exact if_congr Iff.rfl rfl rfl
  have e2 : ∀ i, gather a b S i * U i = ∑ p, ∑ t, if Over a b t p i then S t p * U i else 0 := fun i => by
    unfold gather
    rw [Finset.sum_filter, Finset.sum_mul, Fintype.sum_prod_type, Finset.sum_comm]
    exact Finset.sum_congr rfl fun p _ => Finset.sum_congr rfl fun t _ => by rw [ite_mul, zero_mul]
  simp only [e, e2]
  rw [Finset.sum_comm (s := (Finset.univ : Finset (Fin C × Fin a.size × Fin b.size)))]
  refine Finset.sum_congr rfl fun p _ => ?_
  rw [Finset.sum_comm]

theorem pixel_curve {X : ℝ → Fin H → Fin W → ℝ} {U : Fin H → Fin W → ℝ} (h : ∀ y x, HasDerivAt (fun τ => X τ y x) (U y x) 0) (fill : ℝ) (y x : ℤ) :
    HasDerivAt (fun τ => Spec.pixel (X τ) fill y x) (Spec.pixel U 0 y x) 0 := by
  unfold Spec.pixel
  split
  · exact h _ _
  · exact hasDerivAt_const _ _

/-! ## Maxima -/

theorem sup_eq {K : Type} [Finite K] {w : K → ℝ} {t : K} (h : ∀ t', w t' ≤ w t) : ⨆ t, w t = w t :=
  have : Nonempty K := ⟨t⟩
  le_antisymm (ciSup_le h) (le_ciSup (Set.finite_range w).bddAbove t)

theorem sup_curve {K : Type} [Finite K] {w : ℝ → K → ℝ} {w' : K → ℝ} (hw : ∀ t, HasDerivAt (fun τ => w τ t) (w' t) 0) :
    ((∃ t, ∀ t', t' ≠ t → w 0 t' < w 0 t) → ∃ d, HasDerivAt (fun τ => ⨆ t, w τ t) d 0 ∧ ∀ t, (∀ t', w 0 t' ≤ w 0 t) → w' t = d) ∧
      ((∀ t, (∀ t', w 0 t' ≤ w 0 t) → ∀ᶠ τ in 𝓝 0, w τ t = w 0 t) → ∀ᶠ τ in 𝓝 0, ⨆ t, w τ t = ⨆ t, w 0 t) := by
  have near : ∀ (t : K) (m : ℝ), w 0 t < m → ∀ᶠ τ in 𝓝 0, w τ t < m := fun t m h => (hw t).continuousAt.eventually_lt continuousAt_const h
  constructor
  · rintro ⟨t, ht⟩
    refine ⟨w' t, (hw t).congr_of_eventuallyEq ?_, fun t' h' => ?_⟩
    · have : ∀ᶠ τ in 𝓝 0, ∀ t', t' ≠ t → w τ t' < w τ t := by
        rw [Filter.eventually_all]
        intro t'
        by_cases h : t' = t
        · exact Filter.Eventually.of_forall fun τ h' => absurd h h'
        · filter_upwards [(hw t').continuousAt.eventually_lt (hw t).continuousAt (ht t' h)] with τ hτ _ using hτ
      filter_upwards [this] with τ hτ
      refine sup_eq fun t' => ?_
      by_cases h : t' = t
      · rw [h]
      · exact (hτ t' h).le
    · by_cases h : t' = t
      · rw [h]
      · exact absurd (h' t) (not_le.2 (ht t' h))
  · intro h
    cases isEmpty_or_nonempty K with
    | inl he => exact Filter.Eventually.of_forall fun τ => by rw [iSup_of_empty', iSup_of_empty']
    | inr hne =>
      obtain ⟨t, ht⟩ := Finite.exists_max (w 0)
      have : ∀ᶠ τ in 𝓝 0, ∀ t', w τ t' ≤ w 0 t := by
        rw [Filter.eventually_all]
        intro t'
        by_cases h' : ∀ t'', w 0 t'' ≤ w 0 t'
        · filter_upwards [h t' h'] with τ hτ
          rw [hτ]
          exact ht t'
        · obtain ⟨t'', h''⟩ := not_forall.1 h'
          filter_upwards [near t' _ ((not_le.1 h'').trans_le (ht t''))] with τ hτ using hτ.le
      filter_upwards [this, h t ht] with τ h1 h2
      rw [sup_eq ht, sup_eq (t := t) (fun t' => by rw [h2]; exact h1 t'), h2]

theorem maxPool_col (a b : Axis) (X : Fin C × Fin a.size × Fin b.size → ℝ) (c : Fin C) (p : Fin (a.out * b.out)) :
    Spec.maxPool a b floatMin (image X) 0 c p.divNat p.modNat = ⨆ t, poolCol a b X floatMin c p t := by
  refine Function.Surjective.iSup_congr (fun k => pair k.1 k.2) (fun t => ⟨(t.divNat, t.modNat), FlatL.pair_div_mod t⟩) fun k => ?_
  simp only [poolCol, FlatL.pair_divNat, FlatL.pair_modNat]
  rfl

/-! ## The formulas are right -/

theorem still_deriv {x : ℝ → ℝ} {d : ℝ} (h : HasDerivAt x d 0) (hs : ∀ᶠ τ in 𝓝 0, x τ = x 0) : d = 0 :=
  h.unique ((hasDerivAt_const (0 : ℝ) (x 0)).congr_of_eventuallyEq hs)

theorem pool_identity (a b : Axis) {row : Fin C → Fin (a.out * b.out) → Fin (a.kernel * b.kernel)} {Γ : Fin C × Fin a.out × Fin b.out → ℝ}
    {U : Fin C × Fin a.size × Fin b.size → ℝ} :
    ∑ c, ∑ p : Fin (a.out * b.out), Γ (c, p.divNat, p.modNat) * poolCol a b U 0 c p (row c p) =
      ∑ i, gather a b (fun t p => if t.modNat = row t.divNat p then Γ (t.divNat, p.divNat, p.modNat) else 0) i * U i := by
  rw [← gather_adjoint, Finset.sum_comm]
  refine Finset.sum_congr rfl fun p _ => ?_
  rw [FlatL.sum_pair]
  refine Finset.sum_congr rfl fun c _ => ?_
  rw [Finset.sum_eq_single (row c p)]
  · simp only [col, poolCol, FlatL.pair_divNat, FlatL.pair_modNat, if_true]
  · intro t _ ht
    rw [FlatL.pair_divNat, FlatL.pair_modNat, if_neg ht, zero_mul]
  · simp

/-- Along any curve of inputs on which the inputs `still` do not move, the outputs have derivatives, and the formulas of backpropagation compute
with them. -/
theorem curve (f : ImgNet s t) (V : Params ℝ f) {still : Fin N → s.Ix → Prop} {T U : Fin N → s.Ix → ℝ} {X : ℝ → Fin N → s.Ix → ℝ}
    (hs : Smooth f still T) (hT : X 0 = T) (hX : ∀ n i, HasDerivAt (fun τ => X τ n i) (U n i) 0)
    (hst : ∀ n i, still n i → ∀ᶠ τ in 𝓝 0, X τ n i = X 0 n i) :
    ∃ U' : Fin N → t.Ix → ℝ, (∀ n k, HasDerivAt (fun τ => run f (shift f (values f) τ V) (X τ n) k) (U' n k) 0) ∧
      (∀ n k, Still f still T n k → ∀ᶠ τ in 𝓝 0, run f (shift f (values f) τ V) (X τ n) k = run f (shift f (values f) 0 V) (X 0 n) k) ∧
      ∀ Γ D P, Back f T Γ D P → ∑ n, ∑ k, Γ n k * U' n k = ∑ n, ∑ i, D n i * U n i + paired f P V := by
  induction f with
  | skip =>
    refine ⟨U, hX, hst, fun Γ D P h => ?_⟩
    rw [show D = Γ from h]
    exact (add_zero _).symm
  | act a =>
    have still' : ∀ n i, still n i → U n i = 0 := fun n i h => still_deriv (hX n i) (hst n i h)
    refine ⟨fun n i => slope a (T n i) * U n i, fun n i => ?_, fun n i h => ?_, fun Γ D P h => ?_⟩
    · show HasDerivAt (fun τ => fn a (X τ n i)) _ 0
      by_cases h : a = .sigmoid ∨ T n i ≠ 0
      · have h1 : HasDerivAt (fn a) (slope a (T n i)) (X 0 n i) := by rw [hT]; exact fn_deriv a h
        exact h1.comp 0 (hX n i)
      · obtain ⟨h1, h2⟩ := not_or.1 h
        have h3 := ((hs.resolve_left h1) n i).resolve_left h2
        show HasDerivAt _ (slope a (T n i) * U n i) 0
        rw [still' n i h3, mul_zero]
        refine (hasDerivAt_const (0 : ℝ) (fn a (X 0 n i))).congr_of_eventuallyEq ?_
        filter_upwards [hst n i h3] with τ hτ
        rw [hτ]
    · show ∀ᶠ τ in 𝓝 0, fn a (X τ n i) = fn a (X 0 n i)
      rcases h with h | ⟨rfl, h⟩
      · filter_upwards [hst n i h] with τ hτ
        rw [hτ]
      · have hc := (hX n i).continuousAt.eventually_lt (continuousAt_const (y := (0 : ℝ))) (by rw [hT]; exact h)
        filter_upwards [hc] with τ hτ
        have h0 : X 0 n i < 0 := by rw [hT]; exact h
        show max 0 (X τ n i) = max 0 (X 0 n i)
        rw [max_eq_left hτ.le, max_eq_left h0.le]
    · have e : ∀ n i, D n i = Γ n i * slope a (T n i) := h
      show _ = ∑ n, ∑ i, D n i * U n i + 0
      rw [add_zero]
      exact Finset.sum_congr rfl fun n _ => Finset.sum_congr rfl fun i _ => by rw [e]; ring
  | @linear n' k W b =>
    refine ⟨fun n j => ∑ r, (U n r * (W j r).val + T n r * V.1 j r) + V.2 j, fun n j => ?_, fun _ _ h => h.elim, fun Γ D P h => ?_⟩
    · show HasDerivAt (fun τ => ∑ r, X τ n r * ((W j r).val + τ * V.1 j r) + ((b j).val + τ * V.2 j)) _ 0
      refine HasDerivAt.fun_add (HasDerivAt.fun_sum fun r _ => ?_) ?_
      · have h1 : HasDerivAt (fun τ : ℝ => (W j r).val + τ * V.1 j r) (V.1 j r) 0 := by
          simpa using ((hasDerivAt_id (0 : ℝ)).mul_const (V.1 j r)).const_add (W j r).val
        have h2 := (hX n r).fun_mul h1
        rw [hT] at h2
        simpa using h2
      · simpa using ((hasDerivAt_id (0 : ℝ)).mul_const (V.2 j)).const_add (b j).val
    · obtain ⟨h1, h2, h3⟩ := h
      have e := linear_sums Γ T U (fun j r => (W j r).val) V.1 V.2
      have e2 : ∑ n, ∑ i, D n i * U n i = ∑ n, ∑ r, (∑ j, Γ n j * (W j r).val) * U n r :=
        Finset.sum_congr rfl fun n _ => Finset.sum_congr rfl fun r _ => by rw [h1]
      have e3 : paired (.linear W b) P V = ∑ j, ∑ r, (∑ n, Γ n j * T n r) * V.1 j r + ∑ j, (∑ n, Γ n j) * V.2 j := by
        show ∑ j, ∑ r, P.1 j r * V.1 j r + ∑ j, P.2 j * V.2 j = _
        simp only [h2, h3]
      rw [e2, e3]
      exact e
  | @conv C O a b W bias =>
    have hcol : ∀ n p t, HasDerivAt (fun τ => col a b (X τ n) p t) (col a b (U n) p t) 0 := fun n p t =>
      pixel_curve (X := fun τ y x => X τ n (t.divNat, y, x)) (fun y x => hX n (t.divNat, y, x)) 0 _ _
    refine ⟨fun n k => ∑ t, (col a b (U n) (pair k.2.1 k.2.2) t * (W k.1 t).val + col a b (T n) (pair k.2.1 k.2.2) t * V.1 k.1 t) + V.2 k.1, fun n k => ?_,
      fun _ _ h => h.elim, fun Γ D P h => ?_⟩
    · obtain ⟨o, r, q⟩ := k
      have e : (fun τ => run (.conv a b W bias) (shift (.conv a b W bias) (values (.conv a b W bias)) τ V) (X τ n) (o, r, q)) =
          fun τ => ∑ t, col a b (X τ n) (pair r q) t * ((W o t).val + τ * V.1 o t) + ((bias o).val + τ * V.2 o) := by
        funext τ
        have := conv_col a b (fun o t => (W o t).val + τ * V.1 o t) (fun o => (bias o).val + τ * V.2 o) (X τ n) o (pair r q)
        rw [FlatL.pair_divNat, FlatL.pair_modNat] at this
        exact this
      rw [e]
      refine HasDerivAt.fun_add (HasDerivAt.fun_sum fun t _ => ?_) ?_
      · have h1 : HasDerivAt (fun τ : ℝ => (W o t).val + τ * V.1 o t) (V.1 o t) 0 := by
          simpa using ((hasDerivAt_id (0 : ℝ)).mul_const (V.1 o t)).const_add (W o t).val
        have h2 := (hcol n (pair r q) t).fun_mul h1
        rw [hT] at h2
        simpa using h2
      · simpa using ((hasDerivAt_id (0 : ℝ)).mul_const (V.2 o)).const_add (bias o).val
    · obtain ⟨h1, h2, h3⟩ := h
      have e : ∀ n, ∑ k : Fin O × Fin a.out × Fin b.out, Γ n k * (∑ t, (col a b (U n) (pair k.2.1 k.2.2) t * (W k.1 t).val +
          col a b (T n) (pair k.2.1 k.2.2) t * V.1 k.1 t) + V.2 k.1) = ∑ i, D n i * U n i +
            (∑ o, ∑ t, (∑ p : Fin (a.out * b.out), Γ n (o, p.divNat, p.modNat) * col a b (T n) p t) * V.1 o t +
              ∑ o, (∑ p : Fin (a.out * b.out), Γ n (o, p.divNat, p.modNat)) * V.2 o) := fun n => by
        rw [sum_img, Finset.sum_comm]
        have := linear_sums (fun (p : Fin (a.out * b.out)) o => Γ n (o, p.divNat, p.modNat)) (fun p t => col a b (T n) p t) (fun p t => col a b (U n) p t)
          (fun o t => (W o t).val) V.1 V.2
        simp only [FlatL.pair_div_mod]
        rw [this, gather_adjoint a b (fun t p => ∑ o, Γ n (o, p.divNat, p.modNat) * (W o t).val) (U n)]
        congr 1
        exact Finset.sum_congr rfl fun i _ => by rw [h1]
      have e3 : paired (.conv a b W bias) P V = ∑ n, (∑ o, ∑ t, (∑ p : Fin (a.out * b.out), Γ n (o, p.divNat, p.modNat) * col a b (T n) p t) * V.1 o t +
              ∑ o, (∑ p : Fin (a.out * b.out), Γ n (o, p.divNat, p.modNat)) * V.2 o) := by
        show ∑ o, ∑ t, P.1 o t * V.1 o t + ∑ o, P.2 o * V.2 o = _
        rw [Finset.sum_add_distrib]
        simp only [h2, h3, Finset.sum_mul]
        congr 1
        · rw [Finset.sum_comm (s := (Finset.univ : Finset (Fin N)))]
          refine Finset.sum_congr rfl fun o _ => ?_
          rw [Finset.sum_comm (s := (Finset.univ : Finset (Fin N)))]
        · rw [Finset.sum_comm (s := (Finset.univ : Finset (Fin N)))]
      rw [e3, ← Finset.sum_add_distrib]
      exact Finset.sum_congr rfl fun n _ => e n
  | @maxPool C a b =>
    have hw : ∀ n c p t, HasDerivAt (fun τ => poolCol a b (X τ n) floatMin c p t) (poolCol a b (U n) 0 c p t) 0 := fun n c p t =>
      pixel_curve (X := fun τ y x => X τ n (c, y, x)) (fun y x => hX n (c, y, x)) floatMin _ _
    have hm : ∀ n c p, StillMax a b (still n) (T n) c p → ∀ t, (∀ t', poolCol a b (X 0 n) floatMin c p t' ≤ poolCol a b (X 0 n) floatMin c p t) →
        ∀ᶠ τ in 𝓝 0, poolCol a b (X τ n) floatMin c p t = poolCol a b (X 0 n) floatMin c p t := fun n c p h t ht => by
      rw [hT] at ht
      have := h t ht
      unfold poolCol Spec.pixel
      split
      · next hin =>
        have hi := this ⟨(a.pos p.divNat t.divNat).toNat, by omega⟩ ⟨(b.pos p.modNat t.modNat).toNat, by omega⟩
          (by show _ = ((a.pos p.divNat t.divNat).toNat : ℤ); omega) (by show _ = ((b.pos p.modNat t.modNat).toNat : ℤ); omega)
        exact hst n _ hi
      · exact Filter.Eventually.of_forall fun _ => rfl
    have one : ∀ n c (p : Fin (a.out * b.out)), ∃ d, HasDerivAt (fun τ => ⨆ t, poolCol a b (X τ n) floatMin c p t) d 0 ∧
        ∀ t, (∀ t', poolCol a b (T n) floatMin c p t' ≤ poolCol a b (T n) floatMin c p t) → poolCol a b (U n) 0 c p t = d := fun n c p => by
      have key := sup_curve (w := fun τ t => poolCol a b (X τ n) floatMin c p t) (hw n c p)
      rw [← hT]
      rcases hs n c p with h | h
      · exact key.1 (by rw [hT]; exact h)
      · refine ⟨0, (hasDerivAt_const (0 : ℝ) _).congr_of_eventuallyEq (key.2 (hm n c p h)), fun t ht => ?_⟩
        exact still_deriv (hw n c p t) (hm n c p h t ht)
    choose d hd hd' using one
    have e : ∀ n c r q, (fun τ => run (.maxPool a b) (shift (.maxPool a b) (values (.maxPool a b)) τ V) (X τ n) (c, r, q)) =
        fun τ => ⨆ t, poolCol a b (X τ n) floatMin c (pair r q) t := fun n c r q => by
      funext τ
      have := maxPool_col a b (X τ n) c (pair r q)
      rw [FlatL.pair_divNat, FlatL.pair_modNat] at this
      exact this
    refine ⟨fun n k => d n k.1 (pair k.2.1 k.2.2), fun n k => ?_, fun n k h => ?_, fun Γ D P h => ?_⟩
    · obtain ⟨c, r, q⟩ := k
      rw [e]
      exact hd n c (pair r q)
    · obtain ⟨c, r, q⟩ := k
      have e' := fun τ => congrFun (e n c r q) τ
      have := (sup_curve (w := fun τ t => poolCol a b (X τ n) floatMin c (pair r q) t) (hw n c (pair r q))).2 (hm n c (pair r q) h)
      filter_upwards [this] with τ hτ
      exact ((e' τ).trans hτ).trans (e' 0).symm
    · obtain ⟨row, h1, h2⟩ := h
      show _ = ∑ n, ∑ i, D n i * U n i + 0
      rw [add_zero]
      refine Finset.sum_congr rfl fun n _ => ?_
      have e1 : ∑ i, D n i * U n i = ∑ i, gather a b (fun t p => if t.modNat = row n t.divNat p then Γ n (t.divNat, p.divNat, p.modNat) else 0) i * U n i :=
        Finset.sum_congr rfl fun i _ => by rw [h2]
      rw [e1, ← pool_identity a b (row := row n) (Γ := Γ n), sum_img]
      refine Finset.sum_congr rfl fun c _ => Finset.sum_congr rfl fun p _ => ?_
      show Γ n (c, p.divNat, p.modNat) * d n c (pair p.divNat p.modNat) = _
      rw [FlatL.pair_div_mod, hd' n c p (row n c p) (h1 n c p)]
  | @avgPool C H W =>
    refine ⟨fun n c => (∑ z : Fin H × Fin W, U n (c, z.1, z.2)) / (H * W : ℕ), fun n c => ?_, fun _ _ h => h.elim, fun Γ D P h => ?_⟩
    · show HasDerivAt (fun τ => (∑ z : Fin H × Fin W, X τ n (c, z.1, z.2)) / (Fintype.card (Fin H × Fin W) : ℝ)) _ 0
      rw [Fintype.card_prod, Fintype.card_fin, Fintype.card_fin]
      exact (HasDerivAt.fun_sum fun z _ => hX n (c, z.1, z.2)).div_const _
    · show _ = ∑ n, ∑ i, D n i * U n i + 0
      rw [add_zero]
      refine Finset.sum_congr rfl fun n _ => ?_
      have e : ∑ i, D n i * U n i = ∑ c, ∑ z : Fin H × Fin W, D n (c, z) * U n (c, z) := Fintype.sum_prod_type _
      rw [e]
      refine Finset.sum_congr rfl fun c _ => ?_
      rw [← mul_div_assoc, Finset.mul_sum, Finset.sum_div]
      refine Finset.sum_congr rfl fun z _ => ?_
      rw [h n (c, z)]
      ring
  | @flat C H W =>
    refine ⟨fun n k => U n (place k), fun n k => hX n _, fun n k h => hst n _ h, fun Γ D P h => ?_⟩
    show _ = ∑ n, ∑ i, D n i * U n i + 0
    rw [add_zero]
    refine Finset.sum_congr rfl fun n _ => ?_
    rw [sum_place fun i => D n i * U n i]
    exact Finset.sum_congr rfl fun k _ => by rw [h n k]
  | seq f g ihf ihg =>
    obtain ⟨U₁, h1, h2, h3⟩ := ihf V.1 hs.1 hT hX hst
    have hT' : (fun n => run f (shift f (values f) 0 V.1) (X 0 n)) = fun n => net f.net (T n) := by
      rw [shift_zero, hT]
      funext n
      exact run_values f _
    obtain ⟨U₂, k1, k2, k3⟩ := ihg V.2 (X := fun τ n => run f (shift f (values f) τ V.1) (X τ n)) hs.2 hT' h1 h2
    refine ⟨U₂, k1, k2, fun Γ D P h => ?_⟩
    obtain ⟨E, b1, b2⟩ := h
    rw [k3 Γ E P.2 b1, h3 E D P.1 b2]
    show _ = _ + (paired f P.1 V.1 + paired g P.2 V.2)
    ring
  | join f g ihf ihg =>
    obtain ⟨U₁, h1, h2, h3⟩ := ihf V.1 hs.1 hT hX hst
    obtain ⟨U₂, k1, k2, k3⟩ := ihg V.2 hs.2 hT hX hst
    refine ⟨fun n k => U₁ n k + U₂ n k, fun n k => (h1 n k).fun_add (k1 n k), fun n k h => ?_, fun Γ D P h => ?_⟩
    · filter_upwards [h2 n k h.1, k2 n k h.2] with τ e1 e2
      exact congrArg₂ (· + ·) e1 e2
    · obtain ⟨D₁, D₂, b1, b2, b3⟩ := h
      have e1 := h3 Γ D₁ P.1 b1
      have e2 := k3 Γ D₂ P.2 b2
      simp only [mul_add, Finset.sum_add_distrib, b3, add_mul]
      rw [e1, e2]
      show _ = _ + (paired f P.1 V.1 + paired g P.2 V.2)
      ring

/-- **C121** (exact arithmetic): where the network has no kink, the formulas of backpropagation give its gradient. -/
theorem back_gradient (f : ImgNet s t) {T : Fin N → s.Ix → ℝ} (hs : Smooth f (fun _ _ => False) T) {Γ : Fin N → t.Ix → ℝ} {D : Fin N → s.Ix → ℝ}
    {P : Params ℝ f} (h : Back f T Γ D P) : IsGradient f T Γ D P := fun U V => by
  obtain ⟨U', h1, -, h3⟩ := curve f V (X := fun τ n i => T n i + τ * U n i) hs (by funext n i; simp)
    (fun n i => by simpa using ((hasDerivAt_id (0 : ℝ)).mul_const (U n i)).const_add (T n i)) fun _ _ h => h.elim
  rw [← h3 Γ D P h]
  exact HasDerivAt.fun_sum fun n _ => HasDerivAt.fun_sum fun k _ => (h1 n k).const_mul _

end

end DW.Props.FloatImageBackP
