import Verif.Model.FloatImage
import Verif.Model.Conv
import Verif.Props.FloatNet
import Verif.Props.FloatTrain
import Verif.Props.FloatCount
import Verif.Lemmas.Im2col
/-!
# C115: networks on images in `float`

As `Verif.Props.FloatNet`, for convolutions, pooling, `BatchNorm2D` and branches joined by `Add`.
-/

set_option autoImplicit false

namespace DW.Props.FloatImageP

open DW.Float DW.Props.FloatSoftmaxP DW.Props.FloatLossP DW.Props.FloatDotP DW.Props.FloatGradP DW.Props.FloatActP DW.Props.FloatAccuracyP
  DW.Props.FloatNormP DW.Props.FloatNetP DW.Props.FloatTrainP DW.Props.FloatAdamP DW.Props.FloatAdamStepP
open DW.Spec (Axis)
open DW.FlatL (pair)
open scoped ENNReal

noncomputable section

variable {R : Rounding} {F : Libm R} {q : Sqrt} {ε ρ : ℝ} {ι κ : Type}

/-! ## What `im2col` reads -/

/-- The values of a list of reads. -/
def readAll (img : List Flt) (fill : Flt) (reads : List (Option ℕ)) : List Flt := reads.map fun o => (o.bind fun i => img[i]?).getD fill

/-- The loops of `im2col` fill the buffer with the elements `patch`, row after row. -/
theorem columns {C : ℕ} (a b : Axis) (X : Fin C → Fin a.size → Fin b.size → Flt) (fill : Flt) :
    readAll (Spec.flat3 X) fill (im2colReads C a.size b.size (Im2colL.geo a b) a.dil b.dil a.out b.out) =
      Spec.rowMajor fun (t : Fin (C * (a.kernel * b.kernel))) (p : Fin (a.out * b.out)) => patch a b X fill p t := by
  rw [Im2colL.reads_eq]
  unfold readAll
  have hr : ∀ (c : Fin C) (y x : ℤ), ((Im2colL.addr a.size b.size c y x).bind fun i => (Spec.flat3 X)[i]?).getD fill = pixel (X c) fill y x := by
    intro c y x
    unfold Im2colL.addr pixel
    split
    · next h =>
      have hp : c.val * (a.size * b.size) + (y.toNat * b.size + x.toNat) =
          (pair c (pair (⟨y.toNat, by omega⟩ : Fin a.size) (⟨x.toNat, by omega⟩ : Fin b.size))).val := rfl
      rw [Option.bind_some, hp, FlatL.flat3_getElem?, Option.getD_some]
    · rfl
  refine MatL.eq_rowMajor (by rw [List.length_map, FlatL.flat4_length]; ring) fun t p => ?_
  obtain ⟨c, k, rfl⟩ := FlatL.exists_pair t
  obtain ⟨kh, kw, rfl⟩ := FlatL.exists_pair k
  have e : (pair c (pair kh kw)).val * (a.out * b.out) + p.val = (pair c (pair kh (pair kw p))).val := by simp only [FlatL.pair_val]; ring
  rw [e, List.getElem?_map, FlatL.flat4_getElem?, Option.map_some, hr]
  simp only [patch, FlatL.pair_divNat, FlatL.pair_modNat]

/-! ## The exact network -/

/-- An activation as a layer with one input. -/
def actLayer : Act → Layer 1 1
  | .relu => .relu
  | .leakyRelu alpha => .leakyRelu alpha
  | .elu alpha => .elu alpha
  | .sigmoid => .sigmoid

/-- An image as a batch of one. -/
def image {C H W : ℕ} (X : Fin C × Fin H × Fin W → ℝ) : Fin 1 → Fin C → Fin H → Fin W → ℝ := fun _ c y x => X (c, y, x)

/-- The network in exact arithmetic. -/
def net : {ι κ : Type} → Net ι κ → (ι → ℝ) → κ → ℝ
  | _, _, .skip, X => X
  | _, _, .act a, X => fun i => match a with
    | .relu => Spec.relu (X i)
    | .leakyRelu alpha => Spec.leakyRelu alpha.val (X i)
    | .elu alpha => Spec.elu alpha.val (X i)
    | .sigmoid => Spec.sigmoid (X i)
  | _, _, .batchNorm ch mean var gamma beta eps, X =>
    fun i => Spec.normalise (mean (ch i)).val (var (ch i)).val eps.val (gamma (ch i)).val (beta (ch i)).val (X i)
  | _, _, .linear W b, X => Spec.linear (fun _ : Fin 1 => X) (fun j r => (W j r).val) (fun j => (b j).val) 0
  | _, _, .conv a b W bias, X => fun p =>
    Spec.conv a b (image X) (fun o c kh kw => (W o (pair c (pair kh kw))).val) (fun o => (bias o).val) 0 p.1 p.2.1 p.2.2
  | _, _, .maxPool a b, X => fun p => Spec.maxPool a b floatMin (image X) 0 p.1 p.2.1 p.2.2
  | _, _, .avgPool, X => fun c => Spec.planeMean (image X) 0 c
  | _, _, .flat, X => fun k => X (place k)
  | _, _, .seq f g, X => net g (net f X)
  | _, _, .join f g, X => fun i => net f X i + net g X i

/-! ## The bounds -/

/-- The bounds after a network from those before it. -/
def after' (ε ρ : ℝ) : {ι κ : Type} → Net ι κ → Bounds → Bounds
  | _, _, .skip, p => p
  | _, _, .act a, p => after ε ρ (actLayer a) p
  | _, _, .batchNorm _ mean var gamma beta eps, p => after ε ρ (.batchNorm mean var gamma beta eps) p
  | _, _, .linear W b, p => after ε ρ (.linear W b) p
  | _, _, .conv _ _ W bias, p => after ε ρ (.linear W bias) p
  | _, _, .maxPool _ _, p => ⟨max p.A floatMin, p.d⟩
  | _, _, .avgPool (H := H) (W := W), p =>
    ⟨p.A, p.d + ((1 + u) ^ (H * W + 1) - 1) * (p.A + p.d) + 3 * η * (1 + u) ^ (H * W + 1)⟩
  | _, _, .flat, p => p
  | _, _, .seq f g, p => after' ε ρ g (after' ε ρ f p)
  | _, _, .join f g, p => ⟨(after' ε ρ f p).A + (after' ε ρ g p).A, (after' ε ρ f p).d + (after' ε ρ g p).d +
      u * ((after' ε ρ f p).A + (after' ε ρ f p).d + ((after' ε ρ g p).A + (after' ε ρ g p).d)) + η⟩

/-- Nothing overflows. -/
def Fits' (ε ρ : ℝ) : {ι κ : Type} → Net ι κ → Bounds → Prop
  | _, _, .skip, _ => True
  | _, _, .act a, p => Fits (actLayer a) p
  | _, _, .batchNorm _ mean var gamma beta eps, p => Fits (.batchNorm mean var gamma beta eps) p
  | _, _, .linear W b, p => Fits (.linear W b) p
  | _, _, .conv _ _ W bias, p => Fits (.linear W bias) p
  | _, _, .maxPool _ _, _ => True
  | _, _, .avgPool (H := H) (W := W), p => H * W ≤ 2 ^ 24 ∧ (1 + u) ^ (H * W) * ((H * W : ℕ) * (p.A + p.d) + 2 * (H * W : ℕ) * η) ≤ big
  | _, _, .flat, _ => True
  | _, _, .seq f g, p => Fits' ε ρ f p ∧ Fits' ε ρ g (after' ε ρ f p)
  | _, _, .join f g, p => Fits' ε ρ f p ∧ Fits' ε ρ g p ∧
    (after' ε ρ f p).A + (after' ε ρ f p).d + ((after' ε ρ g p).A + (after' ε ρ g p).d) ≤ big

/-- `X` are finite `float`s within `p.d` of the numbers `T`, whose magnitudes are at most `p.A`. -/
structure Close (R : Rounding) (X : ι → Flt) (T : ι → ℝ) (p : Bounds) : Prop where
  nonneg : 0 ≤ p.A ∧ 0 ≤ p.d
  finite : ∀ i, (X i).Finite
  isFloat : ∀ i, IsFloat R (X i)
  size : ∀ i, |T i| ≤ p.A
  error : ∀ i, |(X i).val - T i| ≤ p.d

theorem Close.rows {X : ι → Flt} {T : ι → ℝ} {p : Bounds} (h : Close R X T p) {B n : ℕ} (f : Fin B → Fin n → ι) :
    Within R (fun i j => X (f i j)) (fun i j => T (f i j)) p :=
  ⟨h.nonneg, fun _ _ => h.finite _, fun _ _ => h.isFloat _, fun _ _ => h.size _, fun _ _ => h.error _⟩

theorem Close.val_le {X : ι → Flt} {T : ι → ℝ} {p : Bounds} (h : Close R X T p) (i : ι) : |(X i).val| ≤ p.A + p.d :=
  (h.rows fun (_ _ : Fin 1) => i).val_le 0 0

/-! ## Windows -/

theorem fltMin_finite : fltMin.Finite := by
  show minNormal ≠ ⊤
  rw [minNormal_eq]
  exact ENNReal.ofReal_ne_top

theorem fltMin_val : fltMin.val = floatMin := by
  show minNormal.toReal = _
  rw [minNormal_eq, ENNReal.toReal_ofReal (by positivity), floatMin, one_div, inv_pow]
  norm_num

/-- The property of the rounding that max pooling needs holds for binary32. -/
theorem fltMin_isFloat : IsFloat binary32 fltMin := by
  show rd32 minNormal = minNormal
  have h := roundReal_float (m := 1) (e := -126) (by norm_num) (by norm_num)
  rw [Nat.cast_one, one_mul] at h
  rw [minNormal_eq, rd32_ofReal (by positivity) (by rw [h]; norm_num), h]

theorem floatMin_pos : 0 < floatMin := by unfold floatMin; positivity

theorem pixel_close {H W : ℕ} {X : Fin H → Fin W → Flt} {T : Fin H → Fin W → ℝ} {A d : ℝ} (hd : 0 ≤ d) (hf : ∀ y x, (X y x).Finite)
    (hi : ∀ y x, IsFloat R (X y x)) (hs : ∀ y x, |T y x| ≤ A) (he : ∀ y x, |(X y x).val - T y x| ≤ d) {fill : Flt} (h1 : fill.Finite)
    (h2 : IsFloat R fill) (h3 : |fill.val| ≤ A) (y x : ℤ) :
    (pixel X fill y x).Finite ∧ IsFloat R (pixel X fill y x) ∧ |Spec.pixel T fill.val y x| ≤ A ∧
      |(pixel X fill y x).val - Spec.pixel T fill.val y x| ≤ d := by
  unfold pixel Spec.pixel
  split
  · exact ⟨hf _ _, hi _ _, hs _ _, he _ _⟩
  · exact ⟨h1, h2, h3, by rwa [sub_self, abs_zero]⟩

/-! ## The layers -/

theorem act_close (hL : Accurate F q ε ρ) (a : Act) {X Y : ι → Flt} {T : ι → ℝ} {p : Bounds} (hp : Close R X T p) (hf : Fits (actLayer a) p)
    (h : ∀ i, Y i = a.fn R F (X i)) : Close R Y (net (.act a) T) (after ε ρ (actLayer a) p) := by
  have key : ∀ i, Within R (fun _ _ : Fin 1 => Y i) (layer (actLayer a) fun _ _ => T i) (after ε ρ (actLayer a) p) := fun i =>
    layer_near hL (actLayer a) (hp.rows fun _ _ => i) hf (by cases a <;> exact fun _ _ => h i)
  have e : ∀ i, layer (actLayer a) (fun _ _ : Fin 1 => T i) 0 0 = net (.act a) T i := fun i => by cases a <;> rfl
  refine ⟨?_, fun i => (key i).finite 0 0, fun i => (key i).isFloat 0 0, fun i => e i ▸ (key i).size 0 0, fun i => e i ▸ (key i).error 0 0⟩
  obtain ⟨hA, hd⟩ := hp.nonneg
  have := hL.exp_nonneg
  have := u_pos
  have := η_pos
  have l1 : ∀ x : ℝ, 0 ≤ max 1 |x| := fun x => le_trans zero_le_one (le_max_left _ _)
  cases a with
  | relu => exact hp.nonneg
  | leakyRelu alpha => have := l1 alpha.val; exact ⟨by simp only [actLayer, after]; positivity, by simp only [actLayer, after]; positivity⟩
  | elu alpha => have := l1 alpha.val; exact ⟨by simp only [actLayer, after]; positivity, by simp only [actLayer, after]; positivity⟩
  | sigmoid => exact ⟨by simp only [actLayer, after]; positivity, by simp only [actLayer, after]; positivity⟩

theorem batchNorm_close (hL : Accurate F q ε ρ) {C : ℕ} (ch : ι → Fin C) {mean var gamma beta : Fin C → Flt} {eps : Flt} {X Y : ι → Flt} {T : ι → ℝ}
    {p : Bounds} (hp : Close R X T p) (hf : Fits (.batchNorm mean var gamma beta eps) p)
    (h : ∀ i, BatchNormEval R q (mean (ch i)) (var (ch i)) (gamma (ch i)) (beta (ch i)) eps (X i) (Y i)) :
    Close R Y (net (.batchNorm ch mean var gamma beta eps) T) (after ε ρ (.batchNorm mean var gamma beta eps) p) := by
  have hA := hp.nonneg.1
  have hd := hp.nonneg.2
  have hu := u_pos
  have hη := η_pos
  have hρ := hL.sqrt_nonneg
  have hC := factorNorm_nonneg var gamma eps
  have hμ := biasNorm_nonneg mean
  have hβ := biasNorm_nonneg beta
  -- the other channels do not matter: use the same number for all of them
  have ex : ∀ i, ∃ Z : Fin C → Flt, Z (ch i) = Y i ∧ ∀ c, BatchNormEval R q (mean c) (var c) (gamma c) (beta c) eps (X i) (Z c) := fun i => by
    classical
    obtain ⟨V, hV⟩ : ∃ V : Fin C → Flt, ∀ c, BatchNormEval R q (mean c) (var c) (gamma c) (beta c) eps (X i) (V c) := ⟨_, fun _ => Or.inl rfl⟩
    refine ⟨fun c => if c = ch i then Y i else V c, if_pos rfl, fun c => ?_⟩
    by_cases hc : c = ch i
    · simp only [if_pos hc, hc]
      exact h i
    · simp only [if_neg hc]
      exact hV c
  choose Z hZ hZ' using ex
  have key : ∀ i, Within R (fun _ : Fin 1 => Z i) (layer (.batchNorm mean var gamma beta eps) fun _ _ => T i)
      (after ε ρ (.batchNorm mean var gamma beta eps) p) := fun i =>
    layer_near hL _ (hp.rows fun _ _ => i) hf fun _ c => hZ' i c
  refine ⟨⟨by simp only [after]; positivity, by simp only [after]; positivity⟩, fun i => hZ i ▸ (key i).finite 0 (ch i),
    fun i => hZ i ▸ (key i).isFloat 0 (ch i), fun i => (key i).size 0 (ch i), fun i => hZ i ▸ (key i).error 0 (ch i)⟩

theorem conv_close (hL : Accurate F q ε ρ) {C O : ℕ} (a b : Axis) {W : Fin O → Fin (C * (a.kernel * b.kernel)) → Flt} {bias : Fin O → Flt}
    {X : Fin C × Fin a.size × Fin b.size → Flt} {Y : Fin O × Fin a.out × Fin b.out → Flt} {T : Fin C × Fin a.size × Fin b.size → ℝ} {p : Bounds}
    (hp : Close R X T p) (hf : Fits (.linear W bias) p) (h : ConvForward R a b W bias X Y) :
    Close R Y (net (.conv a b W bias) T) (after ε ρ (.linear W bias) p) := by
  have px := fun (c : Fin C) (y x : ℤ) => pixel_close (R := R) (X := fun y x => X (c, y, x)) (T := fun y x => T (c, y, x)) hp.nonneg.2 (fun _ _ => hp.finite _)
    (fun _ _ => hp.isFloat _) (fun _ _ => hp.size _) (fun _ _ => hp.error _) finite_zero isFloat_zero (by rw [val_zero, abs_zero]; exact hp.nonneg.1) y x
  rw [val_zero] at px
  have key := layer_near hL (.linear W bias) (T := fun s t => Spec.pixel (fun y x => T (t.divNat, y, x)) 0 (a.pos s.divNat t.modNat.divNat)
    (b.pos s.modNat t.modNat.modNat)) (p := p) (X := patch a b (fun c y x => X (c, y, x)) 0) ⟨hp.nonneg, fun _ _ => (px _ _ _).1, fun _ _ => (px _ _ _).2.1,
      fun _ _ => (px _ _ _).2.2.1, fun _ _ => (px _ _ _).2.2.2⟩ hf h
  have e : ∀ (o : Fin O) (r : Fin a.out) (s : Fin b.out), layer (.linear W bias) (fun (s : Fin (a.out * b.out)) t =>
      Spec.pixel (fun y x => T (t.divNat, y, x)) 0 (a.pos s.divNat t.modNat.divNat) (b.pos s.modNat t.modNat.modNat)) (pair r s) o =
      net (.conv a b W bias) T (o, r, s) := fun o r s => by
    simp only [layer, net, Spec.linear, Spec.conv, image, FlatL.sum_pair, FlatL.pair_divNat, FlatL.pair_modNat]
    rw [add_comm]
    congr 1
    refine Finset.sum_congr rfl fun _ _ => Finset.sum_congr rfl fun _ _ => Finset.sum_congr rfl fun _ _ => mul_comm _ _
  have y : ∀ (o : Fin O) (r : Fin a.out) (s : Fin b.out), Y (o, (pair r s).divNat, (pair r s).modNat) = Y (o, r, s) := fun o r s => by
    rw [FlatL.pair_divNat, FlatL.pair_modNat]
  refine ⟨key.nonneg, fun i => ?_, fun i => ?_, fun i => ?_, fun i => ?_⟩ <;> obtain ⟨o, r, s⟩ := i
  · exact y o r s ▸ key.finite (pair r s) o
  · exact y o r s ▸ key.isFloat (pair r s) o
  · exact e o r s ▸ key.size (pair r s) o
  · have := key.error (pair r s) o
    rwa [e, y] at this

theorem maxPool_close (hmin : IsFloat R fltMin) {C : ℕ} (a b : Axis) {X : Fin C × Fin a.size × Fin b.size → Flt}
    {Y : Fin C × Fin a.out × Fin b.out → Flt} {T : Fin C × Fin a.size × Fin b.size → ℝ} {p : Bounds} (hp : Close R X T p)
    (h : MaxPoolForward a b X Y) : Close R Y (net (.maxPool a b) T) ⟨max p.A floatMin, p.d⟩ := by
  have px := fun (c : Fin C) (y x : ℤ) => pixel_close (R := R) (X := fun y x => X (c, y, x)) (T := fun y x => T (c, y, x)) (A := max p.A floatMin) hp.nonneg.2
    (fun _ _ => hp.finite _) (fun _ _ => hp.isFloat _) (fun _ _ => (hp.size _).trans (le_max_left _ _)) (fun _ _ => hp.error _) fltMin_finite hmin
    (by rw [fltMin_val, abs_of_pos floatMin_pos]; exact le_max_right _ _) y x
  rw [fltMin_val] at px
  have main : ∀ c r s, (Y (c, r, s)).Finite ∧ IsFloat R (Y (c, r, s)) ∧ |net (.maxPool a b) T (c, r, s)| ≤ max p.A floatMin ∧
      |(Y (c, r, s)).val - net (.maxPool a b) T (c, r, s)| ≤ p.d := fun c r s => by
    obtain ⟨⟨t, ht⟩, hmax⟩ := h c r s
    set f := fun t : Fin (a.kernel * b.kernel) => pixel (fun y x => X (c, y, x)) fltMin (a.pos r t.divNat) (b.pos s t.modNat) with hf
    set g := fun k : Fin a.kernel × Fin b.kernel => Spec.window a b (image T 0 c) floatMin k.1 k.2 r s with hg
    have hpx : ∀ k : Fin a.kernel × Fin b.kernel, (f (pair k.1 k.2)).Finite ∧ IsFloat R (f (pair k.1 k.2)) ∧ |g k| ≤ max p.A floatMin ∧
        |(f (pair k.1 k.2)).val - g k| ≤ p.d := fun k => by
      simp only [hf, hg, FlatL.pair_divNat, FlatL.pair_modNat]
      exact px c _ _
    have ht' : f (pair t.divNat t.modNat) = Y (c, r, s) := by rw [FlatL.pair_div_mod]; exact ht
    obtain ⟨y1, y2, y3, y4⟩ := ht' ▸ hpx (t.divNat, t.modNat)
    have bdd : BddAbove (Set.range g) := (Set.finite_range g).bddAbove
    have : Nonempty (Fin a.kernel × Fin b.kernel) := ⟨(t.divNat, t.modNat)⟩
    have e : net (.maxPool a b) T (c, r, s) = ⨆ k, g k := rfl
    have s1 : g (t.divNat, t.modNat) ≤ ⨆ k, g k := le_ciSup bdd _
    rw [e]
    refine ⟨y1, y2, abs_le.2 ⟨?_, ciSup_le fun k => (le_abs_self _).trans (hpx k).2.2.1⟩, abs_le.2 ⟨?_, ?_⟩⟩
    · have := (abs_le.1 y3).1
      linarith
    · have : ⨆ k, g k ≤ (Y (c, r, s)).val + p.d := ciSup_le fun k => by
        have k1 := hmax (pair k.1 k.2)
        rw [lt_iff y1 (hpx k).1] at k1
        have k2 := (abs_le.1 (hpx k).2.2.2).1
        linarith [not_lt.1 k1]
      linarith
    · have := (abs_le.1 y4).2
      linarith
  exact ⟨⟨hp.nonneg.1.trans (le_max_left _ _), hp.nonneg.2⟩, fun i => (main i.1 i.2.1 i.2.2).1, fun i => (main i.1 i.2.1 i.2.2).2.1,
    fun i => (main i.1 i.2.1 i.2.2).2.2.1, fun i => (main i.1 i.2.1 i.2.2).2.2.2⟩

theorem avgPool_close {C H W : ℕ} {X : Fin C × Fin H × Fin W → Flt} {Y : Fin C → Flt} {T : Fin C × Fin H × Fin W → ℝ} {p : Bounds} (hp : Close R X T p)
    (hn : H * W ≤ 2 ^ 24) (hmax : (1 + u) ^ (H * W) * ((H * W : ℕ) * (p.A + p.d) + 2 * (H * W : ℕ) * η) ≤ big) (h : AvgPoolForward R X Y) :
    Close R Y (net .avgPool T) ⟨p.A, p.d + ((1 + u) ^ (H * W + 1) - 1) * (p.A + p.d) + 3 * η * (1 + u) ^ (H * W + 1)⟩ := by
  have hu := u_pos
  have hη := η_pos
  obtain ⟨hA, hd⟩ := hp.nonneg
  have hG : (1 : ℝ) ≤ (1 + u) ^ (H * W) := one_le_pow₀ (by linarith)
  have hG' : (1 + u) ^ (H * W + 1) = (1 + u) * (1 + u) ^ (H * W) := pow_succ' _ _
  set G := (1 + u) ^ (H * W) with hGd
  have hd' : 0 ≤ p.d + ((1 + u) * G - 1) * (p.A + p.d) + 3 * η * ((1 + u) * G) := by
    have : 0 ≤ (1 + u) * G - 1 := by nlinarith
    positivity
  rw [hG']
  have main : ∀ c, (Y c).Finite ∧ IsFloat R (Y c) ∧ |net .avgPool T c| ≤ p.A ∧
      |(Y c).val - net .avgPool T c| ≤ p.d + ((1 + u) * G - 1) * (p.A + p.d) + 3 * η * ((1 + u) * G) := fun c => by
    obtain ⟨s, hs, hY⟩ := h c
    set l := List.ofFn fun t : Fin (H * W) => X (c, t.divNat, t.modNat) with hl
    have hlen : l.length = H * W := by simp [hl]
    have hn0 : 0 < H * W := by
      have := List.length_pos_iff.2 (sum_ne_nil hs)
      omega
    have hN : (0 : ℝ) < (H * W : ℕ) := by exact_mod_cast hn0
    have hN1 : (1 : ℝ) ≤ (H * W : ℕ) := by exact_mod_cast hn0
    set N : ℝ := ((H * W : ℕ) : ℝ) with hNd
    have hmass : mass l ≤ N * (p.A + p.d) := by
      have : mass l = ∑ t : Fin (H * W), |(X (c, t.divNat, t.modNat)).val| := by simp [mass, hl, List.map_ofFn, List.sum_ofFn]
      rw [this]
      refine (Finset.sum_le_sum fun t _ => hp.val_le _).trans (le_of_eq ?_)
      rw [Finset.sum_const, Finset.card_univ, Fintype.card_fin, nsmul_eq_mul]
    have htot : total l = ∑ t : Fin (H * W), (X (c, t.divNat, t.modNat)).val := by simp [total, hl, List.map_ofFn, List.sum_ofFn]
    have hm0 := mass_nonneg l
    obtain ⟨sf, se⟩ := sum_good hs (g := G) (fun x hx => by
      obtain ⟨t, rfl⟩ := List.mem_ofFn.1 hx
      exact hp.finite _) (by rw [hlen]) (by
        rw [hlen]
        refine le_trans (mul_le_mul_of_nonneg_left ?_ (by positivity)) hmax
        linarith)
    rw [hlen] at se
    change |s.val - total l| ≤ (G - 1) * mass l + (2 * N - 1) * η * G at se
    have se' : |s.val - total l| ≤ (G - 1) * (N * (p.A + p.d)) + 2 * N * η * G := by
      have e1 := mul_le_mul_of_nonneg_left hmass (by linarith : 0 ≤ G - 1)
      have e2 : 0 ≤ η * G := by positivity
      linarith
    have tl := (total_le_mass l).trans hmass
    have sv : |s.val| ≤ G * (N * (p.A + p.d) + 2 * N * η) := by
      have := abs_sub_le s.val (total l) 0
      rw [sub_zero, sub_zero] at this
      linarith
    rw [FloatCountP.ofNat_exact hn] at hY
    have nv : (Flt.num false ((H * W : ℕ) : ℝ≥0∞)).val = N := by simp [Flt.val, hNd]
    have sN : |s.val / N| ≤ G * (p.A + p.d + 2 * η) := by
      rw [abs_div, abs_of_pos hN, div_le_iff₀ hN]
      linarith
    have nd := near_div (R := R) sf (b := .num false ((H * W : ℕ) : ℝ≥0∞)) (ENNReal.natCast_ne_top _) (by rw [nv]; exact hN.ne') (by
      rw [nv, abs_div, abs_of_pos hN, div_le_iff₀ hN]
      have : big * 1 ≤ big * N := mul_le_mul_of_nonneg_left hN1 (by unfold big; positivity)
      linarith)
    rw [nv, ← hY] at nd
    have ex : net .avgPool T c = (∑ t : Fin (H * W), T (c, t.divNat, t.modNat)) / N := by
      show (∑ t : Fin H × Fin W, T (c, t.1, t.2)) / _ = _
      rw [FlatL.sum_pair, Fintype.sum_prod_type]
      simp only [FlatL.pair_divNat, FlatL.pair_modNat, Fintype.card_prod, Fintype.card_fin]
      rfl
    have card : ∀ (z : Fin (H * W) → ℝ) (b : ℝ), (∀ t, |z t| ≤ b) → |(∑ t, z t) / N| ≤ b := fun z b hz => by
      rw [abs_div, abs_of_pos hN, div_le_iff₀ hN]
      refine (Finset.abs_sum_le_sum_abs _ _).trans ((Finset.sum_le_sum fun t _ => hz t).trans (le_of_eq ?_))
      rw [Finset.sum_const, Finset.card_univ, Fintype.card_fin, nsmul_eq_mul, mul_comm]
    refine ⟨nd.1, hY ▸ isFloat_div _ _, ?_, ?_⟩
    · rw [ex]
      exact card _ _ fun t => hp.size _
    · have e1 : |total l / N - net .avgPool T c| ≤ p.d := by
        rw [ex, htot, ← sub_div, ← Finset.sum_sub_distrib]
        exact card _ _ fun t => hp.error _
      have e2 : |s.val / N - total l / N| ≤ (G - 1) * (p.A + p.d) + 2 * η * G := by
        rw [← sub_div, abs_div, abs_of_pos hN, div_le_iff₀ hN]
        linarith
      have e3 := abs_sub_le (Y c).val (s.val / N) (net .avgPool T c)
      have e4 := abs_sub_le (s.val / N) (total l / N) (net .avgPool T c)
      have e5 := mul_le_mul_of_nonneg_left sN hu.le
      have e6 := nd.2
      have e7 : η ≤ η * G := le_mul_of_one_le_right hη.le hG
      have e8 : 0 ≤ u * (η * G) := by positivity
      linarith
  exact ⟨⟨hA, hd'⟩, fun c => (main c).1, fun c => (main c).2.1, fun c => (main c).2.2.1, fun c => (main c).2.2.2⟩

/-- **C115**. If nothing can overflow, the outputs of a network with branches, convolutions and pooling are finite and within the bound `after'`
of those of exact arithmetic, whatever the orders in which the sums are computed. -/
theorem image_near (hL : Accurate F q ε ρ) (hmin : IsFloat R fltMin) (f : Net ι κ) {X : ι → Flt} {Y : κ → Flt} {T : ι → ℝ} {p : Bounds}
    (hp : Close R X T p) (hf : Fits' ε ρ f p) (h : f.Forward R F q X Y) : Close R Y (net f T) (after' ε ρ f p) := by
  induction f generalizing p with
  | skip => cases h; exact hp
  | act a => exact act_close hL a hp hf h
  | batchNorm ch mean var gamma beta eps => exact batchNorm_close hL ch hp hf h
  | linear W b =>
    have key := layer_near hL (.linear W b) (hp.rows fun (_ : Fin 1) j => j) hf h
    exact ⟨key.nonneg, fun i => key.finite 0 i, fun i => key.isFloat 0 i, fun i => key.size 0 i, fun i => key.error 0 i⟩
  | conv a b W bias => exact conv_close hL a b hp hf h
  | maxPool a b => exact maxPool_close hmin a b hp h
  | avgPool => exact avgPool_close hp hf.1 hf.2 h
  | flat =>
    exact ⟨hp.nonneg, fun k => by rw [h k]; exact hp.finite _, fun k => by rw [h k]; exact hp.isFloat _, fun k => hp.size _,
      fun k => by rw [h k]; exact hp.error _⟩
  | seq f g ihf ihg =>
    obtain ⟨Z, h1, h2⟩ := h
    exact ihg (ihf hp hf.1 h1) hf.2 h2
  | join f g ihf ihg =>
    obtain ⟨Z, Z', h1, h2, h3⟩ := h
    have c1 := ihf hp hf.1 h1
    have c2 := ihg hp hf.2.1 h2
    have hu := u_pos
    have hη := η_pos
    have a1 := c1.nonneg
    have a2 := c2.nonneg
    have size : ∀ i, |(Z i).val + (Z' i).val| ≤
        (after' ε ρ f p).A + (after' ε ρ f p).d + ((after' ε ρ g p).A + (after' ε ρ g p).d) := fun i =>
      (abs_add_le _ _).trans (add_le_add (c1.val_le i) (c2.val_le i))
    have nr := fun i => near_addWith (R := R) (c1.finite i) (c2.finite i) ((size i).trans hf.2.2)
    obtain ⟨a11, a12⟩ := a1
    obtain ⟨a21, a22⟩ := a2
    refine ⟨⟨by simp only [after']; positivity, by simp only [after']; positivity⟩, fun i => ?_, fun i => ?_, fun i => ?_, fun i => ?_⟩
    · rw [h3 i]; exact (nr i).1
    · rw [h3 i]; exact isFloat_add _ _
    · exact (abs_add_le _ _).trans (add_le_add (c1.size i) (c2.size i))
    · rw [h3 i]
      have e1 := (nr i).2
      have e2 := mul_le_mul_of_nonneg_left (size i) hu.le
      have e3 := abs_sub_le (add R (Z i) (Z' i)).val ((Z i).val + (Z' i).val) (net f T i + net g T i)
      have e4 : |(Z i).val + (Z' i).val - (net f T i + net g T i)| ≤ (after' ε ρ f p).d + (after' ε ρ g p).d := by
        rw [add_sub_add_comm]
        exact (abs_add_le _ _).trans (add_le_add (c1.error i) (c2.error i))
      change |(add R (Z i) (Z' i)).val - _| ≤ _ at e1
      simp only [net, after']
      linarith

/-- The inputs of the network as exact numbers. -/
theorem inputs_close {X : ι → Flt} (hX : ∀ i, (X i).Finite) (hf : ∀ i, IsFloat R (X i)) {A : ℝ} (hA : 0 ≤ A) (h : ∀ i, |(X i).val| ≤ A) :
    Close R X (fun i => (X i).val) ⟨A, 0⟩ :=
  ⟨⟨hA, le_rfl⟩, hX, hf, h, fun i => by rw [sub_self, abs_zero]⟩

/-- **C115** (predictions): an output that is larger than another by more than twice the bound in exact arithmetic is larger in `float`. -/
theorem image_order (hL : Accurate F q ε ρ) (hmin : IsFloat R fltMin) (f : Net ι κ) {X : ι → Flt} {Y : κ → Flt} {T : ι → ℝ} {p : Bounds}
    (hp : Close R X T p) (hf : Fits' ε ρ f p) (h : f.Forward R F q X Y) {i j : κ} (hij : net f T i + 2 * (after' ε ρ f p).d < net f T j) :
    (Y i).lt (Y j) := by
  have hw := image_near hL hmin f hp hf h
  rw [lt_iff (hw.finite i) (hw.finite j)]
  have h1 := (abs_le.1 (hw.error i)).2
  have h2 := (abs_le.1 (hw.error j)).1
  linarith

/-- **C115** (reproducibility): two runs agree up to twice the bound. -/
theorem image_runs_agree (hL : Accurate F q ε ρ) (hmin : IsFloat R fltMin) (f : Net ι κ) {X : ι → Flt} {Y Y' : κ → Flt} {T : ι → ℝ} {p : Bounds}
    (hp : Close R X T p) (hf : Fits' ε ρ f p) (h : f.Forward R F q X Y) (h' : f.Forward R F q X Y') (i : κ) :
    |(Y i).val - (Y' i).val| ≤ 2 * (after' ε ρ f p).d := by
  have h1 := (image_near hL hmin f hp hf h).error i
  have h2 := (image_near hL hmin f hp hf h').error i
  have h3 := abs_sub_le (Y i).val (net f T i) (Y' i).val
  rw [abs_sub_comm (net f T i)] at h3
  linarith

/-- **C115** (probabilities): with a softmax after the network, for a batch `X` of images. -/
theorem image_softmax (hL : Accurate F q ε ρ) (hmin : IsFloat R fltMin) {B m : ℕ} (f : Net ι (Fin m)) {X : Fin B → ι → Flt} {Y P : Fin B → Fin m → Flt}
    {T : Fin B → ι → ℝ} {p : Bounds} (hp : ∀ i, Close R (X i) (T i) p) (hf : Fits' ε ρ f p) (h : ∀ i, f.Forward R F q (X i) (Y i))
    (hs : SoftmaxForward R F Y P) (hm : m ≤ 2 ^ 20) (i : Fin B) (j : Fin m) :
    |(P i j).val - Spec.softmax (fun i => net f (T i)) i j| ≤ Real.exp (2 * (after' ε ρ f p).d) - 1 + (2 * (m + 1) * u + 3 * ε) := by
  have hw := fun i => image_near hL hmin f (hp i) hf (h i)
  have h1 := softmax_error hs (fun i => (hw i).finite) hm hL.exp.neg hL.exp_nonneg hL.exp_le i j
  have h2 := softmax_shift (fun r => (hw i).error r) j
  have h3 := abs_sub_le (P i j).val (softmax (fun r => (Y i r).val) j) (softmax (net f (T i)) j)
  show |(P i j).val - softmax (net f (T i)) j| ≤ _
  linarith

/-! ## There are such runs -/

/-- No sums and windows without elements. -/
def NotEmpty : {ι κ : Type} → Net ι κ → Prop
  | _, _, .linear (n := n) _ _ => 0 < n
  | _, _, .conv (C := C) a b _ _ => 0 < C * (a.kernel * b.kernel)
  | _, _, .maxPool a b => 0 < a.kernel * b.kernel
  | _, _, .avgPool (H := H) (W := W) => 0 < H * W
  | _, _, .seq f g => NotEmpty f ∧ NotEmpty g
  | _, _, .join f g => NotEmpty f ∧ NotEmpty g
  | _, _, _ => True

theorem linear_exists {B n k : ℕ} (hn : 0 < n) (X : Fin B → Fin n → Flt) (W : Fin k → Fin n → Flt) (b : Fin k → Flt) : ∃ Y, LinearForward R X W b Y := by
  choose z hz using fun i j => dot_exists (R := R) (List.ofFn fun r => (X i r, W j r)) (by rw [Ne, List.ofFn_eq_nil_iff]; exact hn.ne')
  exact ⟨_, fun i j => ⟨z i j, hz i j, rfl⟩⟩

theorem image_exists (hL : Accurate F q ε ρ) (hmin : IsFloat R fltMin) (f : Net ι κ) (hr : NotEmpty f) {X : ι → Flt} {T : ι → ℝ} {p : Bounds}
    (hp : Close R X T p) (hf : Fits' ε ρ f p) : ∃ Y, f.Forward R F q X Y := by
  induction f generalizing p with
  | skip => exact ⟨X, rfl⟩
  | act a => exact ⟨_, fun _ => rfl⟩
  | batchNorm => exact ⟨_, fun _ => Or.inl rfl⟩
  | linear W b =>
    obtain ⟨Y, hY⟩ := linear_exists (R := R) hr (fun _ : Fin 1 => X) W b
    refine ⟨Y 0, ?_⟩
    have : (fun _ => Y 0) = Y := funext fun i => by rw [Subsingleton.elim i 0]
    show LinearForward R _ W b fun _ => Y 0
    rwa [this]
  | conv a b W bias =>
    obtain ⟨Y, hY⟩ := linear_exists (R := R) hr (patch a b (fun c y x => X (c, y, x)) 0) W bias
    refine ⟨fun i => Y (pair i.2.1 i.2.2) i.1, ?_⟩
    show LinearForward R _ W bias fun p o => Y (pair p.divNat p.modNat) o
    simp only [FlatL.pair_div_mod]
    exact hY
  | maxPool a b =>
    have : Nonempty (Fin (a.kernel * b.kernel)) := ⟨⟨0, hr⟩⟩
    have fin := fun (c) (y x : ℤ) => (pixel_close (R := R) (X := fun y x => X (c, y, x)) (T := fun y x => T (c, y, x)) (A := max p.A floatMin)
      hp.nonneg.2 (fun _ _ => hp.finite _) (fun _ _ => hp.isFloat _) (fun _ _ => (hp.size _).trans (le_max_left _ _)) (fun _ _ => hp.error _)
      fltMin_finite hmin (by rw [fltMin_val, abs_of_pos floatMin_pos]; exact le_max_right _ _) y x).1
    have ex := fun c (r : Fin a.out) (s : Fin b.out) => Finite.exists_max fun t : Fin (a.kernel * b.kernel) =>
      (pixel (fun y x => X (c, y, x)) fltMin (a.pos r t.divNat) (b.pos s t.modNat)).val
    choose t ht using ex
    refine ⟨fun i => pixel (fun y x => X (i.1, y, x)) fltMin (a.pos i.2.1 (t i.1 i.2.1 i.2.2).divNat) (b.pos i.2.2 (t i.1 i.2.1 i.2.2).modNat),
      fun c r s => ⟨⟨t c r s, rfl⟩, fun j => ?_⟩⟩
    rw [lt_iff (fin _ _ _) (fin _ _ _)]
    exact not_lt.2 (ht c r s j)
  | avgPool =>
    choose s hs using fun c => sum_exists (R := R) (List.ofFn fun t => X (c, t.divNat, t.modNat)) (by rw [Ne, List.ofFn_eq_nil_iff]; exact Nat.pos_iff_ne_zero.1 hr)
    exact ⟨_, fun c => ⟨s c, hs c, rfl⟩⟩
  | flat => exact ⟨_, fun _ => rfl⟩
  | seq f g ihf ihg =>
    obtain ⟨Z, hZ⟩ := ihf hr.1 hp hf.1
    obtain ⟨Y, hY⟩ := ihg hr.2 (image_near hL hmin f hp hf.1 hZ) hf.2
    exact ⟨Y, Z, hZ, hY⟩
  | join f g ihf ihg =>
    obtain ⟨Z, hZ⟩ := ihf hr.1 hp hf.1
    obtain ⟨Z', hZ'⟩ := ihg hr.2 hp hf.2.1
    exact ⟨_, Z, Z', hZ, hZ', fun _ => rfl⟩

/-! ## An example -/

/-- Windows of one element over two. -/
def two : Axis := ⟨2, 1, 0, 1, 1, 2⟩

/-- A residual block `x + ReLU(conv(x))` on an image of 2 by 2 elements with the weight 1, then the mean. -/
def block : Net (Fin 1 × Fin 2 × Fin 2) (Fin 1) :=
  .seq (.join .skip (.seq (.conv two two (fun (_ : Fin 1) _ => 1) fun _ => 0) (.act .relu))) .avgPool

theorem block_fits : Fits' u u block ⟨1, 0⟩ ∧ (after' u u block ⟨1, 0⟩).d ≤ 1 / 10 ^ 4 := by
  have hu := u_pos
  have hη := η_pos
  have hN : rowNorm (fun (_ : Fin 1) (_ : Fin (1 * (two.kernel * two.kernel))) => (1 : Flt)) = 1 := by
    show (⨆ _ : Fin 1, ∑ _ : Fin 1, |(1 : Flt).val|) = 1
    simp [val_one]
  have hβ : biasNorm (fun _ : Fin 1 => (0 : Flt)) = 0 := by simp [biasNorm, val_zero]
  have e3 : (1 + u) ^ 3 ≤ 1 + 1 / 10 ^ 6 := by unfold u; norm_num
  have e5 : (1 + u) ^ 5 ≤ 1 + 1 / 10 ^ 6 := by unfold u; norm_num
  have e4 : (1 + u) ^ 4 ≤ 2 := by unfold u; norm_num
  have hus := u_small
  have hηs : η ≤ 1 / 10 ^ 9 := by unfold η; norm_num
  have hbig : (100 : ℝ) ≤ big := by unfold big; norm_num
  have p3 : 1 ≤ (1 + u) ^ 3 := one_le_pow₀ (by linarith)
  have p5 : 1 ≤ (1 + u) ^ 5 := one_le_pow₀ (by linarith)
  -- the convolution
  have hg : gam (1 * (two.kernel * two.kernel)) ≤ 1 / 10 ^ 6 := by show (1 + u) ^ 3 - 1 ≤ _; linarith
  have hg0 := gam_nonneg (1 * (two.kernel * two.kernel))
  have ht : tiny (1 * (two.kernel * two.kernel)) ≤ 1 / 10 ^ 6 := by
    show 3 * ((1 : ℕ) : ℝ) * η * (1 + u) ^ 3 ≤ _
    rw [Nat.cast_one, mul_one]
    have : 3 * η * (1 + u) ^ 3 ≤ 3 * η * 2 := mul_le_mul_of_nonneg_left (by linarith) (by positivity)
    linarith
  have ht0 := tiny_nonneg (1 * (two.kernel * two.kernel))
  have hD : after u u (.linear (fun (_ : Fin 1) (_ : Fin (1 * (two.kernel * two.kernel))) => (1 : Flt)) fun _ => 0) ⟨1, 0⟩ =
      ⟨1, gam (1 * (two.kernel * two.kernel)) + tiny (1 * (two.kernel * two.kernel))⟩ := by
    simp only [after, hN, hβ]
    congr 1 <;> ring
  set D := gam (1 * (two.kernel * two.kernel)) + tiny (1 * (two.kernel * two.kernel)) with hDd
  have hD0 : 0 ≤ D := by linarith
  have hD1 : D ≤ 2 / 10 ^ 6 := by linarith
  -- the sum of the branches
  have hJ : after' u u (.join .skip (.seq (.conv two two (fun (_ : Fin 1) (_ : Fin (1 * (two.kernel * two.kernel))) => (1 : Flt)) fun _ => 0) (.act .relu)))
      ⟨1, 0⟩ = ⟨2, D + u * (2 + D) + η⟩ := by
    simp only [after']
    rw [hD]
    simp only [actLayer, after]
    congr 1 <;> ring
  have huD : u * (2 + D) ≤ 1 / 10 ^ 6 := by
    have := mul_le_mul hus (by linarith : 2 + D ≤ 3) (by linarith) (by norm_num)
    linarith
  have huD0 : 0 ≤ u * (2 + D) := by positivity
  refine ⟨⟨⟨trivial, ⟨⟨fun _ _ => finite_one, fun _ => finite_zero, ?_⟩, trivial⟩, ?_⟩, ?_⟩, ?_⟩
  · rw [hN, hβ]
    show (1 + u) ^ 3 * (1 * (1 + 0) + 0 + 3 * ((1 : ℕ) : ℝ) * η) ≤ big
    rw [Nat.cast_one]
    have := mul_le_mul (by linarith : (1 + u) ^ 3 ≤ 2) (by linarith : 1 * (1 + 0) + 0 + 3 * 1 * η ≤ 2) (by positivity) (by norm_num)
    linarith
  · simp only [after']
    rw [hD]
    simp only [actLayer, after]
    linarith
  · suffices h : Fits' u u (.avgPool (C := 1) (H := 2) (W := 2)) ⟨2, D + u * (2 + D) + η⟩ by
      rw [← hJ] at h
      exact h
    refine ⟨by norm_num, ?_⟩
    show (1 + u) ^ 4 * (((4 : ℕ) : ℝ) * (2 + (D + u * (2 + D) + η)) + 2 * ((4 : ℕ) : ℝ) * η) ≤ big
    have : ((4 : ℕ) : ℝ) = 4 := by norm_num
    rw [this]
    have := mul_le_mul e4 (by linarith : 4 * (2 + (D + u * (2 + D) + η)) + 2 * 4 * η ≤ 13) (by positivity) (by norm_num)
    linarith
  · show (after' u u (.avgPool (C := 1) (H := 2) (W := 2)) (after' u u (.join .skip (.seq (.conv two two (fun (_ : Fin 1)
      (_ : Fin (1 * (two.kernel * two.kernel))) => (1 : Flt)) fun _ => 0) (.act .relu))) ⟨1, 0⟩)).d ≤ _
    rw [hJ]
    show D + u * (2 + D) + η + ((1 + u) ^ 5 - 1) * (2 + (D + u * (2 + D) + η)) + 3 * η * (1 + u) ^ 5 ≤ _
    have k1 := mul_le_mul (by linarith : (1 + u) ^ 5 - 1 ≤ 1 / 10 ^ 6) (by linarith : 2 + (D + u * (2 + D) + η) ≤ 3) (by positivity) (by norm_num)
    have k2 := mul_le_mul (by linarith : 3 * η ≤ 3 / 10 ^ 9) (by linarith : (1 + u) ^ 5 ≤ 2) (by positivity) (by norm_num)
    linarith

/-- The image with all elements 1: the output is 2 up to the bound. -/
example : ∃ Y, block.Forward binary32 libm sqrtLib (fun _ => 1) Y ∧ (Y 0).Finite ∧ |(Y 0).val - 2| ≤ 1 / 10 ^ 4 := by
  have hus := u_small
  have hL : Accurate libm sqrtLib u u := ⟨libm_full, u_pos.le, hus.trans (by norm_num), sqrtLib_near, u_pos.le, hus.trans (by norm_num)⟩
  have one : IsFloat binary32 1 := by
    have := binary32.exact 1 0 (by norm_num) (by norm_num)
    rw [pow_zero, mul_one, Nat.cast_one] at this
    exact this
  have hp : Close binary32 (fun _ : Fin 1 × Fin 2 × Fin 2 => (1 : Flt)) (fun _ => (1 : Flt).val) ⟨1, 0⟩ :=
    inputs_close (fun _ => finite_one) (fun _ => one) zero_le_one fun _ => by rw [val_one, abs_one]
  obtain ⟨Y, hY⟩ := image_exists hL fltMin_isFloat block ⟨⟨trivial, Nat.one_pos, trivial⟩, by show 0 < 2 * 2; norm_num⟩ hp block_fits.1
  have key := image_near hL fltMin_isFloat block hp block_fits.1 hY
  refine ⟨Y, hY, key.finite 0, (le_of_eq ?_).trans ((key.error 0).trans block_fits.2)⟩
  have e : net block (fun _ => (1 : Flt).val) 0 = 2 := by
    have px : ∀ (r s : Fin 2) (kh kw : Fin 1), Spec.pixel (fun (_ : Fin 2) (_ : Fin 2) => (1 : ℝ)) 0 (two.pos r kh) (two.pos s kw) = 1 := by
      intro r s kh kw
      have hr := r.isLt
      have hs := s.isLt
      unfold Spec.pixel Axis.pos two
      rw [dif_pos (by simp; omega)]
    have c : ∀ t : Fin 2 × Fin 2, net (.conv two two (fun (_ : Fin 1) (_ : Fin (1 * (two.kernel * two.kernel))) => (1 : Flt)) fun _ => 0)
        (fun _ => (1 : Flt).val) (0, t.1, t.2) = 1 := fun t => by
      simp only [net, image, Spec.conv, val_one, val_zero]
      show 0 + ∑ c : Fin 1, ∑ kh : Fin 1, ∑ kw : Fin 1, 1 * Spec.pixel (fun (_ : Fin 2) (_ : Fin 2) => (1 : ℝ)) 0 (two.pos t.1 kh) (two.pos t.2 kw) = 1
      simp only [px, Fin.sum_univ_one]
      norm_num
    show (∑ t : Fin 2 × Fin 2, ((1 : Flt).val + Spec.relu (net (.conv two two (fun (_ : Fin 1) (_ : Fin (1 * (two.kernel * two.kernel))) => (1 : Flt))
      fun _ => 0) (fun _ => (1 : Flt).val) (0, t.1, t.2)))) / (Fintype.card (Fin 2 × Fin 2) : ℝ) = 2
    rw [Finset.sum_congr rfl fun t _ => show _ = (2 : ℝ) by rw [c t, val_one, Spec.relu]; norm_num]
    simp
  rw [e]

end

end DW.Props.FloatImageP
