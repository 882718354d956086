import Verif.Spec.Values
import Verif.Spec.LayerSpec
import Verif.Lemmas.Flat
import Verif.Lemmas.Again
/-!
# What the layers compute, as matrices and images
-/

set_option autoImplicit false

namespace DW.ValueL

open DW DW.Spec DW.MatL DW.FlatL

noncomputable section

variable {real : F32 → ℝ} {t : InfoTensors} {op : Op} {n : Nat} {ishape : Fin n → Shape} {o : Shape} {P : Nat}
  {fn : (Nat → ℝ) → (Fin P → ℝ) → Args ishape → Elems o} {θ : Fin P → ℝ} {ex : Prop}

theorem entry_fin {s : Shape} (u : Elems s) (k : Fin (size s)) : entry u k.val = u k := by
  unfold entry; rw [dif_pos k.isLt]

theorem entry_recast {s s' : Shape} (h : s = s') (u : Elems s) (k : Nat) : entry (recast h u) k = entry u k := by
  subst h; rfl

theorem rowsOf_recast {s s' : Shape} (h : s = s') (u : Elems s) (B n : Nat) : rowsOf B n (recast h u) = rowsOf B n u := by
  subst h; rfl

theorem imagesOf_recast {s s' : Shape} (h : s = s') (u : Elems s) (N C H W : Nat) : imagesOf N C H W (recast h u) = imagesOf N C H W u := by
  subst h; rfl

theorem matE_val {N m n : Nat} (h : N = m * n) (i : Fin m) (j : Fin n) : ((matE h).symm (i, j)).val = i.val * n + j.val := by
  subst h
  simp [matE, finProdFinEquiv]
  ring

theorem arr_matE {s : Shape} {m n : Nat} (h : size s = m * n) (u : Elems s) : Function.curry (arr (matE h) u) = rowsOf m n u := by
  funext i j
  show u ((matE h).symm (i, j)) = _
  rw [← entry_fin u, matE_val]; rfl

theorem rowsOf_elems {s : Shape} {m n : Nat} (h : size s = m * n) (y : Fin m × Fin n → ℝ) : rowsOf m n (elems (matE h) y) = Function.curry y := by
  rw [← arr_matE h]
  funext i j
  simp [arr, elems]

theorem imgE_val {N a b c d : Nat} (h : N = a * (b * (c * d))) (i : Fin a) (j : Fin b) (k : Fin c) (q : Fin d) :
    ((imgE h).symm (i, j, k, q)).val = i.val * (b * (c * d)) + (j.val * (c * d) + (k.val * d + q.val)) := by
  show ((matE h).symm (i, (matE rfl).symm (j, (matE rfl).symm (k, q)))).val = _
  rw [matE_val, matE_val, matE_val]

theorem arr_imgE {s : Shape} {N C H W : Nat} (h : size s = N * (C * (H * W))) (u : Elems s) : arr4 (arr (imgE h) u) = imagesOf N C H W u := by
  funext i c y x
  show u ((imgE h).symm (i, c, y, x)) = _
  rw [← entry_fin u, imgE_val]; rfl

theorem imagesOf_elems {s : Shape} {N C H W : Nat} (h : size s = N * (C * (H * W))) (f : Fin N × Fin C × Fin H × Fin W → ℝ) :
    imagesOf N C H W (elems (imgE h) f) = arr4 f := by
  rw [← arr_imgE h]
  funext i c y x
  simp [arr, elems, arr4]

/-- Rows of a tensor of images are the images. -/
theorem rowsOf_flatten {s : Shape} (N C H W : Nat) (u : Elems s) : rowsOf N (C * (H * W)) u = flatten (imagesOf N C H W u) := by
  funext i q
  simp only [rowsOf, flatten, imagesOf]
  congr 1
  simp only [Fin.coe_divNat, Fin.coe_modNat]
  rw [Nat.mul_comm (q.val % (H * W) / W), Nat.div_add_mod, Nat.mul_comm (q.val / (H * W)), Nat.div_add_mod]

theorem param_unique {s : Shape} {vals vals' : List ℝ} {name : String} {b b' : Bool} (h : HasParam t name s vals b)
    (h' : HasParam t name s vals' b') : vals = vals' ∧ b = b' := by
  obtain ⟨g, h, -⟩ := h
  obtain ⟨g', h', -⟩ := h'
  rw [h] at h'
  cases h'
  exact ⟨rfl, rfl⟩

theorem buffer_unique {s : Shape} {vals vals' : List ℝ} {name : String} (h : HasBuffer t name s vals) (h' : HasBuffer t name s vals') :
    vals = vals' := by
  unfold HasBuffer at h h'
  rw [h] at h'
  cases h'
  rfl

/-- `Linear`. -/
theorem linear_fn (h : Computes real t op ishape o P fn θ ex) {B k u : Nat} (hop : op = .linear u) (hn : 0 < n) {rest : Shape}
    (hi : ishape ⟨0, hn⟩ = (B : Int) :: rest) (hk : count rest = k) {W : Fin u → Fin k → ℝ} {b : Fin u → ℝ} {tw tb : Bool}
    (hW : HasParam t "weight" [u, k] (rowMajor W) tw) (hb : HasParam t "bias" [u] (List.ofFn b) tb) (r : Nat → ℝ) (X : Args ishape) :
    rowsOf B u (fn r θ X) = linear (rowsOf B k (X ⟨0, hn⟩)) W b := by
  cases h with
  | one hn' hs ho h =>
    cases h with
    | @linear B' k' u' rest' hne hst hf hc θ tw' tb' hw hb' =>
      obtain rfl : u' = u := by cases hop; rfl
      obtain ⟨rfl, rfl⟩ : B' = B ∧ rest' = rest := by simpa using hs.symm.trans hi
      obtain rfl : k' = k := Int.natCast_inj.1 (hc.symm.trans hk)
      have h1 := rowMajor_inj (param_unique hw hW).1
      have h2 := List.ofFn_injective (param_unique hb' hb).1
      simp only [linearFn]
      rw [rowsOf_recast, rowsOf_elems, arr_matE, rowsOf_recast, ← h1, ← h2]
      rfl
    | _ => exact Op.noConfusion hop
  | add => exact Op.noConfusion hop

/-- `ReLU`. -/
theorem relu_fn (h : Computes real t op ishape o P fn θ ex) (hop : op = .relu) (hn : 0 < n) (r : Nat → ℝ) (X : Args ishape) (k : Nat) :
    entry (fn r θ X) k = relu (entry (X ⟨0, hn⟩) k) := by
  cases h with
  | one hn' hs ho h =>
    cases h with
    | relu s θ =>
      rw [entry_recast, ← entry_recast hs (X ⟨0, hn⟩) k]
      unfold entry mapFn
      split
      · rfl
      · simp [relu]
    | _ => exact Op.noConfusion hop
  | add => exact Op.noConfusion hop

/-- `Add`. -/
theorem add_fn (h : Computes real t op ishape o P fn θ ex) (hop : op = .add) (hn : 1 < n) (r : Nat → ℝ) (X : Args ishape) (k : Nat) :
    entry (fn r θ X) k = entry (X ⟨0, by omega⟩) k + entry (X ⟨1, hn⟩) k := by
  cases h with
  | one hn' hs ho h => cases h <;> exact Op.noConfusion hop
  | add hn' h0 h1 θ =>
    rw [← entry_recast h0, ← entry_recast h1]
    unfold entry
    split
    · rfl
    · simp

/-- `Softmax`. -/
theorem softmax_fn (h : Computes real t op ishape o P fn θ ex) {B k : Nat} (hop : op = .softmax) (hn : 0 < n)
    (hi : ishape ⟨0, hn⟩ = [(B : Int), k]) (r : Nat → ℝ) (X : Args ishape) :
    0 < k ∧ rowsOf B k (fn r θ X) = softmax (rowsOf B k (X ⟨0, hn⟩)) := by
  cases h with
  | one hn' hs ho h =>
    cases h with
    | @softmax B' k' hk θ =>
      obtain ⟨rfl, rfl⟩ : B' = B ∧ k' = k := by simpa using hs.symm.trans hi
      refine ⟨hk, ?_⟩
      simp only [softmaxFn]
      rw [rowsOf_recast, rowsOf_elems, arr_matE, rowsOf_recast]
      rfl
    | _ => exact Op.noConfusion hop
  | add => exact Op.noConfusion hop

/-- `BatchNorm1D` in training mode. -/
theorem norm1_train (h : Computes real t op ishape o P fn θ ex) {B k : Nat} {eps alpha : F32} (hop : op = .batchNorm1D eps alpha) (hn : 0 < n)
    (hi : ishape ⟨0, hn⟩ = [(B : Int), k]) {gamma beta : Fin k → ℝ} (hg : HasParam t "gamma" [k] (List.ofFn gamma) true)
    (hb : HasParam t "beta" [k] (List.ofFn beta) true) (r : Nat → ℝ) (X : Args ishape) :
    rowsOf B k (fn r θ X) = batchNorm (real eps) gamma beta (rowsOf B k (X ⟨0, hn⟩)) := by
  cases h with
  | one hn' hs ho h =>
    cases h with
    | @batchNorm1D B' k' eps' alpha' he hc hf θ mu var hg' hb' =>
      obtain ⟨rfl, rfl⟩ : B' = B ∧ k' = k := by simpa using hs.symm.trans hi
      obtain rfl : eps' = eps := by cases hop; rfl
      have h1 := List.ofFn_injective (param_unique hg' hg).1
      have h2 := List.ofFn_injective (param_unique hb' hb).1
      simp only [batchNormFn]
      rw [rowsOf_recast, rowsOf_elems, arr_matE, rowsOf_recast, ← h1, ← h2]
      rfl
    | @batchNorm1DEval B' k' eps' alpha' he hc hf θ mu var hpos hg' =>
      obtain ⟨rfl, rfl⟩ : B' = B ∧ k' = k := by simpa using hs.symm.trans hi
      exact absurd (param_unique hg' hg).2 Bool.false_ne_true
    | _ => exact Op.noConfusion hop
  | add => exact Op.noConfusion hop

/-- `BatchNorm1D` in evaluation mode. -/
theorem norm1_eval (h : Computes real t op ishape o P fn θ ex) {B k : Nat} {eps alpha : F32} (hop : op = .batchNorm1D eps alpha) (hn : 0 < n)
    (hi : ishape ⟨0, hn⟩ = [(B : Int), k]) {gamma beta mu var : Fin k → ℝ} (hg : HasParam t "gamma" [k] (List.ofFn gamma) false)
    (hb : HasParam t "beta" [k] (List.ofFn beta) false) (hm : HasBuffer t "running_mean" [k] (List.ofFn mu))
    (hv : HasBuffer t "running_var" [k] (List.ofFn var)) (r : Nat → ℝ) (X : Args ishape) :
    rowsOf B k (fn r θ X) = fun i j => normalise (mu j) (var j) (real eps) (gamma j) (beta j) (rowsOf B k (X ⟨0, hn⟩) i j) := by
  cases h with
  | one hn' hs ho h =>
    cases h with
    | @batchNorm1D B' k' eps' alpha' he hc hf θ mu var hg' hb' =>
      obtain ⟨rfl, rfl⟩ : B' = B ∧ k' = k := by simpa using hs.symm.trans hi
      exact absurd (param_unique hg hg').2 Bool.false_ne_true
    | @batchNorm1DEval B' k' eps' alpha' he hc hf θ mu' var' hpos hg' hb' hm' hv' =>
      obtain ⟨rfl, rfl⟩ : B' = B ∧ k' = k := by simpa using hs.symm.trans hi
      obtain rfl : eps' = eps := by cases hop; rfl
      have h1 := List.ofFn_injective (param_unique hg' hg).1
      have h2 := List.ofFn_injective (param_unique hb' hb).1
      have h3 := List.ofFn_injective (buffer_unique hm' hm)
      have h4 := List.ofFn_injective (buffer_unique hv' hv)
      simp only [normaliseFn]
      rw [rowsOf_recast, rowsOf_elems, ← h1, ← h2, ← h3, ← h4]
      funext i j
      rw [← rowsOf_recast hs, ← arr_matE (size_mat B' k')]
      rfl
    | _ => exact Op.noConfusion hop
  | add => exact Op.noConfusion hop

/-- `BatchNorm2D` in training mode. -/
theorem norm2_train (h : Computes real t op ishape o P fn θ ex) {N C H W : Nat} {eps alpha : F32} (hop : op = .batchNorm2D eps alpha)
    (hn : 0 < n) (hi : ishape ⟨0, hn⟩ = [(N : Int), C, H, W]) {gamma beta : Fin C → ℝ} (hg : HasParam t "gamma" [C] (List.ofFn gamma) true)
    (hb : HasParam t "beta" [C] (List.ofFn beta) true) (r : Nat → ℝ) (X : Args ishape) :
    imagesOf N C H W (fn r θ X) = fun i c y x =>
      batchNorm (real eps) gamma beta (pixels (imagesOf N C H W (X ⟨0, hn⟩))) (i, y, x) c := by
  cases h with
  | one hn' hs ho h =>
    cases h with
    | @batchNorm2D N' C' H' W' eps' alpha' he hC hc hf θ mu var hg' hb' =>
      obtain ⟨rfl, rfl, rfl, rfl⟩ : N' = N ∧ C' = C ∧ H' = H ∧ W' = W := by simpa using hs.symm.trans hi
      obtain rfl : eps' = eps := by cases hop; rfl
      have h1 := List.ofFn_injective (param_unique hg' hg).1
      have h2 := List.ofFn_injective (param_unique hb' hb).1
      simp only [batchNorm2dFn]
      rw [imagesOf_recast, imagesOf_elems, arr_imgE, imagesOf_recast, ← h1, ← h2]
      rfl
    | @batchNorm2DEval N' C' H' W' eps' alpha' he hC hc hf θ mu var hpos hg' =>
      obtain ⟨rfl, rfl, rfl, rfl⟩ : N' = N ∧ C' = C ∧ H' = H ∧ W' = W := by simpa using hs.symm.trans hi
      exact absurd (param_unique hg' hg).2 Bool.false_ne_true
    | _ => exact Op.noConfusion hop
  | add => exact Op.noConfusion hop

/-- `BatchNorm2D` in evaluation mode. -/
theorem norm2_eval (h : Computes real t op ishape o P fn θ ex) {N C H W : Nat} {eps alpha : F32} (hop : op = .batchNorm2D eps alpha)
    (hn : 0 < n) (hi : ishape ⟨0, hn⟩ = [(N : Int), C, H, W]) {gamma beta mu var : Fin C → ℝ}
    (hg : HasParam t "gamma" [C] (List.ofFn gamma) false) (hb : HasParam t "beta" [C] (List.ofFn beta) false)
    (hm : HasBuffer t "running_mean" [C] (List.ofFn mu)) (hv : HasBuffer t "running_var" [C] (List.ofFn var)) (r : Nat → ℝ)
    (X : Args ishape) :
    imagesOf N C H W (fn r θ X) = fun i c y x =>
      normalise (mu c) (var c) (real eps) (gamma c) (beta c) (imagesOf N C H W (X ⟨0, hn⟩) i c y x) := by
  cases h with
  | one hn' hs ho h =>
    cases h with
    | @batchNorm2D N' C' H' W' eps' alpha' he hC hc hf θ mu var hg' hb' =>
      obtain ⟨rfl, rfl, rfl, rfl⟩ : N' = N ∧ C' = C ∧ H' = H ∧ W' = W := by simpa using hs.symm.trans hi
      exact absurd (param_unique hg hg').2 Bool.false_ne_true
    | @batchNorm2DEval N' C' H' W' eps' alpha' he hC hc hf θ mu' var' hpos hg' hb' hm' hv' =>
      obtain ⟨rfl, rfl, rfl, rfl⟩ : N' = N ∧ C' = C ∧ H' = H ∧ W' = W := by simpa using hs.symm.trans hi
      obtain rfl : eps' = eps := by cases hop; rfl
      have h1 := List.ofFn_injective (param_unique hg' hg).1
      have h2 := List.ofFn_injective (param_unique hb' hb).1
      have h3 := List.ofFn_injective (buffer_unique hm' hm)
      have h4 := List.ofFn_injective (buffer_unique hv' hv)
      simp only [normalise2dFn]
      rw [imagesOf_recast, imagesOf_elems, ← h1, ← h2, ← h3, ← h4]
      funext i c y x
      rw [← imagesOf_recast hs, ← arr_imgE (size_img N' C' H' W')]
      rfl
    | _ => exact Op.noConfusion hop
  | add => exact Op.noConfusion hop

/-- `GlobalAvgPooling`. -/
theorem gap_fn (h : Computes real t op ishape o P fn θ ex) {N C H W : Nat} (hop : op = .globalAvgPooling) (hn : 0 < n)
    (hi : ishape ⟨0, hn⟩ = [(N : Int), C, H, W]) (r : Nat → ℝ) (X : Args ishape) :
    rowsOf N C (fn r θ X) = planeMean (imagesOf N C H W (X ⟨0, hn⟩)) := by
  cases h with
  | one hn' hs ho h =>
    cases h with
    | @globalAvgPooling N' C' H' W' hH hW θ =>
      obtain ⟨rfl, rfl, rfl, rfl⟩ : N' = N ∧ C' = C ∧ H' = H ∧ W' = W := by simpa using hs.symm.trans hi
      simp only [gapFn]
      rw [rowsOf_recast, rowsOf_elems, arr_imgE, imagesOf_recast]
      rfl
    | _ => exact Op.noConfusion hop
  | add => exact Op.noConfusion hop

/-- `MaxPooling`. -/
theorem pool_fn (h : Computes real t op ishape o P fn θ ex) {N C : Nat} {a b : Axis} (ha : a.Plain) (hb : b.Plain)
    (hop : op = .maxPooling (a.kernel, b.kernel) (a.pad, b.pad) (a.stride, b.stride)) (hn : 0 < n)
    (hi : ishape ⟨0, hn⟩ = [(N : Int), C, a.size, b.size]) (ho : o = [(N : Int), C, a.out, b.out]) (r : Nat → ℝ) (X : Args ishape) :
    imagesOf N C a.out b.out (fn r θ X) = maxPool a b floatMin (imagesOf N C a.size b.size (X ⟨0, hn⟩)) := by
  cases h with
  | one hn' hs ho' h =>
    cases h with
    | @maxPooling N' C' a' b' ha' hb' hf hf' θ =>
      obtain ⟨o2, o3, o4⟩ := Op.maxPooling.inj hop
      obtain ⟨rfl, rfl, s1, s2⟩ : N' = N ∧ C' = C ∧ a'.size = a.size ∧ b'.size = b.size := by simpa using hs.symm.trans hi
      obtain ⟨t1, t2⟩ : a'.out = a.out ∧ b'.out = b.out := by simpa using ho'.trans ho
      simp only [Prod.mk.injEq, Nat.cast_inj] at o2 o3 o4
      obtain rfl : a' = a := AgainL.axis_eq ha' ha s1 o2.1 o3.1 o4.1 t1
      obtain rfl : b' = b := AgainL.axis_eq hb' hb s2 o2.2 o3.2 o4.2 t2
      simp only [poolFn]
      rw [imagesOf_recast, imagesOf_elems, arr_imgE, imagesOf_recast]
      rfl
    | _ => exact Op.noConfusion hop
  | add => exact Op.noConfusion hop

/-- `Convolution`. -/
theorem conv_fn (h : Computes real t op ishape o P fn θ ex) {N C O : Nat} {a b : Axis} (ha : a.Plain) (hb : b.Plain)
    (hop : op = .convolution O (a.kernel, b.kernel) (a.pad, b.pad) (a.stride, b.stride)) (hn : 0 < n)
    (hi : ishape ⟨0, hn⟩ = [(N : Int), C, a.size, b.size]) (ho : o = [(N : Int), O, a.out, b.out])
    {W : Fin O → Fin C → Fin a.kernel → Fin b.kernel → ℝ} {bias : Fin O → ℝ} {tw tb : Bool}
    (hW : HasParam t "weight" [O, C, a.kernel, b.kernel] (flat4 W) tw) (hB : HasParam t "bias" [O] (List.ofFn bias) tb) (r : Nat → ℝ)
    (X : Args ishape) :
    imagesOf N O a.out b.out (fn r θ X) = conv a b (imagesOf N C a.size b.size (X ⟨0, hn⟩)) W bias := by
  cases h with
  | one hn' hs ho' h =>
    cases h with
    | @convolution N' C' O' a' b' ha' hb' hf hpos θ tw' tb' hw' hb'' =>
      obtain ⟨o1, o2, o3, o4⟩ := Op.convolution.inj hop
      obtain rfl := Nat.cast_inj.1 o1
      obtain ⟨rfl, rfl, s1, s2⟩ : N' = N ∧ C' = C ∧ a'.size = a.size ∧ b'.size = b.size := by simpa using hs.symm.trans hi
      obtain ⟨t1, t2⟩ : a'.out = a.out ∧ b'.out = b.out := by simpa using ho'.trans ho
      simp only [Prod.mk.injEq, Nat.cast_inj] at o2 o3 o4
      obtain rfl : a' = a := AgainL.axis_eq ha' ha s1 o2.1 o3.1 o4.1 t1
      obtain rfl : b' = b := AgainL.axis_eq hb' hb s2 o2.2 o3.2 o4.2 t2
      have h1 := flat4_inj (param_unique hw' hW).1
      have h2 := List.ofFn_injective (param_unique hb'' hB).1
      simp only [convFn]
      rw [imagesOf_recast, imagesOf_elems, arr_imgE, imagesOf_recast, ← h1, ← h2]
      rfl
    | _ => exact Op.noConfusion hop
  | add => exact Op.noConfusion hop

end

end DW.ValueL
