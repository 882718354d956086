import Verif.Lemmas.Layout
import Verif.Lemmas.Layers
import Verif.Lemmas.NormDeriv
/-! Lemmas about batch normalisation, pooling, dropout and addition. -/

set_option autoImplicit false

namespace DW.NormL

open DW.Spec DW.MatL DW.FlatL DW.EigL DW.LayerL DW.LayoutL

/-! ### Buffers -/

section
variable {α : Type} {a b c d m n : Nat}

theorem flat4_planes (X : Fin a → Fin b → Fin c → Fin d → α) :
    flat4 X = rowMajor fun (q : Fin (a * b)) (p : Fin (c * d)) => X q.divNat q.modNat p.divNat p.modNat := by
  refine eq_rowMajor (by rw [flat4_length, Nat.mul_assoc]) fun q p => ?_
  obtain ⟨i, j, rfl⟩ := exists_pair q
  obtain ⟨k, l, rfl⟩ := exists_pair p
  simp only [pair_divNat, pair_modNat]
  rw [← flat4_getElem? X i j k l]
  congr 1
  simp only [pair_val]; ring

theorem flat4_rows (X : Fin a → Fin b → Fin c → Fin d → α) :
    flat4 X = rowMajor fun (q : Fin (a * b * c)) (l : Fin d) => X q.divNat.divNat q.divNat.modNat q.modNat l := by
  refine eq_rowMajor (by rw [flat4_length]; ring) fun q l => ?_
  obtain ⟨q, k, rfl⟩ := exists_pair q
  obtain ⟨i, j, rfl⟩ := exists_pair q
  simp only [pair_divNat, pair_modNat]
  rw [← flat4_getElem? X i j k l]
  congr 1
  simp only [pair_val]; ring

/-- The rows of an NHWC tensor seen as a matrix. -/
def rowsE (N H W : Nat) : Fin (N * H * W) ≃ Fin N × Fin H × Fin W where
  toFun q := (q.divNat.divNat, q.divNat.modNat, q.modNat)
  invFun p := pair (pair p.1 p.2.1) p.2.2
  left_inv q := by simp only [pair_div_mod]
  right_inv p := by simp only [pair_divNat, pair_modNat]

/-- The pixels of a plane. -/
def planeE (H W : Nat) : Fin (H * W) ≃ Fin H × Fin W where
  toFun q := (q.divNat, q.modNat)
  invFun p := pair p.1 p.2
  left_inv q := by simp only [pair_div_mod]
  right_inv p := by simp only [pair_divNat, pair_modNat]

end

variable {m n : Nat}

theorem mat_append (P : Fin m → Fin n → ℝ) (rest : List ℝ) : Eig.mat (rowMajor P ++ rest) m n = .ok ⟨m, n, P⟩ := by
  unfold Eig.mat
  rw [if_pos (by simp)]
  simp only [Int.toNat_natCast]
  congr 2
  funext i j
  simp only [List.getD_eq_getElem?_getD]
  rw [List.getElem?_append_left (by rw [rowMajor_length]; exact index_lt i j), rowMajor_getElem?]; rfl

theorem setMat_le (vals : List ℝ) (P : Fin m → Fin n → ℝ) (h : m * n ≤ vals.length) :
    Eig.setMat vals 0 m n ⟨m, n, P⟩ = .ok (rowMajor P ++ vals.drop (m * n)) := by
  simp [Eig.setMat, h]

/-! ### Fresh tensors -/

theorem freshBuf_eq (junk : Nat → ℝ) {s : Shape} (hs : Static s) (hf : CountFits s) {k : Nat} (hk : count s = k) :
    freshBuf junk s = .ok ⟨s, (List.range k).map junk⟩ := by
  have hn : Tensor.hasNegative s = false := by
    unfold Tensor.hasNegative
    rw [List.any_eq_false]
    intro d hd
    simpa using hs d hd
  simp [freshBuf, hn, Tensor.accProd_eq hs hf, hk]

/-! ### Kernels -/

section
variable {ι : Type} [Fintype ι] {R : Nat}

theorem mean_rows (e : Fin R ≃ ι) (f : ι → ℝ) : (∑ i, f (e i)) / (R : ℝ) = mean f := by
  rw [← mean_equiv e, mean, Fintype.card_fin]

theorem bnForward_train (e : Fin R ≃ ι) (X : ι → Fin n → ℝ) (rm rv gamma beta : Fin n → ℝ) (eps alpha : ℝ) :
    bnForward ⟨R, n, fun i j => X (e i) j⟩ ⟨n, rm⟩ ⟨n, rv⟩ true eps alpha ⟨n, gamma⟩ ⟨n, beta⟩ = .ok
      { output := ⟨R, n, fun i j => batchNorm eps gamma beta X (e i) j⟩
        centered := ⟨R, n, fun i j => X (e i) j - mean fun i => X i j⟩
        std := ⟨n, fun j => Real.sqrt ((variance fun i => X i j) + eps)⟩
        mean := ⟨n, fun j => rm j * alpha + (mean fun i => X i j) * (1 - alpha)⟩
        var := ⟨n, fun j => rv j * alpha + (variance fun i => X i j) * (1 - alpha)⟩ } := by
  have hm : ∀ j, (∑ i, X (e i) j) / (R : ℝ) = mean fun i => X i j := fun j => mean_rows e fun i => X i j
  have hv : ∀ j, (∑ i, (X (e i) j - mean fun i => X i j) ^ 2) / (R : ℝ) = variance fun i => X i j :=
    fun j => mean_rows e fun i => (X i j - mean fun i => X i j) ^ 2
  simp only [bnForward, if_true, colMean_mk, hm, rowwise_mk, Out.bind_ok, map_mk, hv, vmap_mk, vzip_mk]
  congr 3
  funext i j
  simp only [batchNorm, normalise]
  ring

theorem bnForward_eval (X : Fin R → Fin n → ℝ) (rm rv gamma beta : Fin n → ℝ) (eps alpha : ℝ) :
    bnForward ⟨R, n, X⟩ ⟨n, rm⟩ ⟨n, rv⟩ false eps alpha ⟨n, gamma⟩ ⟨n, beta⟩ = .ok
      { output := ⟨R, n, fun i j => normalise (rm j) (rv j) eps (gamma j) (beta j) (X i j)⟩
        centered := ⟨R, n, fun i j => X i j - rm j⟩
        std := ⟨n, fun j => Real.sqrt (rv j + eps)⟩
        mean := ⟨n, rm⟩
        var := ⟨n, rv⟩ } := by
  simp only [bnForward, Bool.false_eq_true, if_false, rowwise_mk, Out.bind_ok, vmap_mk, vzip_mk]
  congr 3
  funext i j
  simp only [normalise]
  ring

theorem bnInputGrad_eq (e : Fin R ≃ ι) (c : ι → Fin n → ℝ) (s gamma : Fin n → ℝ) (g : ι → Fin n → ℝ)
    (old : Fin R → Fin n → ℝ) :
    bnInputGrad ⟨R, n, fun i j => c (e i) j⟩ ⟨n, s⟩ ⟨R, n, fun i j => g (e i) j⟩ ⟨R, n, old⟩ ⟨n, gamma⟩ =
      .ok ⟨R, n, fun i j => old i j + bnGrad c s gamma g (e i) j⟩ := by
  simp only [bnInputGrad, rowwise_mk, Out.bind_ok, zip_mk, vmap_mk, colSum_mk, vzip_mk, map_mk]
  congr 2
  funext i j
  rw [← bnGrad_equiv e]
  simp only [bnGrad, gxc, Fintype.card_fin]

theorem bnParamGrad_eq (e : Fin R ≃ ι) (c : ι → Fin n → ℝ) (s : Fin n → ℝ) (g : ι → Fin n → ℝ) :
    bnParamGrad ⟨R, n, fun i j => c (e i) j⟩ ⟨n, s⟩ ⟨R, n, fun i j => g (e i) j⟩ =
      .ok (⟨n, fun j => ∑ i, c i j / s j * g i j⟩, ⟨n, fun j => ∑ i, g i j⟩) := by
  simp only [bnParamGrad, rowwise_mk, Out.bind_ok, zip_mk, colSum_mk]
  congr 4
  · funext j
    exact Equiv.sum_comp e fun i => c i j / s j * g i j
  · funext j
    exact Equiv.sum_comp e fun i => g i j

end

/-! ### Gradients of the parameters -/

section
variable {ι κ : Type} [Fintype ι] [Fintype κ] (eps : ℝ)

open DW.DerivL

theorem batchNorm_backprop_gamma [DecidableEq κ] (X : ι → κ → ℝ) (gamma beta : κ → ℝ) :
    Backprop (fun y : κ → ℝ => Function.uncurry (batchNorm eps y beta X)) gamma
      (fun g j => ∑ i, (X i j - mean fun i => X i j) / Real.sqrt ((variance fun i => X i j) + eps) * g (i, j)) := by
  refine backprop_affine (fun y p => y p.2 * ((X p.1 p.2 - mean fun i => X i p.2) /
      Real.sqrt ((variance fun i => X i p.2) + eps))) (fun p => beta p.2) (fun y z p => ?_) (fun a y p => ?_)
    (fun y p => rfl) (fun g v => ?_)
  · simp only [Pi.add_apply]; ring
  · simp only [Pi.smul_apply, smul_eq_mul]; ring
  · rw [Fintype.sum_prod_type_right]
    refine Finset.sum_congr rfl fun j _ => ?_
    rw [Finset.sum_mul]
    refine Finset.sum_congr rfl fun i _ => ?_
    ring

theorem batchNorm_backprop_beta (X : ι → κ → ℝ) (gamma beta : κ → ℝ) :
    Backprop (fun y : κ → ℝ => Function.uncurry (batchNorm eps gamma y X)) beta
      (fun g j => ∑ i, g (i, j)) := by
  refine backprop_affine (fun y p => y p.2) (fun p => gamma p.2 * ((X p.1 p.2 - mean fun i => X i p.2) /
      Real.sqrt ((variance fun i => X i p.2) + eps))) (fun y z p => ?_) (fun a y p => ?_)
    (fun y p => ?_) (fun g v => ?_)
  · simp only [Pi.add_apply]
  · simp only [Pi.smul_apply, smul_eq_mul]
  · obtain ⟨i, j⟩ := p
    simp only [Function.uncurry_apply_pair, batchNorm, normalise]; ring
  · rw [Fintype.sum_prod_type_right]
    refine Finset.sum_congr rfl fun j _ => ?_
    rw [Finset.sum_mul]

end

end DW.NormL
