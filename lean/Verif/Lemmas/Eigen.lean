import Verif.Model.Eigen
import Verif.Lemmas.Matrix
/-! Lemmas about the Eigen operations: their values when the dimensions match. -/

set_option autoImplicit false

namespace DW.EigL

open DW.Spec DW.MatL DW.Eig

variable {m n l : Nat}

theorem mat_rowMajor (P : Fin m → Fin n → ℝ) : mat (rowMajor P) m n = .ok ⟨m, n, P⟩ := by
  unfold mat
  rw [if_pos (by simp)]
  simp only [Int.toNat_natCast]
  congr 2
  funext i j
  simp only [List.getD_eq_getElem?_getD]
  rw [rowMajor_getElem?]; rfl

theorem vec_ofFn (v : Fin n → ℝ) : vec (List.ofFn v) n = .ok ⟨n, v⟩ := by
  unfold vec
  rw [if_pos (by simp)]
  simp only [Int.toNat_natCast]
  congr 2
  funext i
  simp [List.getD_eq_getElem?_getD]

theorem setMat_zero (vals : List ℝ) (P : Fin m → Fin n → ℝ) (h : vals.length = m * n) :
    setMat vals 0 m n ⟨m, n, P⟩ = .ok (rowMajor P) := by
  simp [setMat, h]

theorem setVec_ofFn (vals : List ℝ) (v : Fin n → ℝ) (h : vals.length = n) :
    setVec vals n ⟨n, v⟩ = .ok (List.ofFn v) := by
  simp [setVec, h]

@[simp] theorem mul_mk (P : Fin m → Fin n → ℝ) (Q : Fin n → Fin l → ℝ) :
    mul ⟨m, n, P⟩ ⟨n, l, Q⟩ = .ok ⟨m, l, fun i j => ∑ k, P i k * Q k j⟩ := by
  simp [mul]

@[simp] theorem transpose_mk (P : Fin m → Fin n → ℝ) : transpose ⟨m, n, P⟩ = ⟨n, m, fun i j => P j i⟩ := rfl

@[simp] theorem map_mk (f : ℝ → ℝ) (P : Fin m → Fin n → ℝ) :
    Eig.map f ⟨m, n, P⟩ = ⟨m, n, fun i j => f (P i j)⟩ := rfl

@[simp] theorem zip_mk (f : ℝ → ℝ → ℝ) (P Q : Fin m → Fin n → ℝ) :
    Eig.zip f ⟨m, n, P⟩ ⟨m, n, Q⟩ = .ok ⟨m, n, fun i j => f (P i j) (Q i j)⟩ := by
  simp [Eig.zip]

@[simp] theorem rowwise_mk (f : ℝ → ℝ → ℝ) (P : Fin m → Fin n → ℝ) (v : Fin n → ℝ) :
    rowwise f ⟨m, n, P⟩ ⟨n, v⟩ = .ok ⟨m, n, fun i j => f (P i j) (v j)⟩ := by
  simp [rowwise]

@[simp] theorem colwise_mk (f : ℝ → ℝ → ℝ) (P : Fin m → Fin n → ℝ) (v : Fin m → ℝ) :
    colwise f ⟨m, n, P⟩ ⟨m, v⟩ = .ok ⟨m, n, fun i j => f (P i j) (v i)⟩ := by
  simp [colwise]

@[simp] theorem rowSum_mk (P : Fin m → Fin n → ℝ) : rowSum ⟨m, n, P⟩ = ⟨m, fun i => ∑ j, P i j⟩ := rfl
@[simp] theorem colSum_mk (P : Fin m → Fin n → ℝ) : colSum ⟨m, n, P⟩ = ⟨n, fun j => ∑ i, P i j⟩ := rfl
@[simp] theorem rowMean_mk (P : Fin m → Fin n → ℝ) : rowMean ⟨m, n, P⟩ = ⟨m, fun i => (∑ j, P i j) / n⟩ := rfl
@[simp] theorem colMean_mk (P : Fin m → Fin n → ℝ) : colMean ⟨m, n, P⟩ = ⟨n, fun j => (∑ i, P i j) / m⟩ := rfl

@[simp] theorem vmap_mk (f : ℝ → ℝ) (v : Fin n → ℝ) : vmap f ⟨n, v⟩ = ⟨n, fun i => f (v i)⟩ := rfl

@[simp] theorem vzip_mk (f : ℝ → ℝ → ℝ) (u v : Fin n → ℝ) :
    vzip f ⟨n, u⟩ ⟨n, v⟩ = .ok ⟨n, fun i => f (u i) (v i)⟩ := by
  simp [vzip]

end DW.EigL
