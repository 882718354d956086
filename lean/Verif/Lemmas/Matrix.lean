import Verif.Spec.Matrix
import Verif.Spec.Deriv
import Mathlib.Analysis.Calculus.FDeriv.Add
import Mathlib.Analysis.Calculus.FDeriv.Mul
import Mathlib.Tactic.Ring
/-! Lemmas about row-major buffers and gradients. -/

set_option autoImplicit false

namespace DW.MatL

open DW.Spec

variable {α β : Type} {m n : Nat}

@[simp] theorem rowMajor_length (P : Fin m → Fin n → α) : (rowMajor P).length = m * n := by simp [rowMajor]

theorem index_lt (i : Fin m) (j : Fin n) : i.val * n + j.val < m * n := by
  have h1 := i.2
  have h2 := j.2
  calc i.val * n + j.val < i.val * n + n := by omega
    _ = (i.val + 1) * n := by ring
    _ ≤ m * n := Nat.mul_le_mul_right _ (by omega)

theorem divNat_mk (i : Fin m) (j : Fin n) (h : i.val * n + j.val < m * n) :
    (Fin.divNat (⟨i.val * n + j.val, h⟩ : Fin (m * n))) = i := by
  apply Fin.ext
  simp only [Fin.coe_divNat]
  rw [Nat.add_comm, Nat.add_mul_div_right _ _ (Nat.pos_of_ne_zero (fun h => by have := j.2; omega)),
    Nat.div_eq_of_lt j.2, Nat.zero_add]

theorem modNat_mk (i : Fin m) (j : Fin n) (h : i.val * n + j.val < m * n) :
    (Fin.modNat (⟨i.val * n + j.val, h⟩ : Fin (m * n))) = j := by
  apply Fin.ext
  simp only [Fin.coe_modNat]
  rw [Nat.add_comm, Nat.add_mul_mod_self_right, Nat.mod_eq_of_lt j.2]

theorem rowMajor_getElem (P : Fin m → Fin n → α) (i : Fin m) (j : Fin n)
    (h : i.val * n + j.val < (rowMajor P).length) : (rowMajor P)[i.val * n + j.val] = P i j := by
  simp only [rowMajor, List.getElem_ofFn]
  rw [divNat_mk, modNat_mk]

theorem rowMajor_getElem? (P : Fin m → Fin n → α) (i : Fin m) (j : Fin n) :
    (rowMajor P)[i.val * n + j.val]? = some (P i j) := by
  rw [List.getElem?_eq_getElem (by rw [rowMajor_length]; exact index_lt i j), rowMajor_getElem]

/-- Every index of a row-major buffer is that of an element. -/
theorem exists_index {k : Nat} (h : k < m * n) : ∃ (i : Fin m) (j : Fin n), k = i.val * n + j.val := by
  refine ⟨(⟨k, h⟩ : Fin (m * n)).divNat, (⟨k, h⟩ : Fin (m * n)).modNat, ?_⟩
  simp only [Fin.coe_divNat, Fin.coe_modNat]
  exact (Nat.div_add_mod' k n).symm

theorem eq_rowMajor {P : Fin m → Fin n → α} {l : List α} (hl : l.length = m * n)
    (h : ∀ (i : Fin m) (j : Fin n), l[i.val * n + j.val]? = some (P i j)) : l = rowMajor P := by
  apply List.ext_getElem?
  intro k
  by_cases hk : k < m * n
  · obtain ⟨i, j, rfl⟩ := exists_index hk
    rw [h, rowMajor_getElem?]
  · rw [List.getElem?_eq_none_iff.2 (by omega), List.getElem?_eq_none_iff.2 (by rw [rowMajor_length]; omega)]

/-- Every buffer of the right length is the buffer of a matrix. -/
theorem exists_rowMajor (l : List α) (hl : l.length = m * n) : ∃ P : Fin m → Fin n → α, l = rowMajor P := by
  refine ⟨fun i j => l[i.val * n + j.val]'(by rw [hl]; exact index_lt i j), eq_rowMajor hl fun i j => ?_⟩
  rw [List.getElem?_eq_getElem]

theorem rowMajor_map (f : α → β) (P : Fin m → Fin n → α) :
    (rowMajor P).map f = rowMajor fun i j => f (P i j) := by
  simp [rowMajor, List.map_ofFn, Function.comp_def]

theorem rowMajor_inj {P Q : Fin m → Fin n → α} (h : rowMajor P = rowMajor Q) : P = Q := by
  funext i j
  have := rowMajor_getElem? P i j
  rw [h, rowMajor_getElem?] at this
  exact (Option.some.inj this).symm

/-! ### Back-propagation -/

variable {ι κ lam : Type} [Fintype ι] [Fintype κ] [Fintype lam]

theorem backprop_comp {f : (ι → ℝ) → (κ → ℝ)} {h : (κ → ℝ) → (lam → ℝ)} {x : ι → ℝ}
    {b1 : (κ → ℝ) → (ι → ℝ)} {b2 : (lam → ℝ) → (κ → ℝ)} (hf : Backprop f x b1) (hh : Backprop h (f x) b2) :
    Backprop (fun y => h (f y)) x (fun g => b1 (b2 g)) := by
  obtain ⟨J1, d1, e1⟩ := hf
  obtain ⟨J2, d2, e2⟩ := hh
  refine ⟨J2.comp J1, d2.comp x d1, fun g v => ?_⟩
  simp only [ContinuousLinearMap.comp_apply]
  rw [e2, e1]

/-- It is enough to differentiate each output. -/
theorem backprop_of_coords {f : (ι → ℝ) → (κ → ℝ)} {x : ι → ℝ} {bwd : (κ → ℝ) → (ι → ℝ)}
    (J : κ → (ι → ℝ) →L[ℝ] ℝ) (hd : ∀ k, HasFDerivAt (fun y => f y k) (J k) x)
    (hb : ∀ (g : κ → ℝ) (v : ι → ℝ), ∑ k, g k * J k v = ∑ i, bwd g i * v i) : Backprop f x bwd :=
  ⟨ContinuousLinearMap.pi J, hasFDerivAt_pi.2 hd, fun g v => by simpa using hb g v⟩

/-- A linear function is its own derivative. -/
theorem backprop_of_linear (f : (ι → ℝ) →ₗ[ℝ] (κ → ℝ)) (x : ι → ℝ) {bwd : (κ → ℝ) → (ι → ℝ)}
    (hb : ∀ (g : κ → ℝ) (v : ι → ℝ), ∑ k, g k * f v k = ∑ i, bwd g i * v i) : Backprop (fun y => f y) x bwd :=
  ⟨LinearMap.toContinuousLinearMap f, (LinearMap.toContinuousLinearMap f).hasFDerivAt, hb⟩

/-- The gradient is determined by the function. -/
theorem backprop_unique {f : (ι → ℝ) → (κ → ℝ)} {x : ι → ℝ} {b1 b2 : (κ → ℝ) → (ι → ℝ)}
    (h1 : Backprop f x b1) (h2 : Backprop f x b2) : b1 = b2 := by
  classical
  obtain ⟨J1, d1, e1⟩ := h1
  obtain ⟨J2, d2, e2⟩ := h2
  have : J1 = J2 := d1.unique d2
  subst this
  funext g i
  have h := (e1 g (Pi.single i 1)).symm.trans (e2 g (Pi.single i 1))
  simpa [Pi.single_apply] using h

end DW.MatL
