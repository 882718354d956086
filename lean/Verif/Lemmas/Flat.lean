import Verif.Lemmas.Matrix
import Mathlib.Algebra.BigOperators.Fin
import Mathlib.Data.List.Nodup
import Mathlib.Data.List.Perm.Basic
/-! Lemmas about row-major buffers of higher arrays. -/

set_option autoImplicit false

namespace DW.FlatL

open DW.Spec DW.MatL

variable {α β : Type} {a b c d m n : Nat}

theorem flat3_length (X : Fin a → Fin b → Fin c → α) : (flat3 X).length = a * (b * c) := by simp [flat3]

theorem flat4_length (X : Fin a → Fin b → Fin c → Fin d → α) : (flat4 X).length = a * (b * (c * d)) := by simp [flat4]

/-- Position of an element of a matrix. -/
def pair (i : Fin m) (j : Fin n) : Fin (m * n) := ⟨i.val * n + j.val, index_lt i j⟩

@[simp] theorem pair_val (i : Fin m) (j : Fin n) : (pair i j).val = i.val * n + j.val := rfl
@[simp] theorem pair_divNat (i : Fin m) (j : Fin n) : (pair i j).divNat = i := divNat_mk i j _
@[simp] theorem pair_modNat (i : Fin m) (j : Fin n) : (pair i j).modNat = j := modNat_mk i j _

theorem pair_div_mod (q : Fin (m * n)) : pair q.divNat q.modNat = q := by
  apply Fin.ext
  simp only [pair_val, Fin.coe_divNat, Fin.coe_modNat]
  exact Nat.div_add_mod' q.val n

theorem pair_inj {i i' : Fin m} {j j' : Fin n} : pair i j = pair i' j' ↔ i = i' ∧ j = j' := by
  refine ⟨fun h => ⟨?_, ?_⟩, fun h => by rw [h.1, h.2]⟩
  · rw [← pair_divNat i j, h, pair_divNat]
  · rw [← pair_modNat i j, h, pair_modNat]

theorem exists_pair (q : Fin (m * n)) : ∃ (i : Fin m) (j : Fin n), q = pair i j :=
  ⟨q.divNat, q.modNat, (pair_div_mod q).symm⟩

theorem flat3_getElem? (X : Fin a → Fin b → Fin c → α) (i : Fin a) (j : Fin b) (k : Fin c) :
    (flat3 X)[(pair i (pair j k)).val]? = some (X i j k) := by
  unfold flat3
  rw [pair_val, rowMajor_getElem?, pair_divNat, pair_modNat]

theorem flat4_getElem? (X : Fin a → Fin b → Fin c → Fin d → α) (i : Fin a) (j : Fin b) (k : Fin c) (l : Fin d) :
    (flat4 X)[(pair i (pair j (pair k l))).val]? = some (X i j k l) := by
  unfold flat4
  rw [pair_val, rowMajor_getElem?]
  simp only [pair_divNat, pair_modNat]

theorem eq_flat3 {X : Fin a → Fin b → Fin c → α} {l : List α} (hl : l.length = a * (b * c))
    (h : ∀ i j k, l[(pair i (pair j k)).val]? = some (X i j k)) : l = flat3 X := by
  refine eq_rowMajor hl fun i q => ?_
  obtain ⟨j, k, rfl⟩ := exists_pair q
  rw [pair_divNat, pair_modNat]
  exact h i j k

theorem eq_flat4 {X : Fin a → Fin b → Fin c → Fin d → α} {l : List α} (hl : l.length = a * (b * (c * d)))
    (h : ∀ i j k m, l[(pair i (pair j (pair k m))).val]? = some (X i j k m)) : l = flat4 X := by
  refine eq_rowMajor hl fun i q => ?_
  obtain ⟨j, q, rfl⟩ := exists_pair q
  obtain ⟨k, m, rfl⟩ := exists_pair q
  simp only [pair_divNat, pair_modNat]
  exact h i j k m

theorem exists_flat4 (l : List α) (hl : l.length = a * (b * (c * d))) :
    ∃ X : Fin a → Fin b → Fin c → Fin d → α, l = flat4 X := by
  refine ⟨fun i j k m => l[(pair i (pair j (pair k m))).val]'(by rw [hl]; exact Fin.is_lt _), eq_flat4 hl fun i j k m => ?_⟩
  rw [List.getElem?_eq_getElem]

theorem flat4_inj {X Y : Fin a → Fin b → Fin c → Fin d → α} (h : flat4 X = flat4 Y) : X = Y := by
  funext i j k m
  have := flat4_getElem? X i j k m
  rw [h, flat4_getElem?] at this
  exact (Option.some.inj this).symm

theorem range_map (f : Nat → α) : (List.range n).map f = List.ofFn fun i : Fin n => f i.val := by
  apply List.ext_getElem <;> simp

/-- A loop over rows. -/
theorem range_flatMap (f : Nat → List α) (g : Fin m → Fin n → α) (h : ∀ i : Fin m, f i.val = List.ofFn (g i)) :
    (List.range m).flatMap f = rowMajor g := by
  induction m with
  | zero =>
    have : rowMajor g = [] := List.eq_nil_of_length_eq_zero (by simp)
    simp [this]
  | succ m ih =>
    rw [List.range_succ, List.flatMap_append, ih (fun i j => g i.castSucc j) (fun i => h i.castSucc)]
    refine eq_rowMajor (by
      have := h (Fin.last m)
      simp only [Fin.val_last] at this
      simp [this, Nat.succ_mul]) fun i j => ?_
    rcases Fin.eq_castSucc_or_eq_last i with ⟨i, rfl⟩ | rfl
    · have hlt : i.val * n + j.val < (rowMajor fun (i : Fin m) j => g i.castSucc j).length := by
        rw [rowMajor_length]; exact index_lt i j
      simp only [Fin.val_castSucc]
      rw [List.getElem?_append_left hlt, rowMajor_getElem? (fun (i : Fin m) j => g i.castSucc j)]
    · rw [List.getElem?_append_right (by simp)]
      have := h (Fin.last m)
      simp only [Fin.val_last] at this
      simp [this]

theorem rowMajor_eq_ofFn (P : Fin m → Fin n → α) :
    rowMajor P = List.ofFn fun q : Fin (m * n) => P q.divNat q.modNat := rfl

theorem range_flatMap3 (f : Nat → List α) (g : Fin a → Fin b → Fin c → α)
    (h : ∀ i : Fin a, f i.val = rowMajor (g i)) : (List.range a).flatMap f = flat3 g :=
  range_flatMap f _ h

theorem range_flatMap4 (f : Nat → List α) (g : Fin a → Fin b → Fin c → Fin d → α)
    (h : ∀ i : Fin a, f i.val = flat3 (g i)) : (List.range a).flatMap f = flat4 g :=
  range_flatMap f _ h

/-- A sum over positions is a double sum. -/
theorem sum_pair {M : Type} [AddCommMonoid M] (f : Fin (m * n) → M) : ∑ q, f q = ∑ i, ∑ j, f (pair i j) := by
  rw [← Fintype.sum_prod_type' (f := fun i j => f (pair i j))]
  refine (Fintype.sum_equiv finProdFinEquiv _ _ fun p => ?_).symm
  congr 1
  apply Fin.ext
  simp [finProdFinEquiv, pair, Nat.mul_comm, Nat.add_comm]

end DW.FlatL
