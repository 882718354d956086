import Verif.Model.Norm
import Verif.Lemmas.Flat
/-! Lemmas about the layout conversions. -/

set_option autoImplicit false

namespace DW.LayoutL

open DW.Spec DW.MatL DW.FlatL

variable {α : Type}

theorem writeSeq_ofFn {T : Nat} (f : Fin T → Nat) (x : Fin T → α) (rest dst : List α)
    (hf : Function.Injective f) (hb : ∀ t, f t < dst.length) :
    ∃ r, writeSeq (List.ofFn f) (List.ofFn x ++ rest) dst = .ok r ∧ r.length = dst.length ∧
      (∀ t, r[f t]? = some (x t)) ∧ ∀ k, (∀ t, f t ≠ k) → r[k]? = dst[k]? := by
  induction T generalizing dst with
  | zero => exact ⟨dst, by simp [writeSeq], rfl, fun t => t.elim0, fun k _ => rfl⟩
  | succ T ih =>
    simp only [List.ofFn_succ, List.cons_append, writeSeq, if_pos (hb 0)]
    obtain ⟨r, h1, h2, h3, h4⟩ := ih (fun t => f t.succ) (fun t => x t.succ) (dst.set (f 0) (x 0))
      (fun a b h => Fin.succ_injective _ (hf h)) (fun t => by rw [List.length_set]; exact hb _)
    refine ⟨r, h1, by rw [h2, List.length_set], fun t => ?_, fun k hk => ?_⟩
    · refine Fin.cases ?_ (fun t => h3 t) t
      rw [h4 _ fun t h => Fin.succ_ne_zero t (hf h), List.getElem?_set_self (hb 0)]
    · rw [h4 k fun t => hk _, List.getElem?_set_ne (hk 0)]

variable {N C H W : Nat}

theorem nhwcIdx_eq : nhwcIdx N C H W =
    flat4 fun (n : Fin N) (c : Fin C) (h : Fin H) (w : Fin W) => (pair n (pair h (pair w c))).val := by
  unfold nhwcIdx
  refine range_flatMap4 _ _ fun n => range_flatMap3 _ _ fun c => range_flatMap _ _ fun h => ?_
  rw [range_map]
  congr 1; funext w
  simp only [pair_val]; ring

theorem nchwIdx_eq : nchwIdx N C H W =
    flat4 fun (n : Fin N) (h : Fin H) (w : Fin W) (c : Fin C) => (pair n (pair c (pair h w))).val := by
  unfold nchwIdx
  refine range_flatMap4 _ _ fun n => range_flatMap3 _ _ fun h => range_flatMap _ _ fun w => ?_
  rw [range_map]
  congr 1; funext c
  simp only [pair_val]; ring

/-- Writing a four-dimensional array through an injective index function. -/
theorem writeSeq_flat4 {a b c d : Nat} (f : Fin a → Fin b → Fin c → Fin d → Nat)
    (X : Fin a → Fin b → Fin c → Fin d → α) (rest dst : List α)
    (hf : ∀ i j k l i' j' k' l', f i j k l = f i' j' k' l' → i = i' ∧ j = j' ∧ k = k' ∧ l = l')
    (hb : ∀ i j k l, f i j k l < dst.length) :
    ∃ r, writeSeq (flat4 f) (flat4 X ++ rest) dst = .ok r ∧ r.length = dst.length ∧
      (∀ i j k l, r[f i j k l]? = some (X i j k l)) ∧ ∀ m, (∀ i j k l, f i j k l ≠ m) → r[m]? = dst[m]? := by
  obtain ⟨r, h1, h2, h3, h4⟩ := writeSeq_ofFn
    (fun q : Fin (a * (b * (c * d))) => f q.divNat q.modNat.divNat q.modNat.modNat.divNat q.modNat.modNat.modNat)
    (fun q => X q.divNat q.modNat.divNat q.modNat.modNat.divNat q.modNat.modNat.modNat) rest dst
    (fun p q h => by
      obtain ⟨e1, e2, e3, e4⟩ := hf _ _ _ _ _ _ _ _ h
      rw [← pair_div_mod p, ← pair_div_mod q, pair_inj]
      refine ⟨e1, ?_⟩
      rw [← pair_div_mod p.modNat, ← pair_div_mod q.modNat, pair_inj]
      refine ⟨e2, ?_⟩
      rw [← pair_div_mod p.modNat.modNat, ← pair_div_mod q.modNat.modNat, pair_inj]
      exact ⟨e3, e4⟩)
    (fun _ => hb _ _ _ _)
  refine ⟨r, h1, h2, fun i j k l => ?_, fun m hm => h4 m fun _ => hm _ _ _ _⟩
  have := h3 (pair i (pair j (pair k l)))
  simpa only [pair_divNat, pair_modNat] using this

/-- A list with the elements of an array in front, and those of another list behind. -/
theorem eq_flat4_drop {a b c d : Nat} {X : Fin a → Fin b → Fin c → Fin d → α} {r dst : List α}
    (hl : r.length = dst.length) (hle : a * (b * (c * d)) ≤ dst.length)
    (h : ∀ i j k l, r[(pair i (pair j (pair k l))).val]? = some (X i j k l))
    (h' : ∀ m, a * (b * (c * d)) ≤ m → r[m]? = dst[m]?) : r = flat4 X ++ dst.drop (a * (b * (c * d))) := by
  have h1 : r.take (a * (b * (c * d))) = flat4 X := by
    refine eq_flat4 (by rw [List.length_take, hl]; omega) fun i j k l => ?_
    rw [List.getElem?_take_of_lt (Fin.is_lt _), h]
  have h2 : r.drop (a * (b * (c * d))) = dst.drop (a * (b * (c * d))) := by
    apply List.ext_getElem?
    intro m
    rw [List.getElem?_drop, List.getElem?_drop, h' _ (by omega)]
  rw [← h1, ← h2, List.take_append_drop]

theorem dimN_of {b : Buf} {i : Nat} {n : Nat} (h : b.shape[i]? = some (n : Int)) : dimN b i = .ok n := by
  simp [dimN, dim, Out.idx, h]

theorem nchw2nhwc_eq (X : Fin N → Fin C → Fin H → Fin W → ℝ) (rest : List ℝ) (output : Buf)
    (h : N * (H * (W * C)) ≤ output.vals.length) :
    nchw2nhwc ⟨[N, C, H, W], flat4 X ++ rest⟩ output =
      .ok (flat4 (fun n h w c => X n c h w) ++ output.vals.drop (N * (H * (W * C)))) := by
  unfold nchw2nhwc
  rw [dimN_of (n := N) (by rfl), dimN_of (n := C) (by rfl), dimN_of (n := H) (by rfl), dimN_of (n := W) (by rfl)]
  simp only [Out.bind_ok, nhwcIdx_eq]
  obtain ⟨r, h1, h2, h3, h4⟩ := writeSeq_flat4 (fun n c h w => (pair n (pair h (pair w c))).val) X rest output.vals
    (fun n c h w n' c' h' w' e => by
      have := Fin.ext e
      simp only [pair_inj] at this
      exact ⟨this.1, this.2.2.2, this.2.1, this.2.2.1⟩)
    (fun n c h' w => lt_of_lt_of_le (Fin.is_lt _) h)
  rw [h1, eq_flat4_drop (X := fun n h w c => X n c h w) h2 h (fun n h w c => h3 n c h w)
    (fun m hm => h4 m fun n c h w e => absurd (pair n (pair h (pair w c))).is_lt (by omega))]

theorem nhwc2nchw_eq (Y : Fin N → Fin H → Fin W → Fin C → ℝ) (rest : List ℝ) (s : Shape) (old : List ℝ)
    (h : N * (C * (H * W)) ≤ old.length) :
    nhwc2nchw ⟨s, flat4 Y ++ rest⟩ ⟨[N, C, H, W], old⟩ =
      .ok (flat4 (fun n c h w => Y n h w c) ++ old.drop (N * (C * (H * W)))) := by
  unfold nhwc2nchw
  rw [dimN_of (n := N) (by rfl), dimN_of (n := C) (by rfl), dimN_of (n := H) (by rfl), dimN_of (n := W) (by rfl)]
  simp only [Out.bind_ok, nchwIdx_eq]
  obtain ⟨r, h1, h2, h3, h4⟩ := writeSeq_flat4 (fun n h w c => (pair n (pair c (pair h w))).val) Y rest old
    (fun n h w c n' h' w' c' e => by
      have := Fin.ext e
      simp only [pair_inj] at this
      exact ⟨this.1, this.2.2.1, this.2.2.2, this.2.1⟩)
    (fun n h' w c => lt_of_lt_of_le (Fin.is_lt _) h)
  rw [h1, eq_flat4_drop (X := fun n c h w => Y n h w c) h2 h (fun n c h w => h3 n h w c)
    (fun m hm => h4 m fun n h w c e => absurd (pair n (pair c (pair h w))).is_lt (by omega))]

/-- A duplicate-free list of `n` numbers below `n` lists them all. -/
theorem perm_range {l : List Nat} {n : Nat} (hl : l.length = n) (hn : l.Nodup) (hb : ∀ i ∈ l, i < n) :
    l.Perm (List.range n) :=
  (hn.subperm fun i hi => List.mem_range.2 (hb i hi)).perm_of_length_le (by simp [hl])

theorem flat4_perm {a b c d T : Nat} (f : Fin a → Fin b → Fin c → Fin d → Nat) (hT : a * (b * (c * d)) = T)
    (hf : ∀ i j k l i' j' k' l', f i j k l = f i' j' k' l' → i = i' ∧ j = j' ∧ k = k' ∧ l = l')
    (hb : ∀ i j k l, f i j k l < T) : (flat4 f).Perm (List.range T) := by
  refine perm_range (by rw [flat4_length, hT]) ?_ ?_
  · unfold flat4 rowMajor
    rw [List.nodup_ofFn]
    intro p q h
    obtain ⟨e1, e2, e3, e4⟩ := hf _ _ _ _ _ _ _ _ h
    rw [← pair_div_mod p, ← pair_div_mod q, pair_inj]
    refine ⟨e1, ?_⟩
    rw [← pair_div_mod p.modNat, ← pair_div_mod q.modNat, pair_inj]
    refine ⟨e2, ?_⟩
    rw [← pair_div_mod p.modNat.modNat, ← pair_div_mod q.modNat.modNat, pair_inj]
    exact ⟨e3, e4⟩
  · intro i hi
    unfold flat4 rowMajor at hi
    obtain ⟨q, rfl⟩ := (List.mem_ofFn' _ _).1 hi
    exact hb _ _ _ _

end DW.LayoutL
