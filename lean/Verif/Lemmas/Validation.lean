import Mathlib.Order.Interval.Finset.Nat
import Mathlib.Data.Nat.Count
import Verif.Model.Validation
import Verif.Props.DataLoader
import Verif.Props.Batch
import Verif.Props.Loop
/-! # The steps of a validation loop -/

set_option autoImplicit false

namespace DW.ValL

open DW DW.Spec DW.DL DW.DLL

noncomputable section

/-- A tensor `pull` accepts: empty, or already of the batch's shape. -/
def AcceptsBuf (w : World) (t : Nat) (shape : Shape) : Prop := ∃ b : Buf, w.store[t]? = some b ∧ (b.vals = [] ∨ b.shape = shape)

theorem allocIfNone_spec {w : World} {t : Nat} {shape : Shape} (junk : Nat → ℝ) (h : AcceptsBuf w t shape) :
    ∃ b : Buf, allocIfNone junk t shape w = (.ok (), { w with store := w.store.set t b }) ∧ b.shape = shape ∧ t < w.store.length := by
  obtain ⟨b, hb, ho⟩ := h
  have hlt := (List.getElem?_eq_some_iff.1 hb).1
  unfold allocIfNone
  simp only [hb]
  by_cases he : b.vals = []
  · rw [if_pos he]
    exact ⟨_, rfl, rfl, hlt⟩
  · rw [if_neg he]
    refine ⟨b, ?_, ho.resolve_left he, hlt⟩
    have : w.store.set t b = w.store := by
      obtain ⟨h1, h2⟩ := List.getElem?_eq_some_iff.1 hb
      rw [← h2, List.set_getElem_self]
    rw [this]

theorem onWorld_eq {σ α : Type} {x : M World α} {w w' : World} {o : Out α} (h : x w = (o, w')) (a : σ) :
    onWorld x (w, a) = (o, w', a) := by
  unfold onWorld
  rw [h]

/-- The numbers of the samples of the next batch. -/
def nextIdxs (ld : Loader ℝ) (rand : List Int) (pos : Int) : List Int :=
  if ld.shuffle then rand else (List.range ld.batch.toNat).map fun i : Nat => pos + i

theorem pullInto_spec {ld : Loader ℝ} (hb0 : 0 ≤ ld.batch) (hfit : ld.dataset.size + ld.batch ≤ 2147483647) (junk : Nat → ℝ) (rand : List Int)
    {w : World} {x y : Nat} (hne : x ≠ y) (hx : AcceptsBuf w x (ld.batch :: ld.dataset.shapeX))
    (hy : AcceptsBuf w y (ld.batch :: ld.dataset.shapeY)) {pos : Int} (hp0 : 0 ≤ pos) (hp1 : pos ≤ ld.dataset.size)
    (hr : ld.shuffle = true → pos + ld.batch ≤ ld.dataset.size →
      (rand.length : Int) = ld.batch ∧ ∀ v ∈ rand, 0 ≤ v ∧ v < ld.dataset.size) :
    ∃ w' : World, pullInto ld junk rand x y (w, pos) =
        (.ok (decide (pos + ld.batch ≤ ld.dataset.size)), w', if pos + ld.batch ≤ ld.dataset.size then pos + ld.batch else 0) ∧
      (pos + ld.batch ≤ ld.dataset.size → w' = putBatch ld (nextIdxs ld rand pos) x y w) ∧
      ∃ bx by' : Buf, w' = { w with store := (w.store.set x bx).set y by' } ∧ bx.shape = ld.batch :: ld.dataset.shapeX ∧
        by'.shape = ld.batch :: ld.dataset.shapeY := by
  obtain ⟨bx, e1, s1, l1⟩ := allocIfNone_spec junk hx
  have hy' : AcceptsBuf { w with store := w.store.set x bx } y (ld.batch :: ld.dataset.shapeY) := by
    obtain ⟨b, h1, h2⟩ := hy
    exact ⟨b, by simpa [List.getElem?_set_ne hne] using h1, h2⟩
  obtain ⟨by', e2, s2, l2⟩ := allocIfNone_spec junk hy'
  simp only [List.length_set] at l2 e2
  set w₂ : World := { w with store := (w.store.set x bx).set y by' } with hw₂
  have hsx : shapeAt x w₂ = (.ok (makeShape ld.batch ld.dataset.shapeX), w₂) := by
    unfold shapeAt Out.idx
    rw [hw₂]
    simp only [List.getElem?_map, List.getElem?_set_ne hne.symm, List.getElem?_set_self l1, Option.map_some, s1]
    rfl
  have hsy : shapeAt y w₂ = (.ok (makeShape ld.batch ld.dataset.shapeY), w₂) := by
    unfold shapeAt Out.idx
    rw [hw₂]
    simp only [List.getElem?_map]
    rw [List.getElem?_set_self (by simpa using l2)]
    simp only [Option.map_some, s2]
    rfl
  have fit : Tensor.fitsInt (pos + ld.batch) = true := by
    simp only [Tensor.fitsInt, Bool.and_eq_true, decide_eq_true_eq]
    omega
  have tos : toSizeT (pos + ld.batch) = (pos + ld.batch).toNat := by
    unfold toSizeT
    rw [Int.emod_eq_of_lt (by omega) (by omega)]
  have run : pullInto ld junk rand x y (w, pos) = (do
      if ld.dataset.size < toSizeT (pos + ld.batch) then do
        M.modify fun s => (s.1, 0)
        pure false
      else do
        let indices ← M.lift (pickIndices ld rand pos)
        if (indices.length : Int) = ld.batch ∧ ∀ i ∈ indices, 0 ≤ i ∧ i < ld.dataset.size then do
          M.modify fun s => (putBatch ld indices x y s.1, s.2 + ld.batch)
          pure true
        else M.lift (.ub .oob) : M (World × Int) Bool) (w₂, pos) := by
    unfold pullInto
    simp only [makeShape] at hsx hsy ⊢
    rw [M.bind_ok (onWorld_eq e1 pos), M.bind_ok (onWorld_eq e2 pos), M.bind_ok (onWorld_eq hsx pos), beq_self_eq_true,
      M.bind_ok (M.check_true_apply _), M.bind_ok (onWorld_eq hsy pos), beq_self_eq_true, M.bind_ok (M.check_true_apply _),
      M.bind_ok (M.get_apply _)]
    simp only [fit, if_true]
  by_cases hc : pos + ld.batch ≤ ld.dataset.size
  · have hidx : (M.lift (pickIndices ld rand pos) : M (World × Int) (List Int)) (w₂, pos) = (.ok (nextIdxs ld rand pos), w₂, pos) := by
      rw [M.lift_apply, pickIndices, nextIdxs]
      split
      · rfl
      · rw [seqIndices, if_neg (by omega)]
    have hok : ((nextIdxs ld rand pos).length : Int) = ld.batch ∧ ∀ i ∈ nextIdxs ld rand pos, 0 ≤ i ∧ i < ld.dataset.size := by
      unfold nextIdxs
      split
      next hs => exact hr hs hc
      next =>
        refine ⟨by simp; omega, fun i hi => ?_⟩
        simp only [List.mem_map, List.mem_range] at hi
        obtain ⟨j, hj, rfl⟩ := hi
        omega
    have hput : putBatch ld (nextIdxs ld rand pos) x y w₂ = putBatch ld (nextIdxs ld rand pos) x y w := by
      unfold putBatch
      rw [hw₂]
      simp only [World.mk.injEq, and_true]
      rw [List.set_comm _ _ (Ne.symm hne), List.set_set, List.set_set]
    refine ⟨putBatch ld (nextIdxs ld rand pos) x y w, ?_, fun _ => rfl, _, _, rfl, rfl, rfl⟩
    rw [run, if_neg (by rw [tos]; omega), M.bind_ok hidx, if_pos hok, M.bind_ok (M.modify_apply _ _), if_pos hc, hput, decide_eq_true hc]
    rfl
  · refine ⟨w₂, ?_, fun h => absurd h hc, bx, by', rfl, s1, s2⟩
    rw [run, if_pos (by rw [tos]; omega), M.bind_ok (M.modify_apply _ _), if_neg hc, decide_eq_false hc]
    rfl

/-! ### Batches as lists -/

theorem flatMap_length {α : Type} {k : Nat} {f : α → List ℝ} : ∀ {l : List α}, (∀ a ∈ l, (f a).length = k) → (l.flatMap f).length = l.length * k
  | [], _ => by simp
  | a :: l, h => by
    rw [List.flatMap_cons, List.length_append, h a (by simp), flatMap_length fun b hb => h b (by simp [hb]), List.length_cons]
    ring

theorem flatMap_part {α : Type} {k : Nat} {f : α → List ℝ} : ∀ {l : List α} {i : Nat} (hi : i < l.length), (∀ a ∈ l, (f a).length = k) →
    ((l.flatMap f).drop (i * k)).take k = f l[i]
  | [], i, hi, _ => by simp at hi
  | a :: l, 0, _, h => by
    have := h a (by simp)
    rw [List.flatMap_cons, Nat.zero_mul, List.drop_zero, List.take_append_of_le_length (by omega), List.take_of_length_le (by omega)]
    rfl
  | a :: l, i + 1, hi, h => by
    have ha := h a (by simp)
    have hi' : i < l.length := by simpa using hi
    rw [List.flatMap_cons, List.drop_append, show (i + 1) * k - (f a).length = i * k by rw [ha]; rw [Nat.succ_mul]; omega,
      List.drop_eq_nil_of_le (by rw [ha, Nat.succ_mul]; omega), List.nil_append]
    exact flatMap_part hi' fun b hb => h b (by simp [hb])

theorem sample_batchBuf {b : Int} {sh : Shape} {f : Int → Nat → ℝ} {idxs : List Int} {N : Nat} (hl : idxs.length = N) {i : Nat} (hi : i < N) :
    sampleOf N i (batchBuf b sh f idxs).vals = (List.range sh.prod.toNat).map (f (idxs[i]'(by omega))) := by
  have hk : ∀ a ∈ idxs, ((List.range sh.prod.toNat).map (f a)).length = sh.prod.toNat := fun a _ => by simp
  have hlen : (batchBuf b sh f idxs).vals.length = N * sh.prod.toNat := by
    unfold batchBuf
    simp only
    rw [flatMap_length hk, hl]
  unfold sampleOf
  rw [hlen, Nat.mul_div_cancel_left _ (by omega)]
  exact flatMap_part (by omega) hk

end

end DW.ValL
