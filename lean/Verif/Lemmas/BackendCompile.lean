import Verif.Lemmas.BackendRun
/-! # `compile` -/

set_option autoImplicit false

namespace DW.BackendL

open DW DW.Spec DW.NormL DW.NetL

variable {e : Expr} {m : Model} {ins outs : List Nat}

/-- What is allocated for a placeholder. -/
def allocated (m : Model) (e : Expr) (junk : Nat → ℝ) (y : Nat) : Buf × Buf :=
  let fresh : Buf := ⟨phShape e y, (List.range (size (phShape e y))).map junk⟩
  match m.graph.storage y with
  | .internal => (fresh, fresh)
  | .input => (⟨[], []⟩, fresh)
  | .output => (⟨[], []⟩, ⟨[], []⟩)

theorem freshBuf_size (junk : Nat → ℝ) {s : Shape} (hs : Static s) (hf : CountFits s) :
    freshBuf junk s = .ok ⟨s, (List.range (size s)).map junk⟩ := by
  refine freshBuf_eq junk hs hf ?_
  have : 0 ≤ count s := by
    unfold count
    exact List.prod_nonneg fun d hd => hs d hd
  rw [size, Int.toNat_of_nonneg this]

theorem allocData_eq (junk : Nat → ℝ) {y : Nat}
    (h : m.graph.storage y ≠ .output → Static (phShape e y) ∧ CountFits (phShape e y)) :
    allocData junk (m.graph.storage y) (phShape e y) = .ok (allocated m e junk y) := by
  unfold allocated
  cases hst : m.graph.storage y with
  | internal =>
    obtain ⟨h1, h2⟩ := h (by rw [hst]; decide)
    simp [allocData, freshBuf_size junk h1 h2]
  | input =>
    obtain ⟨h1, h2⟩ := h (by rw [hst]; decide)
    simp [allocData, freshBuf_size junk h1 h2]
  | output => rfl

theorem getD_shift (n k i : Nat) (h : i < k) : (List.map (n + ·) (List.range k)).getD i 0 = n + i := by
  rw [List.getD_eq_getElem?_getD, List.getElem?_map, List.getElem?_range h]
  rfl

/-- `compile` allocates what the backend needs and creates the layer objects. -/
theorem compile_run (P : Plan e m ins outs)
    (hshape : ∀ y ∈ dataOf m, m.graph.storage y ≠ .output → Static (phShape e y) ∧ CountFits (phShape e y))
    {real : F32 → ℝ} {tensors : Nat → InfoTensors} {R : Nat → Cpu → Prop}
    (hcreate : ∀ x ∈ dataOf m, ∀ c, e.callOf x = some c →
      ∃ l, Cpu.create real (infoOf e (e.callInfo c)).op (tensors (e.callInfo c)) = .ok l ∧ R x l) (junk : Nat → ℝ) (w : World) :
    ∃ w' b, m.compile e real junk tensors w = (.ok (), w') ∧ Compiled e m w' b ∧
      (∀ x ∈ dataOf m, (e.callOf x).isSome → ∃ l, layerAt e m b x = some l ∧ R x l) ∧
      (∀ h < w.store.length, w'.store[h]? = w.store[h]?) ∧ ∀ h ∈ privates m b, w.store.length ≤ h := by
  have hdata : (sortedData m.sorted).mapM (fun x => allocData junk (m.graph.storage x) (phShape e x)) =
      .ok ((dataOf m).map (allocated m e junk)) :=
    Out.mapM_eq_ok_of_forall fun y hy => allocData_eq junk (hshape y hy)
  have hops : ∀ c ∈ sortedOps m.sorted, ∃ l,
      Cpu.create real (infoOf e (e.callInfo c)).op (tensors (e.callInfo c)) = .ok l := fun c hc => by
    obtain ⟨x, hx, hxc⟩ := P.op c hc
    obtain ⟨l, hl, -⟩ := hcreate x hx c hxc
    exact ⟨l, hl⟩
  have hl' : ∃ lay : Nat → Cpu, ∀ c ∈ sortedOps m.sorted,
      Cpu.create real (infoOf e (e.callInfo c)).op (tensors (e.callInfo c)) = .ok (lay c) := by
    refine ⟨fun c => open Classical in if h : c ∈ sortedOps m.sorted then (hops c h).choose else .relu, fun c hc => ?_⟩
    beta_reduce
    rw [dif_pos hc]
    exact (hops c hc).choose_spec
  obtain ⟨lay, hlay⟩ := hl'
  have hlayers : ((sortedOps m.sorted).mapM fun c =>
      Cpu.create real (infoOf e (e.callInfo c)).op (tensors (e.callInfo c))) = .ok ((sortedOps m.sorted).map lay) :=
    Out.mapM_eq_ok_of_forall hlay
  let n := w.store.length
  let k := (dataOf m).length
  let b : Backend := ⟨(List.range k).map (n + ·), (List.range k).map (n + k + ·), (sortedOps m.sorted).map lay⟩
  let w' : World := ⟨w.store ++ ((dataOf m).map (allocated m e junk)).map Prod.fst ++
    ((dataOf m).map (allocated m e junk)).map Prod.snd, some b⟩
  have hidx : ∀ y ∈ dataOf m, dataId m.sorted y < k := fun y hy => P.idx_lt hy
  have hmem : ∀ y ∈ dataOf m, memOf m b y = n + dataId m.sorted y := fun y hy => getD_shift n k _ (hidx y hy)
  have hgrad : ∀ y ∈ dataOf m, gradOf m b y = n + k + dataId m.sorted y := fun y hy => getD_shift (n + k) k _ (hidx y hy)
  have hget : ∀ y ∈ dataOf m, (dataOf m)[dataId m.sorted y]? = some y := fun y hy => by
    rw [List.getElem?_eq_getElem (hidx y hy)]
    exact congrArg some (List.getElem_idxOf (hidx y hy))
  have hmstore : ∀ y ∈ dataOf m, w'.store[memOf m b y]? = some (allocated m e junk y).1 := fun y hy => by
    rw [hmem y hy]
    simp only [w']
    rw [List.getElem?_append_left (by simp only [List.length_append, List.length_map]; have := hidx y hy; omega),
      List.getElem?_append_right (by omega), Nat.add_sub_cancel_left, List.getElem?_map, List.getElem?_map, hget y hy]
    rfl
  have hgstore : ∀ y ∈ dataOf m, w'.store[gradOf m b y]? = some (allocated m e junk y).2 := fun y hy => by
    rw [hgrad y hy]
    simp only [w']
    rw [List.getElem?_append_right (by simp only [List.length_append, List.length_map]; omega)]
    have : n + k + dataId m.sorted y - (w.store ++ ((dataOf m).map (allocated m e junk)).map Prod.fst).length =
        dataId m.sorted y := by simp only [List.length_append, List.length_map]; omega
    rw [this, List.getElem?_map, List.getElem?_map, hget y hy]
    rfl
  have hint : ∀ y ∈ internals m, y ∈ dataOf m ∧ m.graph.storage y = .internal := fun y hy => by
    simpa [internals] using hy
  have hnon : ∀ y ∈ nonOutputs m, y ∈ dataOf m ∧ m.graph.storage y ≠ .output := fun y hy => by
    simpa [nonOutputs] using hy
  have hint_nodup : (internals m).Nodup := P.nodup.filter _
  have hnon_nodup : (nonOutputs m).Nodup := P.nodup.filter _
  refine ⟨w', b, ?_, ⟨rfl, by simp [b, k], by simp [b, k], by simp [b], fun y hy => ?_, fun y hy => ?_, ?_⟩, fun x hx hc => ?_,
    fun h hh => ?_, fun h hh => ?_⟩
  · unfold Model.compile
    beta_reduce
    rw [hdata, hlayers]
    simp [w', b, k, n]
  · obtain ⟨h1, h2⟩ := hint y hy
    refine ⟨(List.range (size (phShape e y))).map junk, (hmstore y h1).trans ?_, by rw [List.length_map, List.length_range]⟩
    simp [allocated, h2]
  · obtain ⟨h1, h2⟩ := hnon y hy
    refine ⟨(List.range (size (phShape e y))).map junk, (hgstore y h1).trans ?_, by rw [List.length_map, List.length_range]⟩
    unfold allocated
    cases hst : m.graph.storage y with
    | internal => rfl
    | input => rfl
    | output => exact absurd hst h2
  · refine List.nodup_append.2 ⟨(List.nodup_map_iff_inj_on hint_nodup).2 fun x hx y hy hxy => ?_,
      (List.nodup_map_iff_inj_on hnon_nodup).2 fun x hx y hy hxy => ?_, fun x hx y hy hxy => ?_⟩
    · rw [hmem x (hint x hx).1, hmem y (hint y hy).1] at hxy
      exact P.id_inj (hint x hx).1 (by omega)
    · rw [hgrad x (hnon x hx).1, hgrad y (hnon y hy).1] at hxy
      exact P.id_inj (hnon x hx).1 (by omega)
    · obtain ⟨x', hx', rfl⟩ := List.mem_map.1 hx
      obtain ⟨y', hy', rfl⟩ := List.mem_map.1 hy
      rw [hmem x' (hint x' hx').1, hgrad y' (hnon y' hy').1] at hxy
      have := hidx x' (hint x' hx').1
      omega
  · obtain ⟨c, hc⟩ := Option.isSome_iff_exists.1 hc
    obtain ⟨l, hl, hR⟩ := hcreate x hx c hc
    have hcm := (P.make x hx c hc).1
    refine ⟨l, ?_, hR⟩
    rw [layerAt_some hc]
    simp only [b, pos, List.getElem?_map]
    rw [List.getElem?_eq_getElem (List.idxOf_lt_length_iff.2 hcm), Option.map_some, List.getElem_idxOf]
    have := hlay c hcm
    rw [hl] at this
    rw [Out.ok.inj this]
  · simp only [w']
    rw [List.append_assoc, List.getElem?_append_left hh]
  · rcases List.mem_append.1 hh with h | h
    · obtain ⟨y, hy, rfl⟩ := List.mem_map.1 h
      rw [hmem y (hint y hy).1]
      exact Nat.le_add_right _ _
    · obtain ⟨y, hy, rfl⟩ := List.mem_map.1 h
      rw [hgrad y (hnon y hy).1]
      exact Nat.le_trans (Nat.le_add_right n k) (Nat.le_add_right _ _)

end DW.BackendL
