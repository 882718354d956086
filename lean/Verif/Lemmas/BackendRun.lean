import Verif.Lemmas.BackendFwd
/-! # A whole forward pass -/

set_option autoImplicit false

namespace DW.BackendL

open DW DW.Spec DW.GraphL DW.Props.GraphP DW.NetL

variable {e : Expr} {ins outs it ot : List Nat} {m : Model} {w : World} {b : Backend}

section Storage

variable (P : Plan e m ins outs)

include P

theorem storage_output {y : Nat} : m.graph.storage y = .output ↔ y ∈ outs := by
  unfold Graph.storage
  rw [P.gins, P.gouts]
  by_cases h : y ∈ outs
  · simp [h]
  · by_cases h' : y ∈ ins <;> simp [h, h']

theorem storage_internal {y : Nat} : m.graph.storage y = .internal ↔ y ∉ outs ∧ y ∉ ins := by
  unfold Graph.storage
  rw [P.gins, P.gouts]
  by_cases h : y ∈ outs
  · simp [h]
  · by_cases h' : y ∈ ins <;> simp [h, h']

theorem mem_internals {y : Nat} : y ∈ internals m ↔ y ∈ dataOf m ∧ y ∉ outs ∧ y ∉ ins := by
  unfold internals
  rw [List.mem_filter, beq_iff_eq, storage_internal P]

theorem mem_nonOutputs {y : Nat} : y ∈ nonOutputs m ↔ y ∈ dataOf m ∧ y ∉ outs := by
  unfold nonOutputs
  rw [List.mem_filter, bne_iff_ne, Ne, storage_output P]

theorem made_cases (hs : Sound e m ins outs) {x : Nat} (hx : x ∈ dataOf m) (hc : (e.callOf x).isSome) :
    x ∈ internals m ∨ x ∈ outs := by
  by_cases h : x ∈ outs
  · exact .inr h
  · refine .inl ((mem_internals P).2 ⟨hx, h, fun h' => ?_⟩)
    rw [hs.given x h'] at hc
    simp at hc

end Storage

theorem data_cases (hs : Sound e m ins outs) {y : Nat} (hy : y ∈ dataOf m) : (e.callOf y).isSome ∨ y ∈ ins := by
  cases h : e.callOf y with
  | none => exact .inr (hs.listed y hy h)
  | some c => exact .inl rfl

theorem ins_outs (hs : Sound e m ins outs) {y : Nat} (hy : y ∈ ins) : y ∉ outs := fun h => by
  have := hs.outputs y h
  rw [hs.given y hy] at this
  simp at this

/-- The placeholder/tensor pairs of a call. -/
theorem given_at (hg : Given e m w b ins it) {y : Nat} (hy : y ∈ ins) :
    ∃ i h : Nat, ins[i]? = some y ∧ it[i]? = some h ∧ h ∈ it := by
  obtain ⟨i, hi, rfl⟩ := List.getElem_of_mem hy
  have : i < it.length := by rw [hg.length]; exact hi
  exact ⟨i, it[i], List.getElem?_eq_getElem hi, List.getElem?_eq_getElem this, List.getElem_mem this⟩

/-- The tensors in use once the caller's tensors are bound. -/
structure Bound (m : Model) (b : Backend) (ins outs it ot mem : List Nat) : Prop where
  len : mem.length = (dataOf m).length
  ins : ∀ (i y h : Nat), ins[i]? = some y → it[i]? = some h → mem.getD (dataId m.sorted y) 0 = h
  outs : ∀ (i y h : Nat), outs[i]? = some y → ot[i]? = some h → mem.getD (dataId m.sorted y) 0 = h
  own : ∀ y ∈ internals m, mem.getD (dataId m.sorted y) 0 = memOf m b y

theorem bind_io (P : Plan e m ins outs) (hs : Sound e m ins outs) (hmem : b.mem.length = (dataOf m).length)
    (hi : it.length = ins.length) (ho : ot.length = outs.length) :
    ∃ mem1 mem2, bind it (idsOf m ins) 0 b.mem = .ok mem1 ∧ bind ot (idsOf m outs) 0 mem1 = .ok mem2 ∧
      Bound m b ins outs it ot mem2 := by
  obtain ⟨mem1, a1, a2, a3, a4⟩ := bind_phs P hs.nodupIns P.ins_mem hi hmem
  obtain ⟨mem2, b1, b2, b3, b4⟩ := bind_phs P hs.nodup P.outs_mem ho a2
  refine ⟨mem1, mem2, a1, b1, b2, fun i y h hy hh => ?_, b3, fun y hy => ?_⟩
  · have hyi := List.mem_of_getElem? hy
    rw [b4 y (P.ins_mem y hyi) (ins_outs hs hyi), a3 i y h hy hh]
  · obtain ⟨h1, h2, h3⟩ := (mem_internals P).1 hy
    rw [b4 y h1 h2, a4 y h1 h3]
    rfl

theorem mem_privates_mem {y : Nat} (h : y ∈ internals m) : memOf m b y ∈ privates m b :=
  List.mem_append_left _ (List.mem_map_of_mem h)

theorem mem_privates_grad {y : Nat} (h : y ∈ nonOutputs m) : gradOf m b y ∈ privates m b :=
  List.mem_append_right _ (List.mem_map_of_mem h)

theorem memOf_inj (hd : (privates m b).Nodup) {x y : Nat} (hx : x ∈ internals m) (hy : y ∈ internals m)
    (h : memOf m b x = memOf m b y) : x = y :=
  List.inj_on_of_nodup_map (List.nodup_append.1 hd).1 hx hy h

theorem gradOf_inj (hd : (privates m b).Nodup) {x y : Nat} (hx : x ∈ nonOutputs m) (hy : y ∈ nonOutputs m)
    (h : gradOf m b x = gradOf m b y) : x = y :=
  List.inj_on_of_nodup_map (List.nodup_append.1 hd).2.1 hx hy h

theorem mem_ne_grad (hd : (privates m b).Nodup) {x y : Nat} (hx : x ∈ internals m) (hy : y ∈ nonOutputs m) :
    memOf m b x ≠ gradOf m b y :=
  (List.nodup_append.1 hd).2.2 _ (List.mem_map_of_mem hx) _ (List.mem_map_of_mem hy)

/-- Where each bound tensor comes from. -/
theorem Bound.cases (P : Plan e m ins outs) {mem : List Nat} (hB : Bound m b ins outs it ot mem)
    (hi : Given e m w b ins it) (ho : Given e m w b outs ot) {y : Nat} (hy : y ∈ dataOf m) :
    (y ∈ internals m ∧ mem.getD (dataId m.sorted y) 0 = memOf m b y) ∨
    (∃ i : Nat, ins[i]? = some y ∧ it[i]? = some (mem.getD (dataId m.sorted y) 0)) ∨
    (∃ i : Nat, outs[i]? = some y ∧ ot[i]? = some (mem.getD (dataId m.sorted y) 0)) := by
  by_cases h1 : y ∈ ins
  · obtain ⟨i, h, a, b, -⟩ := given_at hi h1
    exact .inr (.inl ⟨i, a, by rw [b, hB.ins i y h a b]⟩)
  · by_cases h2 : y ∈ outs
    · obtain ⟨i, h, a, b, -⟩ := given_at ho h2
      exact .inr (.inr ⟨i, a, by rw [b, hB.outs i y h a b]⟩)
    · have h3 := (mem_internals P).2 ⟨hy, h2, h1⟩
      exact .inl ⟨h3, hB.own y h3⟩

/-- Two placeholders never share a tensor if one of them is made. -/
theorem Bound.inj (P : Plan e m ins outs) (hs : Sound e m ins outs) {mem : List Nat} (hB : Bound m b ins outs it ot mem)
    (hC : Compiled e m w b) (hi : Given e m w b ins it) (ho : Given e m w b outs ot) (hn : ot.Nodup)
    (hio : ∀ h ∈ ot, h ∉ it) {x : Nat} (hx : x ∈ dataOf m) (hc : (e.callOf x).isSome) {y : Nat} (hy : y ∈ dataOf m)
    (hne : y ≠ x) : mem.getD (dataId m.sorted y) 0 ≠ mem.getD (dataId m.sorted x) 0 := by
  intro heq
  rcases hB.cases P hi ho hx with ⟨a, ha⟩ | ⟨i, a, -⟩ | ⟨i, a, ha⟩
  · have hp : mem.getD (dataId m.sorted x) 0 ∈ privates m b := ha ▸ mem_privates_mem a
    rcases hB.cases P hi ho hy with ⟨c, hc'⟩ | ⟨j, -, hj⟩ | ⟨j, -, hj⟩
    · rw [ha, hc'] at heq
      exact hne (memOf_inj hC.distinct c a heq)
    · exact hi.outside _ (List.mem_of_getElem? hj) (heq ▸ hp)
    · exact ho.outside _ (List.mem_of_getElem? hj) (heq ▸ hp)
  · rw [hs.given x (List.mem_of_getElem? a)] at hc
    simp at hc
  · rcases hB.cases P hi ho hy with ⟨c, hc'⟩ | ⟨j, -, hj⟩ | ⟨j, hj', hj⟩
    · exact ho.outside _ (List.mem_of_getElem? ha) (by rw [← heq, hc']; exact mem_privates_mem c)
    · exact hio _ (List.mem_of_getElem? ha) (heq ▸ List.mem_of_getElem? hj)
    · have hij : i = j := by
        have h1 := (List.getElem?_eq_some_iff.1 ha)
        have h2 := (List.getElem?_eq_some_iff.1 hj)
        obtain ⟨l1, e1⟩ := h1
        obtain ⟨l2, e2⟩ := h2
        exact (List.Nodup.getElem_inj_iff hn).1 (by rw [e1, e2, heq])
      subst hij
      rw [a] at hj'
      exact hne (Option.some.inj hj').symm

theorem rebind_ok {f : Backend → Out Backend} {w : World} {b b' : Backend} (h : w.backend = some b) (hf : f b = .ok b') :
    rebind f w = (.ok (), { w with backend := some b' }) := by
  unfold rebind
  rw [h]
  simp only
  rw [hf]

theorem privates_congr (P : Plan e m ins outs) {mem : List Nat} (hB : Bound m b ins outs it ot mem) (layers : List Cpu) :
    privates m ⟨mem, b.grad, layers⟩ = privates m b := by
  unfold privates
  congr 1
  exact List.map_congr_left fun y hy => hB.own y hy

section Forward

variable {params : Nat → Nat}
  {fn : (x : Nat) → (Fin (params x) → ℝ) → Args (fun j : Fin (e.argsOf x).length => phShape e (e.argsOf x)[j]) →
      Elems (phShape e x)}
  {θ : (x : Nat) → Fin (params x) → ℝ}
  (K : (x : Nat) → Contract (fun j : Fin (e.argsOf x).length => phShape e (e.argsOf x)[j]) (phShape e x) (params x) (fn x) (θ x))
  {v : (x : Nat) → Elems (phShape e x)}

theorem layerAt_some {b : Backend} {x c : Nat} (hc : e.callOf x = some c) : layerAt e m b x = b.layers[pos m c]? := by
  unfold layerAt
  rw [hc]
  rfl

theorem forward_run (P : Plan e m ins outs) (hs : Sound e m ins outs) (hC : Compiled e m w b) (hR : LayersReady K m b)
    (hv : (netOf e m params fn).Evaluates θ v) {env : Nat → Env}
    (henv : ∀ x ∈ dataOf m, ∀ c, e.callOf x = some c → (K x).env (env c))
    (hi : Given e m w b ins it) (hiv : Carry e w ins it v) (ho : Given e m w b outs ot) (hn : ot.Nodup)
    (hio : ∀ h ∈ ot, h ∉ it) :
    ∃ w' b' bk pk, m.forward env it ot w = (.ok (), w') ∧ Compiled e m w' b' ∧ SameOwner m b b' ∧
      AfterForward K m w' b' v bk pk ∧ Carry e w' outs ot v ∧ Untouched m b w w' ot ∧
      ∀ x ∈ dataOf m, ∀ c, e.callOf x = some c → ∃ l l', layerAt e m b x = some l ∧ layerAt e m b' x = some l' ∧
        Ran x (env c) l (fn x (θ x)) v l' := by
  obtain ⟨mem1, mem2, hb1, hb2, hB⟩ := bind_io P hs hC.mem_len hi.length ho.length
  have hinj : ∀ x ∈ dataOf m, (e.callOf x).isSome → ∀ y ∈ dataOf m, y ≠ x →
      mem2.getD (dataId m.sorted y) 0 ≠ mem2.getD (dataId m.sorted x) 0 := fun x hx hc y hy hne =>
    hB.inj P hs hC hi ho hn hio hx hc hy hne
  have hroom : ∀ x ∈ dataOf m, (e.callOf x).isSome → Room w.store (phShape e x) (mem2.getD (dataId m.sorted x) 0) :=
    fun x hx _ => by
      rcases hB.cases P hi ho hx with ⟨a, ha⟩ | ⟨i, a, ha⟩ | ⟨i, a, ha⟩
      · rw [ha]; exact hC.mem x a
      · exact hi.room i x _ a ha
      · exact ho.room i x _ a ha
  have h0 : Fwd K m mem2 b.grad v env b.layers ⟨w.store, some ⟨mem2, b.grad, b.layers⟩⟩ 0 ⟨w.store, some ⟨mem2, b.grad, b.layers⟩⟩
      b.layers := by
    refine ⟨rfl, hC.layers_len, fun _ _ _ _ h => absurd h (Nat.not_lt_zero _), fun x hx c hc _ => ?_, fun y hy h => ?_, hroom,
      fun _ _ => rfl⟩
    · obtain ⟨l, h1, h2⟩ := hR x hx (by rw [hc]; rfl)
      rw [layerAt_some hc] at h1
      exact ⟨l, h1, h2, h1⟩
    · have hcn : e.callOf y = none := by
        cases hc : e.callOf y with
        | none => rfl
        | some c => exact absurd (h c hc) (Nat.not_lt_zero _)
      have hyi := hs.listed y hy hcn
      obtain ⟨i, h', a, b', -⟩ := given_at hi hyi
      rw [hB.ins i y h' a b']
      exact hiv i y h' a b'
  obtain ⟨w', layers', hrun, hF⟩ := forward_loop K P hB.len hv henv hinj h0
  have hlast : ∀ x ∈ dataOf m, ∀ c, e.callOf x = some c → pos m c < (sortedOps m.sorted).length := fun x hx c hc =>
    List.idxOf_lt_length_iff.2 (P.make x hx c hc).1
  have hafter : ∀ x, ∃ bk pk, x ∈ dataOf m → (e.callOf x).isSome → ∃ l, layerAt e m ⟨mem2, b.grad, layers'⟩ x = some l ∧
      (K x).After (argv v x) bk pk l := fun x => by
    by_cases hx : x ∈ dataOf m ∧ (e.callOf x).isSome
    · obtain ⟨c, hc⟩ := Option.isSome_iff_exists.1 hx.2
      obtain ⟨l, bk, pk, h1, h2, -⟩ := hF.done x hx.1 c hc (hlast x hx.1 c hc)
      exact ⟨bk, pk, fun _ _ => ⟨l, by rw [layerAt_some hc]; exact h1, h2⟩⟩
    · exact ⟨0, 0, fun h1 h2 => absurd ⟨h1, h2⟩ hx⟩
  choose bk pk hbp using hafter
  have hvals : ∀ y ∈ dataOf m, Holds w'.store (v y) (mem2.getD (dataId m.sorted y) 0) := fun y hy =>
    hF.vals y hy fun c hc => hlast y hy c hc
  have hpriv := privates_congr P hB layers'
  refine ⟨w', ⟨mem2, b.grad, layers'⟩, bk, pk, ?_, ⟨hF.backend, hB.len, hC.grad_len, hF.len, fun y hy => ?_, fun y hy => ?_, ?_⟩,
    hpriv, ⟨fun y hy => hvals y (List.mem_filter.1 hy).1, hbp⟩, ?_, ?_, fun x hx c hc => ?_⟩
  · unfold Model.forward
    have hnb : needBackend w = (.ok (), w) := by unfold needBackend; rw [hC.backend]
    rw [M.bind_ok hnb, P.gins, P.gouts,
      M.bind_ok (rebind_ok (b' := ⟨mem1, b.grad, b.layers⟩) hC.backend (by rw [hb1]; rfl)),
      M.bind_ok (rebind_ok (b := ⟨mem1, b.grad, b.layers⟩) (b' := ⟨mem2, b.grad, b.layers⟩) rfl (by
        simp only; rw [hb2]; rfl))]
    exact hrun
  · exact ⟨List.ofFn (v y), hvals y (List.mem_filter.1 hy).1, by simp⟩
  · obtain ⟨old, h1, h2⟩ := hC.grad y hy
    refine ⟨old, ?_, h2⟩
    refine (hF.frame _ fun x hx hc => ?_).trans h1
    show gradOf m b y ≠ _
    intro heq
    rcases hB.cases P hi ho hx with ⟨a, ha⟩ | ⟨i, a, ha⟩ | ⟨i, a, ha⟩
    · exact mem_ne_grad hC.distinct a hy (by rw [heq, ha])
    · exact hi.outside _ (List.mem_of_getElem? ha) (heq ▸ mem_privates_grad hy)
    · exact ho.outside _ (List.mem_of_getElem? ha) (heq ▸ mem_privates_grad hy)
  · rw [hpriv]; exact hC.distinct
  · intro i y h hy hh
    rw [← hB.outs i y h hy hh]
    exact hvals y (P.outs_mem y (List.mem_of_getElem? hy))
  · intro h hp hnot
    refine (hF.frame h fun x hx hc heq => ?_)
    rcases made_cases P hs hx hc with h1 | h1
    · exact hp (by rw [heq, hB.own x h1]; exact mem_privates_mem h1)
    · obtain ⟨i, h', a, b', hm⟩ := given_at ho h1
      rw [hB.outs i x h' a b'] at heq
      exact hnot (heq ▸ hm)
  · obtain ⟨l', bk, pk, h1, -, l, h3, h4⟩ := hF.done x hx c hc (hlast x hx c hc)
    exact ⟨l, l', by rw [layerAt_some hc]; exact h3, by rw [layerAt_some hc]; exact h1, h4⟩

end Forward

end DW.BackendL
