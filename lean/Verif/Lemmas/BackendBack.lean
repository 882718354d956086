import Verif.Lemmas.BackendBwd
/-! # A whole backward pass -/

set_option autoImplicit false

namespace DW.BackendL

open DW DW.Spec DW.GraphL DW.Props.GraphP DW.Props.ElementwiseP DW.NetL

variable {e : Expr} {ins outs it ot gt : List Nat} {m : Model} {w : World} {b : Backend}

theorem zero_loop (P : Plan e m ins outs) (hC : Compiled e m w b) :
    ∃ w', runAll (((sortedData m.sorted).filter fun x => m.graph.storage x != .output).map
        fun x => zeroGrad (dataId m.sorted x)) w = (.ok (), w') ∧ w'.backend = some b ∧
      (∀ y ∈ nonOutputs m, Holds w'.store (0 : Elems (phShape e y)) (gradOf m b y)) ∧
      ∀ h, (∀ y ∈ nonOutputs m, h ≠ gradOf m b y) → w'.store[h]? = w.store[h]? := by
  have hnd : (nonOutputs m).Nodup := P.nodup.filter _
  have key := runAll_inv (I := fun k w' => w'.backend = some b ∧
      (∀ (i y : Nat), (nonOutputs m)[i]? = some y → i < k → Holds w'.store (0 : Elems (phShape e y)) (gradOf m b y)) ∧
      (∀ y ∈ nonOutputs m, Room w'.store (phShape e y) (gradOf m b y)) ∧
      ∀ h, (∀ y ∈ nonOutputs m, h ≠ gradOf m b y) → w'.store[h]? = w.store[h]?)
    ((nonOutputs m).map fun x => zeroGrad (dataId m.sorted x)) (w := w) ?_
    ⟨hC.backend, fun _ _ _ h => absurd h (Nat.not_lt_zero _), hC.grad, fun _ _ => rfl⟩
  · obtain ⟨w', h1, h2, h3, h4, h5⟩ := key
    refine ⟨w', h1, h2, fun y hy => ?_, h5⟩
    obtain ⟨i, hi, rfl⟩ := List.getElem_of_mem hy
    exact h3 i _ (List.getElem?_eq_getElem hi) (by simpa using hi)
  · intro k hk w1 ⟨hb, hz, hr, hf⟩
    simp only [List.length_map] at hk
    have hy : (nonOutputs m)[k] ∈ nonOutputs m := List.getElem_mem hk
    generalize hyk : (nonOutputs m)[k] = y at *
    obtain ⟨old, ho, hl⟩ := hr y hy
    have hyD : y ∈ dataOf m := ((mem_nonOutputs P).1 hy).1
    have hg : b.grad[dataId m.sorted y]? = some (gradOf m b y) :=
      getElem?_getD (by rw [hC.grad_len]; exact P.idx_lt hyD)
    have hlt := (List.getElem?_eq_some_iff.1 ho).1
    have hput : (⟨phShape e y, List.replicate old.length 0⟩ : Buf) = ⟨phShape e y, List.ofFn (0 : Elems (phShape e y))⟩ := by
      rw [hl]
      congr 1
      refine List.ext_getElem (by simp) fun i h1 h2 => by simp
    refine ⟨⟨w1.store.set (gradOf m b y) ⟨phShape e y, List.ofFn (0 : Elems (phShape e y))⟩, some b⟩, ?_, rfl, ?_, ?_, ?_⟩
    · rw [List.getElem_map, hyk]
      unfold zeroGrad
      rw [hb]
      simp only [hg, ho, Buf.put]
      rw [hput]
    · intro i z hiz hik
      by_cases hzy : z = y
      · subst hzy
        exact List.getElem?_set_self hlt
      · have hne : gradOf m b y ≠ gradOf m b z := fun h =>
          hzy (gradOf_inj hC.distinct (List.mem_of_getElem? hiz) hy h.symm)
        have hik' : i < k := by
          have : i ≠ k := fun h => by
            subst h
            rw [List.getElem?_eq_getElem hk, hyk] at hiz
            exact hzy (Option.some.inj hiz).symm
          omega
        unfold Holds
        simp only
        rw [List.getElem?_set_ne hne]
        exact hz i z hiz hik'
    · intro z hzm
      by_cases hzy : z = y
      · subst hzy
        exact ⟨_, List.getElem?_set_self hlt, by simp⟩
      · obtain ⟨o, h1, h2⟩ := hr z hzm
        refine ⟨o, ?_, h2⟩
        simp only
        rw [List.getElem?_set_ne fun h => hzy (gradOf_inj hC.distinct hzm hy h.symm), h1]
    · intro h hh
      simp only
      rw [List.getElem?_set_ne fun h' => hh y hy h'.symm]
      exact hf h hh

/-- The gradient tensors in use once the caller's are bound. -/
structure BoundG (m : Model) (b : Backend) (outs gt grad : List Nat) : Prop where
  len : grad.length = (dataOf m).length
  outs : ∀ (i y h : Nat), outs[i]? = some y → gt[i]? = some h → grad.getD (dataId m.sorted y) 0 = h
  own : ∀ y ∈ nonOutputs m, grad.getD (dataId m.sorted y) 0 = gradOf m b y

theorem bind_g (P : Plan e m ins outs) (hs : Sound e m ins outs) (hg : b.grad.length = (dataOf m).length)
    (ho : gt.length = outs.length) :
    ∃ grad, bind gt (idsOf m outs) 0 b.grad = .ok grad ∧ BoundG m b outs gt grad := by
  obtain ⟨grad, b1, b2, b3, b4⟩ := bind_phs P hs.nodup P.outs_mem ho hg
  refine ⟨grad, b1, b2, b3, fun y hy => ?_⟩
  obtain ⟨h1, h2⟩ := (mem_nonOutputs P).1 hy
  rw [b4 y h1 h2]
  rfl

theorem BoundG.cases (P : Plan e m ins outs) {grad : List Nat} (hB : BoundG m b outs gt grad)
    (ho : Given e m w b outs gt) {y : Nat} (hy : y ∈ dataOf m) :
    (y ∈ nonOutputs m ∧ grad.getD (dataId m.sorted y) 0 = gradOf m b y) ∨
    (∃ i : Nat, outs[i]? = some y ∧ gt[i]? = some (grad.getD (dataId m.sorted y) 0)) := by
  by_cases h2 : y ∈ outs
  · obtain ⟨i, h, a, b, -⟩ := given_at ho h2
    exact .inr ⟨i, a, by rw [b, hB.outs i y h a b]⟩
  · have h3 := (mem_nonOutputs P).2 ⟨hy, h2⟩
    exact .inl ⟨h3, hB.own y h3⟩

theorem BoundG.inj (P : Plan e m ins outs) {grad : List Nat} (hB : BoundG m b outs gt grad)
    (hC : Compiled e m w b) (ho : Given e m w b outs gt) (hn : gt.Nodup) {x : Nat} (hx : x ∈ dataOf m) {y : Nat} (hy : y ∈ dataOf m)
    (hne : x ≠ y) : grad.getD (dataId m.sorted x) 0 ≠ grad.getD (dataId m.sorted y) 0 := by
  intro heq
  rcases hB.cases P ho hx with ⟨a, ha⟩ | ⟨i, a, ha⟩
  · have hp : grad.getD (dataId m.sorted x) 0 ∈ privates m b := ha ▸ mem_privates_grad a
    rcases hB.cases P ho hy with ⟨c, hc⟩ | ⟨j, -, hj⟩
    · rw [ha, hc] at heq
      exact hne (gradOf_inj hC.distinct a c heq)
    · exact ho.outside _ (List.mem_of_getElem? hj) (heq ▸ hp)
  · rcases hB.cases P ho hy with ⟨c, hc⟩ | ⟨j, hj', hj⟩
    · exact ho.outside _ (List.mem_of_getElem? ha) (by rw [heq, hc]; exact mem_privates_grad c)
    · have hij : i = j := by
        obtain ⟨l1, e1⟩ := List.getElem?_eq_some_iff.1 ha
        obtain ⟨l2, e2⟩ := List.getElem?_eq_some_iff.1 hj
        exact (List.Nodup.getElem_inj_iff hn).1 (by rw [e1, e2, heq])
      subst hij
      rw [a] at hj'
      exact hne (Option.some.inj hj')

theorem privates_congr2 {mem grad : List Nat} (hB : Bound m b ins outs it ot mem) (hG : BoundG m b outs gt grad)
    (layers : List Cpu) : privates m ⟨mem, grad, layers⟩ = privates m b := by
  unfold privates
  congr 1
  · exact List.map_congr_left fun y hy => hB.own y hy
  · exact List.map_congr_left fun y hy => hG.own y hy

section Backward

variable {params : Nat → Nat}
  {fn : (x : Nat) → (Fin (params x) → ℝ) → Args (fun j : Fin (e.argsOf x).length => phShape e (e.argsOf x)[j]) →
      Elems (phShape e x)}
  {θ : (x : Nat) → Fin (params x) → ℝ}
  (K : (x : Nat) → Contract (fun j : Fin (e.argsOf x).length => phShape e (e.argsOf x)[j]) (phShape e x) (params x) (fn x) (θ x))
  {v gout : (x : Nat) → Elems (phShape e x)}
  {bk : (x : Nat) → Elems (phShape e x) → Args (fun j : Fin (e.argsOf x).length => phShape e (e.argsOf x)[j])}
  {pk : (x : Nat) → Elems (phShape e x) → Fin (params x) → ℝ}

theorem baseFrom_zero (ov : Nat → Prop) (base : (x : Nat) → Elems (phShape e x)) (y : Nat) :
    baseFrom e m ov base 0 y = keptBase ov e m base y := by
  unfold baseFrom keptBase
  by_cases h : ∃ x, Replaces ov e m x y
  · rw [if_pos h, if_pos (h.imp fun x hx => ⟨hx, Nat.zero_le _⟩)]
  · rw [if_neg h, if_neg fun ⟨x, hx, _⟩ => h ⟨x, hx⟩]

theorem receivedFrom_zero (ov : Nat → Prop) (G : (x : Nat) → Elems (phShape e x)) (y i : Nat) :
    receivedFrom e m ov bk 0 G y i = (netOf e m params fn).received (kept ov e m bk) G y i := by
  unfold receivedFrom Net.received
  refine Finset.sum_congr rfl fun x _ => ?_
  have hiff : (0 ≤ rankOf e m x ∧ ∀ x', Replaces ov e m x' y → 0 ≤ rankOf e m x' → rankOf e m x ≤ rankOf e m x') ↔ Survives ov e m x y :=
    ⟨fun h x' hx' => h.2 x' hx' (Nat.zero_le _), fun h => ⟨Nat.zero_le _, fun x' hx' _ => h x' hx'⟩⟩
  by_cases hs : Survives ov e m x y
  · rw [if_pos (hiff.2 hs)]
    refine Finset.sum_congr rfl fun j _ => ?_
    by_cases hj : (e.argsOf x)[j] = y
    · rw [if_pos hj]
      refine Eq.trans ?_ (if_pos hj).symm
      have : kept ov e m bk x (G x) j = bk x (G x) j := if_pos (by rw [hj]; exact hs)
      exact congrArg (fun u => entry u i) this.symm
    · rw [if_neg hj]; exact (if_neg hj).symm
  · rw [if_neg fun h => hs (hiff.1 h)]
    refine (Finset.sum_eq_zero fun j _ => ?_).symm
    by_cases hj : (e.argsOf x)[j] = y
    · refine (if_pos hj).trans ?_
      have : kept ov e m bk x (G x) j = 0 := if_neg (by rw [hj]; exact hs)
      refine (congrArg (fun u => entry u i) this).trans ?_
      unfold entry
      split <;> rfl
    · exact if_neg hj

theorem backward_run (P : Plan e m ins outs) (hs : Sound e m ins outs) (hC : Compiled e m w b)
    (hA : AfterForward K m w b v bk pk) (hv : (netOf e m params fn).Evaluates θ v) {env : Nat → Env}
    (hi : Given e m w b ins it) (hiv : Carry e w ins it v) (ho : Given e m w b outs ot) (hov : Carry e w outs ot v)
    (hg : Given e m w b outs gt) (hgv : Carry e w outs gt gout) (hn : gt.Nodup)
    (hgi : ∀ h ∈ gt, h ∉ it ∧ h ∉ ot) :
    ∃ w' b' G, m.backward env it ot gt w = (.ok (), w') ∧ Compiled e m w' b' ∧ SameOwner m b b' ∧
      AfterForward K m w' b' v bk pk ∧ Gradients m w' b' G ∧ Carry e w' outs gt G ∧
      (∀ y ∈ dataOf m, (netOf e m params fn).Accumulates (kept (fun x => (K x).overwrites) e m bk)
        (keptBase (fun x => (K x).overwrites) e m fun y => if y ∈ outs then gout y else 0) G y) ∧
      ParamGradients e m b' pk G ∧ Untouched m b w w' gt := by
  obtain ⟨w1, hz1, hz2, hz3, hz4⟩ := zero_loop P hC
  obtain ⟨mem1, mem2, hb1, hb2, hB⟩ := bind_io P hs hC.mem_len hi.length ho.length
  obtain ⟨grad, hb3, hG⟩ := bind_g P hs hC.grad_len hg.length
  have hgg : ∀ y ∈ dataOf m, ∀ z ∈ dataOf m, y ≠ z →
      grad.getD (dataId m.sorted y) 0 ≠ grad.getD (dataId m.sorted z) 0 := fun y hy z hz hne =>
    hG.inj P hC hg hn hy hz hne
  have hgm : ∀ y ∈ dataOf m, ∀ z ∈ dataOf m, grad.getD (dataId m.sorted y) 0 ≠ mem2.getD (dataId m.sorted z) 0 :=
    fun y hy z hz heq => by
      rcases hG.cases P hg hy with ⟨a, ha⟩ | ⟨i, a, ha⟩
      · have hp : grad.getD (dataId m.sorted y) 0 ∈ privates m b := ha ▸ mem_privates_grad a
        rcases hB.cases P hi ho hz with ⟨c, hc⟩ | ⟨j, -, hj⟩ | ⟨j, -, hj⟩
        · exact mem_ne_grad hC.distinct c a (by rw [← hc, ← heq, ha])
        · exact hi.outside _ (List.mem_of_getElem? hj) (heq ▸ hp)
        · exact ho.outside _ (List.mem_of_getElem? hj) (heq ▸ hp)
      · rcases hB.cases P hi ho hz with ⟨c, hc⟩ | ⟨j, -, hj⟩ | ⟨j, -, hj⟩
        · exact hg.outside _ (List.mem_of_getElem? ha) (by rw [heq, hc]; exact mem_privates_mem c)
        · exact (hgi _ (List.mem_of_getElem? ha)).1 (heq ▸ List.mem_of_getElem? hj)
        · exact (hgi _ (List.mem_of_getElem? ha)).2 (heq ▸ List.mem_of_getElem? hj)
  have hfar : ∀ h, h ∉ privates m b → w1.store[h]? = w.store[h]? := fun h hp =>
    hz4 h fun y hy heq => hp (heq ▸ mem_privates_grad hy)
  have hvals : ∀ y ∈ dataOf m, Holds w1.store (v y) (mem2.getD (dataId m.sorted y) 0) := fun y hy => by
    unfold Holds
    rcases hB.cases P hi ho hy with ⟨a, ha⟩ | ⟨i, a, ha⟩ | ⟨i, a, ha⟩
    · rw [ha, hz4 _ fun z hz heq => mem_ne_grad hC.distinct a hz heq]
      exact hA.mem y a
    · rw [hfar _ (hi.outside _ (List.mem_of_getElem? ha))]
      exact hiv i y _ a ha
    · rw [hfar _ (ho.outside _ (List.mem_of_getElem? ha))]
      exact hov i y _ a ha
  let base : (y : Nat) → Elems (phShape e y) := fun y => if y ∈ outs then gout y else 0
  have hbase : ∀ y ∈ dataOf m, Holds w1.store (base y) (grad.getD (dataId m.sorted y) 0) := fun y hy => by
    rcases hG.cases P hg hy with ⟨a, ha⟩ | ⟨i, a, ha⟩
    · have : base y = 0 := if_neg ((mem_nonOutputs P).1 a).2
      rw [ha, this]
      exact hz3 y a
    · have : base y = gout y := if_pos (List.mem_of_getElem? a)
      rw [this]
      unfold Holds
      rw [hfar _ (hg.outside _ (List.mem_of_getElem? ha))]
      exact hgv i y _ a ha
  have hlast : ∀ x ∈ dataOf m, ∀ c, e.callOf x = some c → pos m c < (sortedOps m.sorted).length := fun x hx c hc =>
    List.idxOf_lt_length_iff.2 (P.make x hx c hc).1
  have hrank : ∀ x ∈ dataOf m, (e.callOf x).isSome → ¬ (sortedOps m.sorted).length ≤ rankOf e m x := fun x hx hc => by
    obtain ⟨d, hd⟩ := Option.isSome_iff_exists.1 hc
    rw [rank_some hd]
    exact Nat.not_le.2 (hlast x hx d hd)
  have hrest : ∀ G y i, receivedFrom e m (fun x => (K x).overwrites) bk (sortedOps m.sorted).length G y i = 0 := fun G y i => by
    refine Finset.sum_eq_zero fun x hx => if_neg fun h => ?_
    obtain ⟨h1, h2⟩ := List.mem_filter.1 (List.mem_toFinset.1 hx)
    exact hrank x h1 h2 h.1
  have hrest' : ∀ y, baseFrom e m (fun x => (K x).overwrites) base (sortedOps m.sorted).length y = base y := fun y =>
    if_neg fun ⟨x, h, hr⟩ => hrank x h.1 h.2.1 hr
  have h0 : Bwd K m mem2 grad v bk pk base ⟨w1.store, some ⟨mem2, grad, b.layers⟩⟩ (sortedOps m.sorted).length
      ⟨w1.store, some ⟨mem2, grad, b.layers⟩⟩ b.layers base := by
    refine ⟨rfl, hC.layers_len, fun x hx c hc => ?_, hvals, hbase, fun y hy i => by rw [hrest, hrest', add_zero], fun _ _ => rfl⟩
    obtain ⟨l, h1, h2⟩ := hA.layers x hx (by rw [hc]; rfl)
    rw [layerAt_some hc] at h1
    exact ⟨l, h1, h2, fun h => absurd (hlast x hx c hc) (Nat.not_lt.2 h)⟩
  obtain ⟨w', layers', G, hrun, hF⟩ := backward_loop K P hB.len hG.len hv hgm hgg (base := base) h0
  have hpriv := privates_congr2 hB hG layers'
  refine ⟨w', ⟨mem2, grad, layers'⟩, G, ?_, ⟨hF.backend, hB.len, hG.len, hF.len, fun y hy => ?_, fun y hy => ?_, ?_⟩,
    hpriv, ⟨fun y hy => hF.vals y (List.mem_filter.1 hy).1, fun x hx hc => ?_⟩, fun y hy => hF.grads y (List.mem_filter.1 hy).1,
    ?_, fun y hy i => ?_, fun x hx hc => ?_, ?_⟩
  · unfold Model.backward
    have hnb : needBackend w = (.ok (), w) := by unfold needBackend; rw [hC.backend]
    rw [M.bind_ok hnb, M.bind_ok hz1, P.gins, P.gouts,
      M.bind_ok (rebind_ok (b' := ⟨mem1, b.grad, b.layers⟩) hz2 (by rw [hb1]; rfl)),
      M.bind_ok (rebind_ok (b := ⟨mem1, b.grad, b.layers⟩) (b' := ⟨mem2, b.grad, b.layers⟩) rfl (by
        simp only; rw [hb2]; rfl)),
      M.bind_ok (rebind_ok (b := ⟨mem2, b.grad, b.layers⟩) (b' := ⟨mem2, grad, b.layers⟩) rfl (by
        simp only; rw [hb3]; rfl))]
    exact hrun
  · exact ⟨List.ofFn (v y), hF.vals y (List.mem_filter.1 hy).1, by simp⟩
  · exact ⟨List.ofFn (G y), hF.grads y (List.mem_filter.1 hy).1, by simp⟩
  · rw [hpriv]; exact hC.distinct
  · obtain ⟨c, hc⟩ := Option.isSome_iff_exists.1 hc
    obtain ⟨l, h1, h2, -⟩ := hF.layer x hx c hc
    exact ⟨l, by rw [layerAt_some hc]; exact h1, h2⟩
  · intro i y h hy hh
    rw [← hG.outs i y h hy hh]
    exact hF.grads y (P.outs_mem y (List.mem_of_getElem? hy))
  · rw [hF.acc y hy i, baseFrom_zero, receivedFrom_zero]
  · obtain ⟨c, hc⟩ := Option.isSome_iff_exists.1 hc
    obtain ⟨l, h1, -, h2⟩ := hF.layer x hx c hc
    exact ⟨l, by rw [layerAt_some hc]; exact h1, h2 (Nat.zero_le _)⟩
  · intro h hp hnot
    refine (hF.frame h fun y hy heq => ?_).trans (hfar h hp)
    rcases hG.cases P hg hy with ⟨a, ha⟩ | ⟨i, a, ha⟩
    · exact hp (by rw [heq, ha]; exact mem_privates_grad a)
    · exact hnot (heq ▸ List.mem_of_getElem? ha)

end Backward

end DW.BackendL
