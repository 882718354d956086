import Verif.Lemmas.BackendRun
/-! # The backward loop of the backend -/

set_option autoImplicit false

namespace DW.BackendL

open DW DW.Spec DW.GraphL DW.Props.GraphP DW.Props.ElementwiseP DW.NetL

variable {e : Expr} {ins outs it ot gt : List Nat} {m : Model} {w : World} {b : Backend}

theorem added_holds {store store' : List Buf} {d : Nat → Nat → ℝ} (hA : Added store store' d) {s : Shape} {A : Elems s} {h : Nat}
    (hh : Holds store A h) : Holds store' (fun i => A i + d h i : Elems s) h := by
  obtain ⟨b', h1, h2, h3, h4⟩ := hA.2 h _ hh
  unfold Holds
  rw [h1]
  obtain ⟨sh, vals⟩ := b'
  simp only at h2 h3 h4
  subst h2
  congr 2
  refine List.ext_getElem? fun k => ?_
  by_cases hk : k < size sh
  · rw [h4 k (A ⟨k, hk⟩) (by simp [hk])]
    simp [hk]
  · rw [List.getElem?_eq_none (by rw [h3]; simpa using hk), List.getElem?_eq_none (by simpa using hk)]

theorem added_same {store store' : List Buf} {d : Nat → Nat → ℝ} (hA : Added store store' d) {h : Nat} (hd : ∀ k, d h k = 0) :
    store'[h]? = store[h]? := by
  by_cases hh : h < store.length
  · obtain ⟨⟨sh, vals⟩, h1, h2, h3, h4⟩ := hA.2 h store[h] (List.getElem?_eq_getElem hh)
    rw [h1, List.getElem?_eq_getElem hh]
    simp only at h2 h3 h4
    congr 1
    have : vals = store[h].vals := by
      refine List.ext_getElem? fun k => ?_
      by_cases hk : k < store[h].vals.length
      · rw [h4 k _ (List.getElem?_eq_getElem hk), hd, add_zero, List.getElem?_eq_getElem hk]
      · rw [List.getElem?_eq_none (by omega), List.getElem?_eq_none (by omega)]
    rw [this, h2]
  · rw [List.getElem?_eq_none (by rw [hA.1]; omega), List.getElem?_eq_none (by omega)]

section Step

variable {params : Nat → Nat}
  {fn : (x : Nat) → (Fin (params x) → ℝ) → Args (fun j : Fin (e.argsOf x).length => phShape e (e.argsOf x)[j]) →
      Elems (phShape e x)}
  {θ : (x : Nat) → Fin (params x) → ℝ}
  (K : (x : Nat) → Contract (fun j : Fin (e.argsOf x).length => phShape e (e.argsOf x)[j]) (phShape e x) (params x) (fn x) (θ x))
  {v : (x : Nat) → Elems (phShape e x)}
  {bk : (x : Nat) → Elems (phShape e x) → Args (fun j : Fin (e.argsOf x).length => phShape e (e.argsOf x)[j])}
  {pk : (x : Nat) → Elems (phShape e x) → Fin (params x) → ℝ}

theorem backwardOp_eq (P : Plan e m ins outs) {mem grad : List Nat} (hmem : mem.length = (dataOf m).length)
    (hgrad : grad.length = (dataOf m).length) {store : List Buf}
    {x c : Nat} (hx : x ∈ dataOf m) (hc : e.callOf x = some c) (hfn : v x = fn x (θ x) (argv v x))
    {ev : Env} {l : Cpu} (hl : (K x).After (argv v x) (bk x) (pk x) l)
    {G : (x : Nat) → Elems (phShape e x)}
    (hv : ∀ y ∈ dataOf m, Holds store (v y : Elems (phShape e y)) (mem.getD (dataId m.sorted y) 0))
    (hG : ∀ y ∈ dataOf m, Holds store (G y : Elems (phShape e y)) (grad.getD (dataId m.sorted y) 0))
    (hgm : ∀ y ∈ dataOf m, ∀ z ∈ dataOf m, grad.getD (dataId m.sorted y) 0 ≠ mem.getD (dataId m.sorted z) 0)
    (hgg : ∀ y ∈ dataOf m, ∀ z ∈ dataOf m, y ≠ z → grad.getD (dataId m.sorted y) 0 ≠ grad.getD (dataId m.sorted z) 0) :
    ∃ l' store₁ store', backwardOp ev (inIds m.graph m.sorted c) (outIds m.graph m.sorted c) mem grad l store = .ok (l', store') ∧
      (K x).After (argv v x) (bk x) (pk x) l' ∧ l'.grads = List.ofFn (pk x (G x)) ∧
      Cleared (K x).overwrites ((e.argsOf x).map fun a => grad.getD (dataId m.sorted a) 0) store store₁ ∧
      Added store₁ store' fun h k => ∑ j : Fin (e.argsOf x).length,
        if grad.getD (dataId m.sorted (e.argsOf x)[j]) 0 = h then entry (bk x (G x) j) k else 0 := by
  obtain ⟨-, hin, hout, hmade⟩ := P.make x hx c hc
  obtain ⟨l1, hu, ha1, hg1⟩ := (K x).update hl (G x)
  have hargx : ∀ a ∈ e.argsOf x, a ≠ x := fun a ha h => by
    have := P.lt x a ha; omega
  obtain ⟨l2, store₁, store', hb, ha2, hg2, hcl, hadd⟩ := (K x).backward ha1 (G x)
    ((e.argsOf x).map fun a => grad.getD (dataId m.sorted a) 0) store (by simp) (fun j => by
      refine ⟨G (e.argsOf x)[j], ?_⟩
      simp only [Fin.getElem_fin, List.getElem_map]
      exact hG _ (hmade _ (List.getElem_mem j.isLt)).1)
  refine ⟨l2, store₁, store', ?_, ha2, hg2.trans hg1, hcl, hadd.congr fun h k => ?_⟩
  · unfold backwardOp
    rw [hin, hout, gather_eq P hgrad (fun a ha => (hmade a ha).1) (fun a => ⟨phShape e a, List.ofFn (G a)⟩)
      (fun a ha => hG a (hmade a ha).1), Out.bind_ok]
    simp only
    rw [gather_eq P hmem (fun a ha => (hmade a ha).1) (fun a => ⟨phShape e a, List.ofFn (v a)⟩)
      (fun a ha => hv a (hmade a ha).1), Out.bind_ok]
    have h2 := gather_eq P hmem (phs := [x]) (by simpa using hx) (fun y => ⟨phShape e y, List.ofFn (v y)⟩)
      (store := store) (by simpa [Holds] using hv x hx)
    have h3 := gather_eq P hgrad (phs := [x]) (by simpa using hx) (fun y => ⟨phShape e y, List.ofFn (G y)⟩)
      (store := store) (by simpa [Holds] using hG x hx)
    simp only [List.map_cons, List.map_nil] at h2 h3
    simp only [h2, h3, Out.bind_ok]
    have h4 : bufs (argv v x) = (e.argsOf x).map fun a => ⟨phShape e a, List.ofFn (v a)⟩ :=
      bufs_map (e := e) v (e.argsOf x)
    rw [← h4, hu, Out.bind_ok, if_neg]
    · rw [hfn]; exact hb
    · intro h
      rw [List.any_eq_true] at h
      obtain ⟨g, hg, hg'⟩ := h
      obtain ⟨a, ha, rfl⟩ := List.mem_map.1 hg
      simp only [decide_eq_true_eq, List.mem_singleton] at hg'
      rcases hg' with h | h | h
      · obtain ⟨a', ha', h⟩ := List.mem_map.1 h
        exact hgm a (hmade a ha).1 a' (hmade a' ha').1 h.symm
      · exact hgm a (hmade a ha).1 x hx h
      · exact hgg a (hmade a ha).1 x hx (hargx a ha) h
  · refine Finset.sum_congr rfl fun j _ => ?_
    simp only [Fin.getElem_fin, List.getElem_map]

theorem rank_some {x c : Nat} (h : e.callOf x = some c) : rankOf e m x = pos m c := by rw [rankOf, h]; rfl

open Classical in
/-- What the layers from position `k` on pass back to `y`, as far as they have not replaced it. -/
noncomputable def receivedFrom (e : Expr) (m : Model) (ov : Nat → Prop)
    (bk : (x : Nat) → Elems (phShape e x) → Args (fun j : Fin (e.argsOf x).length => phShape e (e.argsOf x)[j]))
    (k : Nat) (G : (x : Nat) → Elems (phShape e x)) (y i : Nat) : ℝ :=
  ∑ x ∈ ((sortedData m.sorted).filter fun x => (e.callOf x).isSome).toFinset,
    if k ≤ rankOf e m x ∧ ∀ x', Replaces ov e m x' y → k ≤ rankOf e m x' → rankOf e m x ≤ rankOf e m x'
    then ∑ j : Fin (e.argsOf x).length, if (e.argsOf x)[j] = y then entry (bk x (G x) j) i else 0 else 0

open Classical in
/-- The gradient `y` had before, unless one of the layers from position `k` on has replaced it. -/
noncomputable def baseFrom (e : Expr) (m : Model) (ov : Nat → Prop) (base : (x : Nat) → Elems (phShape e x)) (k y : Nat) :
    Elems (phShape e y) :=
  if ∃ x, Replaces ov e m x y ∧ k ≤ rankOf e m x then 0 else base y

/-- The state when the layers from position `k` on have run backward. -/
structure Bwd (m : Model) (mem grad : List Nat) (v : (x : Nat) → Elems (phShape e x))
    (bk : (x : Nat) → Elems (phShape e x) → Args (fun j : Fin (e.argsOf x).length => phShape e (e.argsOf x)[j]))
    (pk : (x : Nat) → Elems (phShape e x) → Fin (params x) → ℝ) (base : (x : Nat) → Elems (phShape e x))
    (w₀ : World) (k : Nat) (w : World) (layers : List Cpu) (G : (x : Nat) → Elems (phShape e x)) : Prop where
  backend : w.backend = some ⟨mem, grad, layers⟩
  len : layers.length = (sortedOps m.sorted).length
  layer : ∀ x ∈ dataOf m, ∀ c, e.callOf x = some c → ∃ l, layers[pos m c]? = some l ∧
    (K x).After (argv v x) (bk x) (pk x) l ∧ (k ≤ pos m c → l.grads = List.ofFn (pk x (G x)))
  vals : ∀ y ∈ dataOf m, Holds w.store (v y : Elems (phShape e y)) (mem.getD (dataId m.sorted y) 0)
  grads : ∀ y ∈ dataOf m, Holds w.store (G y : Elems (phShape e y)) (grad.getD (dataId m.sorted y) 0)
  acc : ∀ y ∈ dataOf m, ∀ i, G y i = baseFrom e m (fun x => (K x).overwrites) base k y i +
    receivedFrom e m (fun x => (K x).overwrites) bk k G y i
  frame : ∀ h, (∀ y ∈ dataOf m, h ≠ grad.getD (dataId m.sorted y) 0) → w.store[h]? = w₀.store[h]?

theorem backward_loop (P : Plan e m ins outs) {mem grad : List Nat} (hmem : mem.length = (dataOf m).length)
    (hgrad : grad.length = (dataOf m).length)
    (hv : (netOf e m params fn).Evaluates θ v) {env : Nat → Env}
    (hgm : ∀ y ∈ dataOf m, ∀ z ∈ dataOf m, grad.getD (dataId m.sorted y) 0 ≠ mem.getD (dataId m.sorted z) 0)
    (hgg : ∀ y ∈ dataOf m, ∀ z ∈ dataOf m, y ≠ z → grad.getD (dataId m.sorted y) 0 ≠ grad.getD (dataId m.sorted z) 0)
    {base : (x : Nat) → Elems (phShape e x)}
    {w : World} {layers : List Cpu} (h0 : Bwd K m mem grad v bk pk base w (sortedOps m.sorted).length w layers base) :
    ∃ w' layers' G, runAll ((sortedOps m.sorted).zipIdx.reverse.map fun p => do
        let w ← M.get
        onLayer p.2 (backwardOp (env p.1) (inIds m.graph m.sorted p.1) (outIds m.graph m.sorted p.1)
          ((w.backend.map Backend.mem).getD []) ((w.backend.map Backend.grad).getD []))) w = (.ok (), w') ∧
      Bwd K m mem grad v bk pk base w 0 w' layers' G := by
  have key := runAll_inv (I := fun k w' => ∃ layers' G, Bwd K m mem grad v bk pk base w ((sortedOps m.sorted).length - k) w' layers' G)
    ((sortedOps m.sorted).zipIdx.reverse.map fun p => (do
        let w ← M.get
        onLayer p.2 (backwardOp (env p.1) (inIds m.graph m.sorted p.1) (outIds m.graph m.sorted p.1)
          ((w.backend.map Backend.mem).getD []) ((w.backend.map Backend.grad).getD [])) : M World Unit)) (w := w) ?_
    ⟨layers, base, by simpa using h0⟩
  · obtain ⟨w', h1, layers', G, h2⟩ := key
    exact ⟨w', layers', G, h1, by simpa using h2⟩
  · intro k hk w1 ⟨ls, G, I⟩
    simp only [List.length_map, List.length_reverse, List.length_zipIdx] at hk
    obtain ⟨q, hq⟩ : ∃ q, q + (k + 1) = (sortedOps m.sorted).length := ⟨(sortedOps m.sorted).length - (k + 1), by omega⟩
    have hq1 : (sortedOps m.sorted).length - k = q + 1 := by omega
    have hq2 : (sortedOps m.sorted).length - (k + 1) = q := by omega
    have hql : q < (sortedOps m.sorted).length := by omega
    rw [hq1] at I
    rw [hq2]
    obtain ⟨x, hx, hc⟩ := P.op _ (List.getElem_mem hql)
    generalize hce : (sortedOps m.sorted)[q] = c at *
    have hpos : pos m c = q := by
      rw [← hce]; exact P.ops_nodup.idxOf_getElem q hql
    have hmk := P.make x hx c hc
    have hsome : (e.callOf x).isSome := by rw [hc]; rfl
    have hargs : ∀ a ∈ e.argsOf x, a ≠ x := fun a ha h => by
      have := P.lt x a ha; omega
    have hsame : ∀ y ∈ dataOf m, ∀ d, e.callOf y = some d → pos m d = q → y = x := fun y hy d hd h => by
      have h3 : (sortedOps m.sorted).idxOf d = (sortedOps m.sorted).idxOf c := h.trans hpos.symm
      have : d = c := (List.idxOf_inj (P.make y hy d hd).1).1 h3
      subst this
      exact P.inj y x d hd hc
    obtain ⟨l, hl, haf, -⟩ := I.layer x hx c hc
    obtain ⟨l', store₁, store', hop, haft, hgr, hcl, hadd⟩ := backwardOp_eq K P hmem hgrad hx hc
      (hv x (mem_made.2 ⟨hx, hsome⟩)) haf I.vals I.grads hgm hgg
    classical
    let G₁ : (y : Nat) → Elems (phShape e y) := fun y => if (K x).overwrites ∧ y ∈ e.argsOf x then 0 else G y
    have hgrad_ne : ∀ y ∈ dataOf m, y ∉ e.argsOf x →
        grad.getD (dataId m.sorted y) 0 ∉ (e.argsOf x).map fun a => grad.getD (dataId m.sorted a) 0 := fun y hy hn h => by
      obtain ⟨a, ha, heq⟩ := List.mem_map.1 h
      exact hgg a (hmk.2.2.2 a ha).1 y hy (fun h => hn (h ▸ ha)) heq
    have hG₁ : ∀ y ∈ dataOf m, Holds store₁ (G₁ y) (grad.getD (dataId m.sorted y) 0) := fun y hy => by
      unfold Holds
      by_cases hy' : (K x).overwrites ∧ y ∈ e.argsOf x
      · have : G₁ y = 0 := if_pos hy'
        rw [(hcl _).1 ⟨hy'.1, List.mem_map_of_mem hy'.2⟩, I.grads y hy, this, Option.map_some, Buf.put, List.length_ofFn]
        congr 2
        refine List.ext_getElem (by simp) fun i h1 h2 => by simp
      · have : G₁ y = G y := if_neg hy'
        rw [this, (hcl _).2 fun h => hy' ⟨h.1, ?_⟩]
        · exact I.grads y hy
        · by_contra hn
          exact hgrad_ne y hy hn h.2
    set δ : Nat → Nat → ℝ := fun y i => ∑ j : Fin (e.argsOf x).length,
      if (e.argsOf x)[j] = y then entry (bk x (G x) j) i else 0 with hδ
    have hδ0 : ∀ y, y ∉ e.argsOf x → ∀ i, δ y i = 0 := fun y hy i => by
      refine Finset.sum_eq_zero fun j _ => if_neg fun (h : (e.argsOf x)[j] = y) => hy (h ▸ List.getElem_mem j.isLt)
    have hδh : ∀ y ∈ dataOf m, ∀ i, (∑ j : Fin (e.argsOf x).length,
        if grad.getD (dataId m.sorted (e.argsOf x)[j]) 0 = grad.getD (dataId m.sorted y) 0 then entry (bk x (G x) j) i else 0) = δ y i :=
      fun y hy i => by
        refine Finset.sum_congr rfl fun j _ => ?_
        have hj := (hmk.2.2.2 _ (List.getElem_mem j.isLt)).1
        by_cases h : (e.argsOf x)[j] = y
        · rw [if_pos h, if_pos (by rw [h])]
        · rw [if_neg h]; exact if_neg (hgg _ hj y hy h)
    let G' : (y : Nat) → Elems (phShape e y) := fun y i => G₁ y i + δ y i
    have hG' : ∀ y, y ∉ e.argsOf x → G' y = G y := fun y hy => by
      funext i
      show G₁ y i + δ y i = G y i
      have : G₁ y = G y := if_neg fun h => hy h.2
      rw [hδ0 y hy, add_zero, this]
    -- layers that have run keep their gradients
    have hkeep : ∀ y ∈ dataOf m, ∀ d, e.callOf y = some d → q ≤ pos m d → G' y = G y := fun y hy d hd hle => by
      refine hG' y fun ha => ?_
      have := (hmk.2.2.2 y ha).2 d hd
      have h2 : pos m d < pos m c := this
      omega
    refine ⟨⟨store', some ⟨mem, grad, ls.set q l'⟩⟩, ?_, ls.set q l', G',
      ⟨rfl, by rw [List.length_set]; exact I.len, ?_, ?_, ?_, ?_, ?_⟩⟩
    · rw [List.getElem_map, List.getElem_reverse, List.getElem_zipIdx, M.bind_ok (M.get_apply w1)]
      have hidx : (sortedOps m.sorted).zipIdx.length - 1 - k = q := by rw [List.length_zipIdx]; omega
      simp only [hidx, hce, Nat.zero_add, I.backend, Option.map_some, Option.getD_some]
      unfold onLayer
      rw [I.backend]
      simp only
      rw [← hpos, hl]
      simp only
      rw [hop]
    · intro y hy d hd
      by_cases hdq : pos m d = q
      · have hyx := hsame y hy d hd hdq
        subst hyx
        refine ⟨l', ?_, haft, fun _ => ?_⟩
        · rw [hdq, List.getElem?_set_self (by rw [I.len]; exact hql)]
        · rw [hkeep y hy d hd (by omega)]; exact hgr
      · obtain ⟨l2, h1, h2, h3⟩ := I.layer y hy d hd
        refine ⟨l2, ?_, h2, fun hle => ?_⟩
        · rw [List.getElem?_set_ne (fun h => hdq h.symm), h1]
        · rw [hkeep y hy d hd hle]; exact h3 (by omega)
    · intro y hy
      refine ((added_same hadd fun i => ?_).trans ((hcl _).2 fun h => ?_)).trans (I.vals y hy)
      · refine Finset.sum_eq_zero fun j _ => if_neg ?_
        exact hgm _ (hmk.2.2.2 _ (List.getElem_mem j.isLt)).1 y hy
      · obtain ⟨a, ha, heq⟩ := List.mem_map.1 h.2
        exact hgm a (hmk.2.2.2 a ha).1 y hy heq
    · intro y hy
      have h1 := added_holds hadd (hG₁ y hy)
      have h2 : (fun i => G₁ y i + ∑ j : Fin (e.argsOf x).length,
          if grad.getD (dataId m.sorted (e.argsOf x)[j]) 0 = grad.getD (dataId m.sorted y) 0 then entry (bk x (G x) j) i else 0
          : Elems (phShape e y)) = G' y := funext fun i => by
        show _ = G₁ y i + δ y i
        rw [hδh y hy i]
      rw [← h2]
      exact h1
    · intro y hy i
      show G₁ y i + δ y i = _
      have hxm : x ∈ ((sortedData m.sorted).filter fun x => (e.callOf x).isSome).toFinset :=
        List.mem_toFinset.2 (List.mem_filter.2 ⟨hx, hsome⟩)
      have hrx : rankOf e m x = q := (rank_some hc).trans hpos
      have honly : ∀ x', Replaces (fun x => (K x).overwrites) e m x' y → rankOf e m x' = q → x' = x := fun x' hx' hr => by
        obtain ⟨d, hd⟩ := Option.isSome_iff_exists.1 hx'.2.1
        exact hsame x' hx'.1 d hd (by rw [← rank_some hd]; exact hr)
      have hself : (q ≤ rankOf e m x ∧ ∀ x', Replaces (fun x => (K x).overwrites) e m x' y → q ≤ rankOf e m x' →
          rankOf e m x ≤ rankOf e m x') := ⟨hrx.ge, fun x' _ h => hrx.le.trans h⟩
      have hkeepz : ∀ z ∈ (((sortedData m.sorted).filter fun x => (e.callOf x).isSome).toFinset).erase x,
          rankOf e m z ≠ q ∧ (q ≤ rankOf e m z → G' z = G z) := fun z hz => by
        obtain ⟨hzx, hzm⟩ := Finset.mem_erase.1 hz
        obtain ⟨hz1, hz2⟩ := List.mem_filter.1 (List.mem_toFinset.1 hzm)
        obtain ⟨d, hd⟩ := Option.isSome_iff_exists.1 hz2
        rw [rank_some hd]
        exact ⟨fun h => hzx (hsame z hz1 d hd h), hkeep z hz1 d hd⟩
      unfold receivedFrom
      rw [← Finset.add_sum_erase _ _ hxm, if_pos hself, hG' x fun h => hargs x h rfl]
      by_cases hy' : (K x).overwrites ∧ y ∈ e.argsOf x
      · have hrep : Replaces (fun x => (K x).overwrites) e m x y := ⟨hx, hsome, hy'.1, hy'.2⟩
        have h1 : G₁ y = 0 := if_pos hy'
        have h2 : baseFrom e m (fun x => (K x).overwrites) base q y = 0 := if_pos ⟨x, hrep, hrx.ge⟩
        rw [h1, h2]
        refine congrArg (fun u => (0 : Elems (phShape e y)) i + u) (Eq.trans (add_zero _).symm ?_)
        refine congrArg (fun u => δ y i + u) (Finset.sum_eq_zero fun z hz => if_neg fun h => ?_).symm
        have := h.2 x hrep hrx.ge
        have hne := (hkeepz z hz).1
        have := h.1
        omega
      · have h1 : G₁ y = G y := if_neg hy'
        have hnot : ¬ Replaces (fun x => (K x).overwrites) e m x y := fun h => hy' ⟨h.2.2.1, h.2.2.2⟩
        have hup : ∀ x', Replaces (fun x => (K x).overwrites) e m x' y → (q ≤ rankOf e m x' ↔ q + 1 ≤ rankOf e m x') := fun x' hx' => by
          have : rankOf e m x' ≠ q := fun h => hnot (honly x' hx' h ▸ hx')
          omega
        have h2 : baseFrom e m (fun x => (K x).overwrites) base (q + 1) y = baseFrom e m (fun x => (K x).overwrites) base q y := by
          unfold baseFrom
          have : (∃ x', Replaces (fun x => (K x).overwrites) e m x' y ∧ q + 1 ≤ rankOf e m x') ↔
              ∃ x', Replaces (fun x => (K x).overwrites) e m x' y ∧ q ≤ rankOf e m x' :=
            exists_congr fun x' => and_congr_right fun h => (hup x' h).symm
          simp only [this]
        rw [h1, I.acc y hy i, h2, add_assoc]
        congr 1
        unfold receivedFrom
        rw [← Finset.add_sum_erase _ _ hxm, if_neg (fun h => by have := h.1; omega), zero_add, add_comm]
        congr 1
        refine Finset.sum_congr rfl fun z hz => ?_
        obtain ⟨hne, hkz⟩ := hkeepz z hz
        have hiff : (q + 1 ≤ rankOf e m z ∧ ∀ x', Replaces (fun x => (K x).overwrites) e m x' y → q + 1 ≤ rankOf e m x' →
            rankOf e m z ≤ rankOf e m x') ↔ (q ≤ rankOf e m z ∧ ∀ x', Replaces (fun x => (K x).overwrites) e m x' y → q ≤ rankOf e m x' →
            rankOf e m z ≤ rankOf e m x') := by
          refine and_congr (by omega) (forall_congr' fun x' => forall_congr' fun h => ?_)
          rw [hup x' h]
        by_cases hle : (q ≤ rankOf e m z ∧ ∀ x', Replaces (fun x => (K x).overwrites) e m x' y → q ≤ rankOf e m x' →
            rankOf e m z ≤ rankOf e m x')
        · rw [if_pos hle, if_pos (hiff.2 hle), hkz hle.1]
        · rw [if_neg hle, if_neg fun h => hle (hiff.1 h)]
    · intro h hh
      refine ((added_same hadd fun i => ?_).trans ((hcl _).2 fun hcl => ?_)).trans (I.frame h hh)
      · refine Finset.sum_eq_zero fun j _ => if_neg fun heq => ?_
        exact hh _ (hmk.2.2.2 _ (List.getElem_mem j.isLt)).1 heq.symm
      · obtain ⟨a, ha, heq⟩ := List.mem_map.1 hcl.2
        exact hh a (hmk.2.2.2 a ha).1 heq.symm

end Step

end DW.BackendL
