import Verif.Lemmas.Backend
/-! # The forward loop of the backend -/

set_option autoImplicit false

namespace DW.BackendL

open DW DW.Spec DW.GraphL DW.Props.GraphP DW.NetL

variable {e : Expr} {ins outs : List Nat} {m : Model} {params : Nat → Nat}
  {fn : (x : Nat) → (Fin (params x) → ℝ) → Args (fun j : Fin (e.argsOf x).length => phShape e (e.argsOf x)[j]) →
      Elems (phShape e x)}
  {θ : (x : Nat) → Fin (params x) → ℝ}
  (K : (x : Nat) → Contract (fun j : Fin (e.argsOf x).length => phShape e (e.argsOf x)[j]) (phShape e x) (params x) (fn x) (θ x))
  {v : (x : Nat) → Elems (phShape e x)}

/-- The value handed to each application. -/
abbrev argv (v : (x : Nat) → Elems (phShape e x)) (x : Nat) :
    Args (fun j : Fin (e.argsOf x).length => phShape e (e.argsOf x)[j]) := fun j => v (e.argsOf x)[j]

/-- `l'` comes from `l` by `forward` on the values of the arguments. -/
def Ran (x : Nat) (ev : Env) (l : Cpu) (f : Args (fun j : Fin (e.argsOf x).length => phShape e (e.argsOf x)[j]) → Elems (phShape e x))
    (v : (x : Nat) → Elems (phShape e x)) (l' : Cpu) : Prop :=
  ∃ old : List ℝ, old.length = size (phShape e x) ∧
    l.forward ev (bufs (argv v x)) [⟨phShape e x, old⟩] = .ok (l', List.ofFn (f (argv v x)))

theorem forwardOp_eq (P : Plan e m ins outs) {mem : List Nat} (hmem : mem.length = (dataOf m).length) {store : List Buf}
    {x c : Nat} (hx : x ∈ dataOf m) (hc : e.callOf x = some c) {ev : Env} (hev : (K x).env ev) {l : Cpu} (hl : (K x).Ready l)
    (hargs : ∀ a ∈ e.argsOf x, Holds store (v a : Elems (phShape e a)) (mem.getD (dataId m.sorted a) 0))
    (hroom : Room store (phShape e x) (mem.getD (dataId m.sorted x) 0))
    (hne : ∀ a ∈ e.argsOf x, mem.getD (dataId m.sorted a) 0 ≠ mem.getD (dataId m.sorted x) 0) :
    ∃ l' bk pk, forwardOp ev (inIds m.graph m.sorted c) (outIds m.graph m.sorted c) mem l store =
        .ok (l', store.set (mem.getD (dataId m.sorted x) 0) ⟨phShape e x, List.ofFn (fn x (θ x) (argv v x))⟩) ∧
      (K x).After (argv v x) bk pk l' ∧ Ran x ev l (fn x (θ x)) v l' := by
  obtain ⟨-, hin, hout, hmade⟩ := P.make x hx c hc
  obtain ⟨vals, hv1, hv2⟩ := hroom
  obtain ⟨l', bk, pk, hf, ha⟩ := (K x).forward hev hl (argv v x) vals hv2
  refine ⟨l', bk, pk, ?_, ha, vals, hv2, hf⟩
  unfold forwardOp
  rw [hin, hout, gather_eq P hmem (fun a ha => (hmade a ha).1) (fun a => ⟨phShape e a, List.ofFn (v a)⟩)
    (fun a ha => hargs a ha), Out.bind_ok]
  have h2 := gather_eq P hmem (phs := [x]) (by simpa using hx) (fun _ => (⟨phShape e x, vals⟩ : Buf))
    (store := store) (by simpa using hv1)
  simp only [List.map_cons, List.map_nil] at h2
  simp only [h2, Out.bind_ok]
  have h3 : bufs (argv v x) = (e.argsOf x).map fun a => ⟨phShape e a, List.ofFn (v a)⟩ :=
    bufs_map (e := e) v (e.argsOf x)
  rw [← h3, hf, Out.bind_ok]
  simp only
  rw [if_neg]
  · rfl
  · intro h
    obtain ⟨a, ha, hah⟩ := List.mem_map.1 h
    exact hne a ha hah

/-- The position of an application among the layers. -/
abbrev pos (m : Model) (c : Nat) : Nat := (sortedOps m.sorted).idxOf c

/-- The state after the first `k` layers. -/
structure Fwd (m : Model) (mem grad : List Nat) (v : (x : Nat) → Elems (phShape e x)) (env : Nat → Env) (ls₀ : List Cpu) (w₀ : World)
    (k : Nat) (w : World) (layers : List Cpu) : Prop where
  backend : w.backend = some ⟨mem, grad, layers⟩
  len : layers.length = (sortedOps m.sorted).length
  done : ∀ x ∈ dataOf m, ∀ c, e.callOf x = some c → pos m c < k → ∃ l bk pk, layers[pos m c]? = some l ∧
    (K x).After (argv v x) bk pk l ∧ ∃ l₀, ls₀[pos m c]? = some l₀ ∧ Ran x (env c) l₀ (fn x (θ x)) v l
  todo : ∀ x ∈ dataOf m, ∀ c, e.callOf x = some c → k ≤ pos m c → ∃ l, layers[pos m c]? = some l ∧ (K x).Ready l ∧
    ls₀[pos m c]? = some l
  vals : ∀ y ∈ dataOf m, (∀ c, e.callOf y = some c → pos m c < k) →
    Holds w.store (v y : Elems (phShape e y)) (mem.getD (dataId m.sorted y) 0)
  room : ∀ x ∈ dataOf m, (e.callOf x).isSome → Room w.store (phShape e x) (mem.getD (dataId m.sorted x) 0)
  frame : ∀ h, (∀ x ∈ dataOf m, (e.callOf x).isSome → h ≠ mem.getD (dataId m.sorted x) 0) → w.store[h]? = w₀.store[h]?

theorem forward_loop (P : Plan e m ins outs) {mem grad : List Nat} (hmem : mem.length = (dataOf m).length)
    (hv : (netOf e m params fn).Evaluates θ v) {env : Nat → Env}
    (henv : ∀ x ∈ dataOf m, ∀ c, e.callOf x = some c → (K x).env (env c))
    (hinj : ∀ x ∈ dataOf m, (e.callOf x).isSome → ∀ y ∈ dataOf m, y ≠ x →
      mem.getD (dataId m.sorted y) 0 ≠ mem.getD (dataId m.sorted x) 0)
    {w : World} {layers : List Cpu} (h0 : Fwd K m mem grad v env layers w 0 w layers) :
    ∃ w' layers', runAll ((sortedOps m.sorted).zipIdx.map fun p => do
        let w ← M.get
        onLayer p.2 (forwardOp (env p.1) (inIds m.graph m.sorted p.1) (outIds m.graph m.sorted p.1)
          ((w.backend.map Backend.mem).getD []))) w = (.ok (), w') ∧
      Fwd K m mem grad v env layers w (sortedOps m.sorted).length w' layers' := by
  have key := runAll_inv (I := fun k w' => ∃ layers', Fwd K m mem grad v env layers w k w' layers')
    ((sortedOps m.sorted).zipIdx.map fun p => (do
        let w ← M.get
        onLayer p.2 (forwardOp (env p.1) (inIds m.graph m.sorted p.1) (outIds m.graph m.sorted p.1)
          ((w.backend.map Backend.mem).getD [])) : M World Unit)) (w := w) ?_ ⟨layers, h0⟩
  · obtain ⟨w', h1, layers', h2⟩ := key
    exact ⟨w', layers', h1, by simpa using h2⟩
  · intro k hk w1 ⟨ls, I⟩
    simp only [List.length_map, List.length_zipIdx] at hk
    have hcmem : (sortedOps m.sorted)[k] ∈ sortedOps m.sorted := List.getElem_mem hk
    obtain ⟨x, hx, hc⟩ := P.op _ hcmem
    generalize hce : (sortedOps m.sorted)[k] = c at *
    have hpos : pos m c = k := by
      rw [← hce]; exact P.ops_nodup.idxOf_getElem k hk
    have hmk := P.make x hx c hc
    have hargs : ∀ a ∈ e.argsOf x, a ≠ x := fun a ha h => by
      have := P.lt x a ha; omega
    obtain ⟨l, hl, hrdy, hl₀⟩ := I.todo x hx c hc (by omega)
    obtain ⟨l', bk, pk, hop, haft, hran⟩ := forwardOp_eq K P hmem hx hc (henv x hx c hc) hrdy (v := v) (store := w1.store)
      (fun a ha => I.vals a (hmk.2.2.2 a ha).1 fun d hd => by
        have := (hmk.2.2.2 a ha).2 d hd
        exact hpos ▸ this) (I.room x hx (by rw [hc]; rfl))
      (fun a ha => hinj x hx (by rw [hc]; rfl) a (hmk.2.2.2 a ha).1 (hargs a ha))
    have hfn : fn x (θ x) (argv v x) = v x := (hv x (mem_made.2 ⟨hx, by rw [hc]; rfl⟩)).symm
    rw [hfn] at hop
    refine ⟨⟨w1.store.set (mem.getD (dataId m.sorted x) 0) ⟨phShape e x, List.ofFn (v x)⟩, some ⟨mem, grad, ls.set k l'⟩⟩,
      ?_, ls.set k l', ⟨rfl, by rw [List.length_set]; exact I.len, ?_, ?_, ?_, ?_, ?_⟩⟩
    · rw [List.getElem_map, List.getElem_zipIdx, M.bind_ok (M.get_apply w1)]
      simp only [hce, Nat.zero_add, I.backend, Option.map_some, Option.getD_some]
      unfold onLayer
      rw [I.backend]
      simp only
      rw [← hpos, hl]
      simp only
      rw [hop]
    · intro y hy d hd hlt
      by_cases hdk : pos m d = k
      · have : d = c := by
          have h1 : (sortedOps m.sorted).idxOf d = (sortedOps m.sorted).idxOf c := hdk.trans hpos.symm
          exact (List.idxOf_inj (P.make y hy d hd).1).1 h1
        subst this
        have hyx := P.inj y x d hd hc
        subst hyx
        refine ⟨l', bk, pk, ?_, haft, l, hl₀, hran⟩
        rw [hdk, List.getElem?_set_self (by rw [I.len]; exact hk)]
      · obtain ⟨l2, b2, p2, h1, h2⟩ := I.done y hy d hd (by omega)
        refine ⟨l2, b2, p2, ?_, h2⟩
        rw [List.getElem?_set_ne (fun h => hdk h.symm), h1]
    · intro y hy d hd hle
      obtain ⟨l2, h1, h2⟩ := I.todo y hy d hd (by omega)
      refine ⟨l2, ?_, h2⟩
      rw [List.getElem?_set_ne (by omega), h1]
    · intro y hy hlt
      by_cases hyx : y = x
      · subst hyx
        obtain ⟨old, ho, -⟩ := I.room y hy (by rw [hc]; rfl)
        unfold Holds
        exact List.getElem?_set_self (List.getElem?_eq_some_iff.1 ho).1
      · unfold Holds
        simp only
        rw [List.getElem?_set_ne (fun h => hinj x hx (by rw [hc]; rfl) y hy hyx h.symm)]
        refine I.vals y hy fun d hd => ?_
        have h1 := hlt d hd
        have h2 : pos m d ≠ k := fun h => hyx (by
          have h3 : (sortedOps m.sorted).idxOf d = (sortedOps m.sorted).idxOf c := h.trans hpos.symm
          have : d = c := (List.idxOf_inj (P.make y hy d hd).1).1 h3
          subst this
          exact P.inj y x d hd hc)
        omega
    · intro y hy hs
      by_cases hyx : y = x
      · subst hyx
        obtain ⟨old, ho, -⟩ := I.room y hy hs
        exact ⟨List.ofFn (v y), List.getElem?_set_self (List.getElem?_eq_some_iff.1 ho).1, by simp [netOf]⟩
      · obtain ⟨old, ho, hol⟩ := I.room y hy hs
        refine ⟨old, ?_, hol⟩
        simp only
        rw [List.getElem?_set_ne (fun h => hinj x hx (by rw [hc]; rfl) y hy hyx h.symm), ho]
    · intro h hh
      simp only
      rw [List.getElem?_set_ne (fun h' => hh x hx (by rw [hc]; rfl) h'.symm)]
      exact I.frame h hh

end DW.BackendL
