import Verif.Lemmas.History
/-! # What layer objects do on their own, and what the equations of the gradients determine -/

set_option autoImplicit false

namespace DW.HistL

open DW DW.Spec DW.BackendL DW.NetL DW.Props.ContractP

section

variable {n : Nat} {ishape : Fin n → Shape} {o : Shape} {P : Nat} {fn : (Fin P → ℝ) → Args ishape → Elems o} {θ : Fin P → ℝ}

theorem passesBack (K : Contract ishape o P fn θ) {X : Args ishape} {bk : Elems o → Args ishape} {pk : Elems o → Fin P → ℝ} {l : Cpu}
    (h : K.After X bk pk l) : PassesBack l X (fn θ X) bk := by
  intro env g
  obtain ⟨l', s1, s2, h1, -, -, hc, ha⟩ := K.backward (ev := env) h g (List.range n) (bufs (0 : Args ishape)) (by simp) fun j => ⟨0, by
    simp [bufs]⟩
  refine ⟨l', h1.trans ?_⟩
  congr 2
  have hs1 : ∀ i : Nat, s1[i]? = (bufs (0 : Args ishape))[i]? := fun i => by
    by_cases hi : K.overwrites ∧ i ∈ List.range n
    · rw [(hc i).1 hi]
      have hin : i < n := by simpa using hi.2
      have h0 : (bufs (0 : Args ishape))[i]? = some ⟨ishape ⟨i, hin⟩, List.ofFn (0 : Elems (ishape ⟨i, hin⟩))⟩ := by
        simp [bufs, hin]
      rw [h0, Option.map_some, Buf.put, List.length_ofFn]
      congr 2
      exact List.ext_getElem (by simp) fun k h1 h2 => by simp
    · exact (hc i).2 hi
  have hlen : s2.length = n := by
    rw [ha.1, show s1 = bufs (0 : Args ishape) from List.ext_getElem? hs1]
    simp [bufs]
  refine List.ext_getElem? fun i => ?_
  by_cases hin : i < n
  · have h0 : Holds s1 (0 : Elems (ishape ⟨i, hin⟩)) i := by
      unfold Holds
      rw [hs1 i]
      simp [bufs, hin]
    have h2 := added_holds ha h0
    unfold Holds at h2
    rw [h2]
    have hb : (bufs (bk g))[i]? = some ⟨ishape ⟨i, hin⟩, List.ofFn (bk g ⟨i, hin⟩)⟩ := by simp [bufs, hin]
    rw [hb]
    congr 3
    funext k
    rw [Finset.sum_eq_single (⟨i, hin⟩ : Fin n)]
    · simp [entry]
    · intro j _ hj
      rw [if_neg]
      intro hij
      apply hj
      ext
      simpa using hij
    · exact fun h => absurd (Finset.mem_univ _) h
  · have h2 : (bufs (bk g)).length = n := by simp [bufs]
    rw [List.getElem?_eq_none (by omega), List.getElem?_eq_none (by omega)]

theorem storesGrads (K : Contract ishape o P fn θ) {X : Args ishape} {bk : Elems o → Args ishape} {pk : Elems o → Fin P → ℝ} {l : Cpu}
    (h : K.After X bk pk l) : StoresGrads l X pk := fun g => by
  obtain ⟨l', h1, -, h2⟩ := K.update h g
  exact ⟨l', h1, h2⟩

end

section

variable {e : Expr} {m : Model} {outs : List Nat}

theorem kept_sole (h : SoleConsumer e m outs)
    (bk : (x : Nat) → Elems (phShape e x) → Args (fun j : Fin (e.argsOf x).length => phShape e (e.argsOf x)[j]))
    {x : Nat} (hx : x ∈ dataOf m) (g : Elems (phShape e x)) : kept (writesOver e) e m bk x g = bk x g := by
  funext j
  refine if_pos fun x' hx' => ?_
  rw [(h x' _ hx').2 x hx (List.getElem_mem j.isLt)]

theorem keptBase_sole (h : SoleConsumer e m outs) (gout : (x : Nat) → Elems (phShape e x)) (y : Nat) :
    keptBase (writesOver e) e m (fun y => if y ∈ outs then gout y else 0) y = if y ∈ outs then gout y else 0 := by
  unfold keptBase
  split
  next hx =>
    obtain ⟨x, hx⟩ := hx
    rw [if_neg (h x y hx).1]
  next => rfl

theorem accumulates_congr {N : Net}
    {bk bk' : (x : Nat) → Elems (N.shape x) → Args (fun j : Fin (N.args x).length => N.shape (N.args x)[j])} {base base' G G' : N.Val}
    {y : Nat} (hbk : ∀ x ∈ N.made, bk x = bk' x) (hb : base y = base' y) (hGy : G y = G' y) (hG : ∀ x ∈ N.made, G x = G' x)
    (h : N.Accumulates bk base G y) : N.Accumulates bk' base' G' y := by
  intro i
  rw [← hGy, h i, hb]
  congr 1
  unfold Net.received
  refine Finset.sum_congr rfl fun x hx => Finset.sum_congr rfl fun j _ => ?_
  rw [hbk x hx, hG x hx]

theorem accumulates_sole {L : Layers e} {env : Nat → Env} (h : SoleConsumer e m outs)
    {bk : (x : Nat) → Elems (phShape e x) → Args (fun j : Fin (e.argsOf x).length => phShape e (e.argsOf x)[j])}
    {gout G : Vals e} {y : Nat} (ha : (L.net m env).Accumulates (kept (writesOver e) e m bk)
      (keptBase (writesOver e) e m fun y => if y ∈ outs then gout y else 0) G y) :
    (L.net m env).Accumulates bk (fun y => if y ∈ outs then gout y else 0) G y := by
  refine accumulates_congr (N := L.net m env) (fun x hx => ?_) (keptBase_sole h gout y) rfl (fun _ _ => rfl) ha
  funext g
  exact kept_sole h bk (List.mem_filter.1 (List.mem_toFinset.1 hx)).1 g

end

end DW.HistL
