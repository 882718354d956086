import Verif.Lemmas.Network
import Verif.Props.Graph
import Verif.Spec.Backend
/-! # Lemmas on the CPU backend -/

set_option autoImplicit false

namespace DW.BackendL

open DW DW.Spec DW.GraphL DW.Props.GraphP DW.NetL

variable {e e' : Expr} {topo : Graph → List Node} {ins outs : List Nat} {m : Model}

/-! ### The order of work -/

/-- What a wired model knows about its placeholders and applications. -/
structure Plan (e : Expr) (m : Model) (ins outs : List Nat) : Prop where
  nodup : (dataOf m).Nodup
  ops_nodup : (sortedOps m.sorted).Nodup
  gins : m.graph.ins = ins
  gouts : m.graph.outs = outs
  ins_mem : ∀ y ∈ ins, y ∈ dataOf m
  outs_mem : ∀ y ∈ outs, y ∈ dataOf m
  inj : ∀ x y c, e.callOf x = some c → e.callOf y = some c → x = y
  lt : ∀ x, ∀ a ∈ e.argsOf x, a < x
  op : ∀ c ∈ sortedOps m.sorted, ∃ x ∈ dataOf m, e.callOf x = some c
  make : ∀ x ∈ dataOf m, ∀ c, e.callOf x = some c → c ∈ sortedOps m.sorted ∧
    inIds m.graph m.sorted c = (e.argsOf x).map (dataId m.sorted) ∧ outIds m.graph m.sorted c = [dataId m.sorted x] ∧
    ∀ a ∈ e.argsOf x, a ∈ dataOf m ∧ ∀ d, e.callOf a = some d →
      (sortedOps m.sorted).idxOf d < (sortedOps m.sorted).idxOf c

theorem plan_of (hr : Reachable e) (ht : SortsCorrectly topo e ins outs) (h : modelCtor topo ins outs e = (.ok m, e'))
    (hw : Wired e m) : Plan e m ins outs := by
  obtain ⟨g, hg, hmg, hs, he, hn, hl, -, -, -, hcfg⟩ := ctor_maps hr h
  have htopo := ht g hg
  rw [← hs] at htopo
  have wf := reachable_wf hr
  obtain ⟨u, hu, -, -, -, -, hgi, hgo, hall⟩ := build_ok hg
  have hneed : ∀ c, c ∈ sortedOps m.sorted ↔ NeededCall e outs c := fun c => by
    rw [mem_sortedOps, htopo.op, mem_opNodes hg]
  have hdata : ∀ x, x ∈ dataOf m ↔ TakesPart e outs x := fun x => by
    unfold dataOf
    rw [mem_sortedData, htopo.data, takesPart_of_ok wf hg]
  have hcall : ∀ x ∈ dataOf m, ∀ c, e.callOf x = some c → NeededBy e outs x := fun x hx c hc => by
    obtain ⟨d, ⟨y, hy, hyn⟩, h'⟩ := (hdata x).1 hx
    rcases h' with h' | h'
    · rw [wf.call_inj x y d h' hy]; exact hyn
    · exact needed_arg hyn (mem_argsOf.2 ⟨d, hy, h'⟩)
  refine ⟨nodup_sortedData htopo.nodup, nodup_sortedOps htopo.nodup, hmg ▸ hgi, hmg ▸ hgo, fun y hy => ?_,
    fun y hy => ?_, fun x y c hx hy => wf.call_inj x y c hx hy, fun x a ha => arg_lt wf ha, fun c hc => ?_, fun x hx c hc => ?_⟩
  · exact (hdata y).2 ((takesPart_of_ok wf hg y).1 (hall y (by simp [hy])))
  · exact (hdata y).2 ((takesPart_of_ok wf hg y).1 (hall y (by simp [hy])))
  · obtain ⟨x, hx, hxn⟩ := (hneed c).1 hc
    exact ⟨x, (hdata x).2 ⟨c, ⟨x, hx, hxn⟩, .inl hx⟩, hx⟩
  · have hcn : NeededCall e outs c := ⟨x, hc, hcall x hx c hc⟩
    have hcm := (hneed c).2 hcn
    refine ⟨hcm, ?_⟩
    obtain ⟨k, hk, hkc⟩ := List.getElem_of_mem hcm
    have hkc' : (sortedOps m.sorted)[k]? = some c := by rw [List.getElem?_eq_getElem hk, hkc]
    obtain ⟨x', hx', -, o, ho, hoi, hoo⟩ := hw k c hkc'
    have hxx := wf.call_inj x x' c hc hx'
    subst hxx
    rw [hcfg] at ho
    simp only [createConfig, List.getElem?_map, hkc', Option.map_some, Option.some.injEq] at ho
    subst ho
    simp only at hoi hoo
    have hinj : Function.Injective fun n : Nat => (n : Int) := fun a b h => by simpa using h
    refine ⟨?_, ?_, fun a ha => ?_⟩
    · rw [argsOf_some hc, hmg]
      apply List.map_injective_iff.2 hinj
      rw [hoi, List.map_map]
      rfl
    · rw [hmg]
      apply List.map_injective_iff.2 hinj
      rw [hoo]
      rfl
    · rw [argsOf_some hc] at ha
      refine ⟨(hdata a).2 ⟨c, hcn, .inr ha⟩, fun d hd => ?_⟩
      exact (layers_in_dependency_order hr ht h hcm ha hd).2

section

variable (P : Plan e m ins outs)

include P

theorem Plan.idx_lt {y : Nat} (hy : y ∈ dataOf m) : dataId m.sorted y < (dataOf m).length :=
  List.idxOf_lt_length_iff.2 hy

theorem Plan.id_inj {x y : Nat} (hx : x ∈ dataOf m) (h : dataId m.sorted x = dataId m.sorted y) : x = y :=
  (List.idxOf_inj (l := dataOf m) hx).1 h

/-- The network of the model is closed. -/
theorem Plan.closed {params : Nat → Nat}
    (fn : (x : Nat) → (Fin (params x) → ℝ) → Args (fun j : Fin (e.argsOf x).length => phShape e (e.argsOf x)[j]) →
      Elems (phShape e x)) : Closed (netOf e m params fn) (dataOf m).toFinset := by
  refine ⟨fun x hx => ?_, fun x hx a ha => ?_, fun x _ a ha => P.lt x a ha⟩
  · simp only [netOf, List.mem_toFinset, List.mem_filter] at hx ⊢
    exact hx.1
  · simp only [netOf, List.mem_toFinset, List.mem_filter] at hx ⊢
    obtain ⟨c, hc⟩ := Option.isSome_iff_exists.1 hx.2
    exact ((P.make x hx.1 c hc).2.2.2 a ha).1

end

theorem mem_made {params : Nat → Nat}
    {fn : (x : Nat) → (Fin (params x) → ℝ) → Args (fun j : Fin (e.argsOf x).length => phShape e (e.argsOf x)[j]) →
      Elems (phShape e x)} {x : Nat} : x ∈ (netOf e m params fn).made ↔ x ∈ dataOf m ∧ (e.callOf x).isSome := by
  simp [netOf, dataOf]

/-! ### Running actions -/

theorem runAll_inv {I : Nat → World → Prop} (as : List (M World Unit)) {w : World}
    (h : ∀ (k : Nat) (hk : k < as.length) (w : World), I k w → ∃ w', as[k] w = (.ok (), w') ∧ I (k + 1) w') (h0 : I 0 w) :
    ∃ w', runAll as w = (.ok (), w') ∧ I as.length w' := by
  induction as generalizing I w with
  | nil => exact ⟨w, rfl, h0⟩
  | cons a as ih =>
    obtain ⟨w1, e1, i1⟩ := h 0 (by simp) w h0
    obtain ⟨w2, e2, i2⟩ := ih (I := fun k => I (k + 1)) (w := w1)
      (fun k hk w hw => h (k + 1) (by simpa using hk) w hw) i1
    refine ⟨w2, ?_, by simpa using i2⟩
    rw [runAll, M.bind_ok (by simpa using e1)]
    exact e2

/-! ### Binding -/

theorem bind_spec (ts : List Nat) : ∀ (ids : List Nat) (i : Nat) (mem : List Nat), ids.Nodup →
    (∀ id ∈ ids, id < mem.length) → i + ids.length ≤ ts.length →
    ∃ mem', bind ts ids i mem = .ok mem' ∧ mem'.length = mem.length ∧
      (∀ p id, ids[p]? = some id → mem'[id]? = ts[i + p]?) ∧ ∀ id, id ∉ ids → mem'[id]? = mem[id]?
  | [], i, mem, _, _, _ => ⟨mem, rfl, rfl, by simp, by simp⟩
  | id :: ids, i, mem, hn, hlt, hl => by
    rw [List.length_cons] at hl
    obtain ⟨hn1, hn2⟩ := List.nodup_cons.1 hn
    have hi : i < ts.length := by omega
    obtain ⟨mem', h1, h2, h3, h4⟩ := bind_spec ts ids (i + 1) (mem.set id ts[i]) hn2
      (fun x hx => by rw [List.length_set]; exact hlt x (by simp [hx])) (by omega)
    refine ⟨mem', ?_, by rw [h2, List.length_set], fun p x hx => ?_, fun x hx => ?_⟩
    · rw [bind, Out.idx_of_lt hi, Out.bind_ok, if_pos (hlt id (by simp)), h1]
    · cases p with
      | zero =>
        simp only [List.getElem?_cons_zero, Option.some.injEq] at hx
        subst hx
        rw [h4 id hn1, List.getElem?_set_self (hlt id (by simp)), Nat.add_zero, List.getElem?_eq_getElem hi]
      | succ p =>
        rw [List.getElem?_cons_succ] at hx
        rw [h3 p x hx]
        congr 1; omega
    · have hx' : x ≠ id ∧ x ∉ ids := by simpa using hx
      rw [h4 x hx'.2, List.getElem?_set_ne (fun h => hx'.1 h.symm)]

theorem nodup_ids (P : Plan e m ins outs) {phs : List Nat} (h : phs.Nodup) (hm : ∀ y ∈ phs, y ∈ dataOf m) :
    (idsOf m phs).Nodup := by
  unfold idsOf
  rw [List.nodup_map_iff_inj_on h]
  exact fun x hx y _ hxy => P.id_inj (hm x hx) hxy

/-- Binding tensors `ts` to placeholders `phs`. -/
theorem bind_phs (P : Plan e m ins outs) {phs ts mem : List Nat} (hn : phs.Nodup) (hm : ∀ y ∈ phs, y ∈ dataOf m)
    (hl : ts.length = phs.length) (hmem : mem.length = (dataOf m).length) :
    ∃ mem', bind ts (idsOf m phs) 0 mem = .ok mem' ∧ mem'.length = (dataOf m).length ∧
      (∀ (i y h : Nat), phs[i]? = some y → ts[i]? = some h → mem'.getD (dataId m.sorted y) 0 = h) ∧
      ∀ y ∈ dataOf m, y ∉ phs → mem'.getD (dataId m.sorted y) 0 = mem.getD (dataId m.sorted y) 0 := by
  obtain ⟨mem', h1, h2, h3, h4⟩ := bind_spec ts (idsOf m phs) 0 mem (nodup_ids P hn hm) (fun id hid => by
    obtain ⟨y, hy, rfl⟩ := List.mem_map.1 hid
    rw [hmem]; exact P.idx_lt (hm y hy)) (by simp [idsOf, hl])
  refine ⟨mem', h1, h2.trans hmem, fun i y h hy hh => ?_, fun y hy hny => ?_⟩
  · rw [List.getD_eq_getElem?_getD, h3 i _ (by simp [idsOf, hy]), Nat.zero_add, hh]
    rfl
  · rw [List.getD_eq_getElem?_getD, List.getD_eq_getElem?_getD, h4]
    intro hid
    obtain ⟨z, hz, hzy⟩ := List.mem_map.1 hid
    rw [P.id_inj (hm z hz) hzy] at hz
    exact hny hz

/-! ### Fetching tensors -/

theorem getElem?_getD {l : List Nat} {i : Nat} (h : i < l.length) : l[i]? = some (l.getD i 0) := by
  rw [List.getD_eq_getElem?_getD, List.getElem?_eq_getElem h]; rfl

theorem gather_eq (P : Plan e m ins outs) {mem : List Nat} (hmem : mem.length = (dataOf m).length) {store : List Buf}
    {phs : List Nat} (hphs : ∀ y ∈ phs, y ∈ dataOf m) (f : Nat → Buf)
    (hf : ∀ y ∈ phs, store[mem.getD (dataId m.sorted y) 0]? = some (f y)) :
    gather mem store (phs.map (dataId m.sorted)) =
      .ok (phs.map fun y => mem.getD (dataId m.sorted y) 0, phs.map f) := by
  unfold gather
  have h1 : (phs.map (dataId m.sorted)).mapM (Out.idx mem) =
      .ok ((phs.map (dataId m.sorted)).map fun i => mem.getD i 0) := by
    apply Out.mapM_eq_ok_of_forall
    intro i hi
    obtain ⟨y, hy, rfl⟩ := List.mem_map.1 hi
    unfold Out.idx
    rw [getElem?_getD (by rw [hmem]; exact P.idx_lt (hphs y hy))]
  have h2 : ((phs.map (dataId m.sorted)).map fun i => mem.getD i 0).mapM (Out.idx store) = .ok (phs.map f) := by
    rw [List.map_map]
    have h3 : ∀ l : List Nat, (∀ y ∈ l, y ∈ phs) →
        (l.map ((fun i => mem.getD i 0) ∘ dataId m.sorted)).mapM (Out.idx store) = .ok (l.map f) := by
      intro l
      induction l with
      | nil => intro _; rfl
      | cons a l ih =>
        intro hl
        refine Out.mapM_cons_ok ?_ (ih fun y hy => hl y (by simp [hy]))
        unfold Out.idx
        simp only [Function.comp_apply]
        rw [hf a (hl a (by simp))]
    exact h3 phs fun y hy => hy
  rw [h1, Out.bind_ok, h2, Out.bind_ok, List.map_map]
  rfl

theorem bufs_map (v : (x : Nat) → Elems (phShape e x)) (args : List Nat) :
    bufs (ishape := fun j : Fin args.length => phShape e args[j]) (fun j => v args[j]) =
      args.map fun a => ⟨phShape e a, List.ofFn (v a)⟩ :=
  List.ofFn_getElem_eq_map args fun a => (⟨phShape e a, List.ofFn (v a)⟩ : Buf)

end DW.BackendL
