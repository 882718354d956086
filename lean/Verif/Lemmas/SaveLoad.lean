import Verif.Lemmas.Rebuild
import Verif.Spec.SaveLoad
import Verif.Props.Graph
/-! # The model built from the config of a model -/

set_option autoImplicit false

namespace DW.RebuildL

open DW DW.Spec DW.GraphL DW.RenameL DW.Props.GraphP

/-! ### Reachability -/

theorem reachable_buildInputs (cfg : Config) : ∀ (ids : List Int) (m : List (Int × Nat)) (e : Expr), Reachable e →
    Reachable (buildInputs cfg ids m e).2
  | [], m, e, wf => wf
  | id :: ids, m, e, wf => by
    unfold buildInputs
    simp only [M.bind_apply, M.lift_apply]
    cases Out.at? (cfg.phMap.lookup id) with
    | throw x => exact wf
    | ub x => exact wf
    | ok info =>
      simp only
      have hl : Expr.placeholder info.1 e = (.ok e.phs.length, (Expr.placeholder info.1 e).2) := rfl
      rw [hl]
      exact reachable_buildInputs cfg ids _ _ (.placeholder _ wf)

theorem reachable_buildOps : ∀ (ops : List OpInfo) (m : List (Int × Nat)) (e : Expr), Reachable e →
    Reachable (buildOps ops m e).2
  | [], m, e, wf => wf
  | op :: ops, m, e, wf => by
    unfold buildOps
    simp only [M.bind_apply, M.lift_apply]
    cases op.inIds.mapM fun id => Out.at? (m.lookup id) with
    | throw x => exact wf
    | ub x => exact wf
    | ok inps =>
      simp only
      cases Out.idx op.outIds 0 with
      | throw x => exact wf
      | ub x => exact wf
      | ok out =>
        simp only
        have h := Reachable.makeLayer op.type op.name op.attrs inps wf
        rcases hm : Expr.makeLayer op.type op.name op.attrs inps e with ⟨o, e'⟩
        rw [hm] at h
        cases o with
        | throw x => exact h
        | ub x => exact h
        | ok ph => exact reachable_buildOps ops _ _ h

/-! ### The rebuilt expression -/

variable {e e' : Expr} {topo : Graph → List Node} {ins outs : List Nat} {m : Model}

theorem build_nameOps {ops : List Nat} {g : Graph} (wf : WF e) (hg : buildGraph e ins outs = .ok g)
    (ho : ∀ x ∈ outs, x < e.phs.length) : buildGraph (nameOps e ops) ins outs = .ok g := by
  have iso : Iso e (nameOps e ops) (fun _ => True) id id :=
    ⟨fun _ _ _ _ h => h, fun x _ => by rw [callOf_nameOps]; simp, fun x c _ _ => by rw [callArgs_nameOps]; simp, fun _ _ _ _ _ _ => trivial⟩
  have hfr := nameOps_frame e ops
  have wf' : WF (nameOps e ops) := wf_of_eq wf hfr.1 hfr.2.1 (Nat.le_of_eq hfr.2.2.symm)
  have := build_map iso wf' (ins := ins) (outs := outs) (fun _ _ => trivial) (fun _ _ => trivial) (by
    rw [hfr.1]; exact ho) hg
  simpa [Graph.rename] using this

theorem lookup_map_id {id : Nat → Int} {β : Type} (v : Nat → β) : ∀ {l : List Nat} {x : Nat}, (l.map id).Nodup → x ∈ l →
    (l.map fun x => (id x, v x)).lookup (id x) = some (v x)
  | y :: l, x, hn, hx => by
    rw [List.map_cons, List.nodup_cons] at hn
    rw [List.map_cons, List.lookup_cons]
    rcases List.mem_cons.1 hx with rfl | hx
    · simp
    · have : (id x == id y) = false := by
        rw [beq_eq_false_iff_ne]
        intro h
        exact hn.1 (h ▸ List.mem_map_of_mem hx)
      rw [this]
      exact lookup_map_id v hn.2 hx

theorem lookup_inj {tbl : List (Int × Nat)} (h : (tbl.map Prod.snd).Nodup) {k l : Int} {y : Nat} (hk : tbl.lookup k = some y)
    (hl : tbl.lookup l = some y) : k = l := by
  have mem : ∀ {tbl : List (Int × Nat)} {k : Int}, tbl.lookup k = some y → (k, y) ∈ tbl := by
    intro tbl k hk
    induction tbl with
    | nil => simp at hk
    | cons a t ih =>
      rw [List.lookup_cons] at hk
      split at hk
      · next hb =>
        rw [Option.some.injEq] at hk
        rw [beq_iff_eq] at hb
        subst hb; subst hk
        exact .head _
      · exact .tail _ (ih hk)
  have := List.inj_on_of_nodup_map h (mem hk) (mem hl) rfl
  exact (Prod.mk.inj this).1

/-- What is known about the model built from the config of `m`. -/
structure Rebuilt (E : Expr) (m : Model) (e₃ : Expr) (m' : Model) (φ ψ : Nat → Nat) : Prop where
  reach : Reachable e₃
  ctor : ∃ topo, SortsCorrectly topo e₃ (m.graph.ins.map φ) (m.graph.outs.map φ) ∧
    modelCtor topo (m.graph.ins.map φ) (m.graph.outs.map φ) e₃ = (.ok m', e₃)
  iso : Iso E e₃ (· ∈ m.graph.dataNodes) φ ψ
  graph : m'.graph = m.graph.rename φ ψ
  ops : (sortedOps m'.sorted).Perm ((sortedOps m.sorted).map ψ)
  shape : ∀ x ∈ m.graph.dataNodes, phShape e₃ (φ x) = phShape E x
  info : ∀ c ∈ sortedOps m.sorted, ∃ ps bs,
    initEntries (infoOf E (E.callInfo c)).op ((E.callArgs c).map (phShape E)) = .ok (ps, bs) ∧
    infoOf e₃ (e₃.callInfo (ψ c)) = freshInfo (infoOf E (E.callInfo c)).op (infoOf E (E.callInfo c)).name ps bs

theorem rebuild (hr : Reachable e) (ht : SortsCorrectly topo e ins outs) (h : modelCtor topo ins outs e = (.ok m, e'))
    (ho : ∀ x ∈ outs, x < e.phs.length)
    (hsrc : ∀ x, TakesPart e outs x → (e.callOf x = none ↔ x ∈ ins)) (hdisj : ∀ x ∈ ins, x ∉ outs)
    (hii : (ins.map (dataId m.sorted)).Pairwise (· < ·)) (hoo : (outs.map (dataId m.sorted)).Pairwise (· < ·))
    {e₂ : Expr} (hr₂ : Reachable e₂) {topo₂ : Graph → List Node} (ht₂ : SortsRebuilt topo₂ m.cfg e₂) :
    ∃ m' e₃ φ ψ, modelBuild topo₂ m.cfg e₂ = (.ok m', e₃) ∧ Rebuilt e' m e₃ m' φ ψ := by
  have hr' : Reachable e' := by
    have := Reachable.model topo ins outs hr
    rwa [h] at this
  have wf := reachable_wf hr
  have wf' := reachable_wf hr'
  obtain ⟨hin, hout⟩ := config_order_partial hr ht h
  have hin := hin.2 ⟨hdisj, hii⟩
  have hout := hout.2 hoo
  obtain ⟨g, hg, hmg, hs, he, hn, hl, -, -, -, hcfg⟩ := ctor_maps hr h
  have htopo := ht g hg
  rw [← hs] at htopo
  have hg' : buildGraph e' ins outs = .ok g := by rw [he]; exact build_nameOps wf hg ho
  have hcall : ∀ x, e'.callOf x = e.callOf x := fun x => by rw [he]; exact callOf_nameOps e _ x
  have hargs : ∀ c, e'.callArgs c = e.callArgs c := fun c => by rw [he]; exact callArgs_nameOps e _ c
  obtain ⟨-, -, -, -, -, -, hgi, hgo, hall⟩ := build_ok hg
  -- data nodes
  have hdata : ∀ x, x ∈ g.dataNodes ↔ x ∈ sortedData m.sorted := fun x => by rw [mem_sortedData, htopo.data]
  have hneed : ∀ c, c ∈ sortedOps m.sorted ↔ NeededCall e' outs c := fun c => by
    rw [mem_sortedOps, htopo.op, mem_opNodes hg']
  have hsrc' : ∀ x ∈ g.dataNodes, (e'.callOf x = none ↔ x ∈ ins) := fun x hx => by
    rw [hcall]; exact hsrc x ((takesPart_of_ok wf hg x).1 hx)
  obtain ⟨out, hout_def⟩ : ∃ out, out = producer e' := ⟨_, rfl⟩
  have houtc : ∀ c, NeededCall e' outs c → e'.callOf (out c) = some c ∧ NeededBy e' outs (out c) := by
    rintro c ⟨x, hx, hxn⟩
    rw [hout_def, producer_eq wf' hx]
    exact ⟨hx, hxn⟩
  have houtd : ∀ c, NeededCall e' outs c → out c ∈ g.dataNodes := fun c hc =>
    (mem_dataNodes hg' _).2 ⟨(houtc c hc).2, .inl (by rw [(houtc c hc).1]; rfl)⟩
  have hargd : ∀ c, NeededCall e' outs c → ∀ a ∈ e'.callArgs c, a ∈ g.dataNodes := by
    intro c hc a ha
    exact (takesPart_of_ok wf' hg' a).2 ⟨c, hc, .inr ha⟩
  have hcd : ∀ x c, x ∈ g.dataNodes → e'.callOf x = some c → NeededCall e' outs c ∧ out c = x := by
    intro x c hx hc
    have := (mem_dataNodes hg' x).1 hx
    exact ⟨⟨x, hc, this.1⟩, by rw [hout_def, producer_eq wf' hc]⟩
  -- the placeholders in the order of creation
  obtain ⟨D, hD⟩ : ∃ D, D = ins ++ (sortedOps m.sorted).map out := ⟨_, rfl⟩
  have hDmem : ∀ x, x ∈ D ↔ x ∈ g.dataNodes := by
    intro x
    rw [hD, List.mem_append, List.mem_map]
    constructor
    · rintro (hx | ⟨c, hc, rfl⟩)
      · exact hall x (List.mem_append_left _ hx)
      · exact houtd c ((hneed c).1 hc)
    · intro hx
      cases hc : e'.callOf x with
      | none => exact .inl ((hsrc' x hx).1 hc)
      | some c =>
        obtain ⟨h1, h2⟩ := hcd x c hx hc
        exact .inr ⟨c, (hneed c).2 h1, h2⟩
  obtain ⟨did, hdid⟩ : ∃ did : Nat → Int, did = fun x => (dataId m.sorted x : Int) := ⟨_, rfl⟩
  have hdinj : ∀ x y, x ∈ g.dataNodes → did x = did y → x = y := by
    intro x y hx hxy
    rw [hdid] at hxy
    exact dataId_inj ((htopo.data x).2 hx) (Int.ofNat.inj hxy)
  have hDnd : D.Nodup := by
    rw [hD, List.nodup_append]
    refine ⟨?_, ?_, ?_⟩
    · refine List.Nodup.of_map (dataId m.sorted) ?_
      exact hii.imp fun hab => Nat.ne_of_lt hab
    · refine List.Nodup.map_on ?_ (nodup_sortedOps htopo.nodup)
      intro c hc d hd hcd'
      have h1 := (houtc c ((hneed c).1 hc)).1
      have h2 := (houtc d ((hneed d).1 hd)).1
      rw [hcd', h2] at h1
      exact (Option.some.inj h1).symm
    · rintro x hx y hy rfl
      obtain ⟨c, hc, rfl⟩ := List.mem_map.1 hy
      have := (houtc c ((hneed c).1 hc)).1
      rw [(hsrc' _ (hall _ (List.mem_append_left _ hx))).2 hx] at this
      cases this
  have hids : (D.map did).Nodup := List.Nodup.map_on (fun x hx y _ hxy => hdinj x y ((hDmem x).1 hx) hxy) hDnd
  -- inputs
  have hempty : Copied e' e₂ did [] [] := ⟨rfl, by simp, by simp, by simp, by simp⟩
  have hsnd : ((sortedData m.sorted).map did).Nodup := List.Nodup.map_on (fun x hx y _ hxy => hdinj x y ((hdata x).2 hx) hxy)
    (nodup_sortedData htopo.nodup)
  have hcin : m.cfg.inputIds = ins.map did := by rw [hdid]; exact hin
  have hcout : m.cfg.outputIds = outs.map did := by rw [hdid]; exact hout
  obtain ⟨tbl1, e21, b1, x1, c1⟩ := buildInputs_ok (cfg := m.cfg) ins [] [] e₂ hempty (by
      rw [hD, List.map_append, List.nodup_append] at hids
      simpa using hids.1) (fun x hx => (hsrc' x (hall x (List.mem_append_left _ hx))).2 hx) (by
      intro x hx
      refine ⟨did x, ?_⟩
      have : m.cfg.phMap = (sortedData m.sorted).map fun x => (did x, (phShape e' x, did x)) := by
        rw [hcfg, hdid]; rfl
      rw [this]
      exact lookup_map_id (fun x => (phShape e' x, did x)) hsnd ((hdata x).1 (hall x (List.mem_append_left _ hx))))
  rw [List.nil_append] at c1
  have r21 : Reachable e21 := by
    have := reachable_buildInputs m.cfg (ins.map did) [] e₂ hr₂
    rwa [b1] at this
  -- operations
  have hord : ∀ post pre, pre ++ post = sortedOps m.sorted → Ordered e' out (ins ++ pre.map out) post := by
    intro post
    induction post with
    | nil => exact fun pre _ => .nil _
    | cons c post ih =>
      intro pre hpp
      have hc : c ∈ sortedOps m.sorted := by rw [← hpp]; simp
      refine .cons ?_ ?_
      · intro a ha
        have hcn := (hneed c).1 hc
        have had := hargd c hcn a ha
        cases hac : e'.callOf a with
        | none => exact List.mem_append_left _ ((hsrc' a had).1 hac)
        | some d =>
          obtain ⟨hdn, hda⟩ := hcd a d had hac
          refine List.mem_append_right _ (List.mem_map.2 ⟨d, ?_, hda⟩)
          have i1 := htopo.outOrder (d, a) ((mem_outLinks hg' d a).2 ⟨hac, ((mem_dataNodes hg' a).1 had).1⟩)
          obtain ⟨p, hp, hpa⟩ := List.getElem_of_mem ha
          have i2 := htopo.inOrder (a, c, p) ((mem_inLinks hg' a c p).2 ⟨hcn, by rw [← hpa]; exact List.getElem?_eq_getElem hp⟩)
          have i3 := opPos_lt_of (mem_sortedOps.1 hc) (Nat.lt_trans i1 i2)
          have hnd := nodup_sortedOps htopo.nodup
          rw [← hpp] at i3 hnd
          have hcp : c ∉ pre := by
            rw [List.nodup_append] at hnd
            intro hm
            exact hnd.2.2 c hm c (.head _) rfl
          by_contra hdp
          rw [List.idxOf_append_of_notMem hdp, List.idxOf_append_of_notMem hcp, List.idxOf_cons_self] at i3
          omega
      · have := ih (pre ++ [c]) (by rw [List.append_assoc]; exact hpp)
        rw [List.map_append, ← List.append_assoc] at this
        exact this
  have hzero : sortedOps m.sorted ≠ [] → ∃ z ∈ ins, did z = 0 := by
    intro hne
    obtain ⟨c, hc⟩ := List.exists_mem_of_ne_nil _ hne
    have hc1 := houtd c ((hneed c).1 hc)
    rcases hsd : sortedData m.sorted with _ | ⟨z, l⟩
    · rw [hdata, hsd] at hc1; simp at hc1
    · have hz : z ∈ g.dataNodes := (hdata z).2 (by rw [hsd]; exact .head _)
      have hz0 : dataId m.sorted z = 0 := by unfold dataId; rw [hsd, List.idxOf_cons_self]
      refine ⟨z, ?_, by rw [hdid]; simp only [hz0]; rfl⟩
      rw [← hsrc' z hz]
      cases hzc : e'.callOf z with
      | none => rfl
      | some d =>
        exfalso
        obtain ⟨hdn, -⟩ := hcd z d hz hzc
        obtain ⟨⟨op, -, hlen, -⟩, -⟩ := reachable_typed hr' z d hzc
        have hpos : 0 < (e'.callArgs d).length := by rw [hlen]; cases op <;> simp [Op.numIn]
        have ha := List.getElem_mem hpos
        have had := hargd d hdn _ ha
        have i1 := htopo.outOrder (d, z) ((mem_outLinks hg' d z).2 ⟨hzc, ((mem_dataNodes hg' z).1 hz).1⟩)
        have i2 := htopo.inOrder ((e'.callArgs d)[0], d, 0) ((mem_inLinks hg' _ d 0).2 ⟨hdn, List.getElem?_eq_getElem hpos⟩)
        have i3 := dataId_lt_of ((htopo.data z).2 hz) (Nat.lt_trans i2 i1)
        omega
  have hdesc : List.Forall₂ (Describes e' did out) m.cfg.sortedOps (sortedOps m.sorted) := by
    rw [hcfg]
    unfold createConfig
    rw [List.forall₂_map_left_iff]
    rw [List.forall₂_same]
    intro c hc
    have hcn := (hneed c).1 hc
    refine ⟨rfl, rfl, rfl, ⟨(visits e' outs c - 1) * (e'.callArgs c).length, ?_⟩, ⟨List.replicate (visits e' outs c - 1) 0, ?_⟩⟩
    · simp only
      rw [inIds_eq hg' m.sorted hcn, List.map_append, List.map_map, List.map_replicate, hdid]
      rfl
    · simp only
      rw [outIds_eq wf' hg' m.sorted (houtc c hcn).1 (houtc c hcn).2, List.map_cons, List.map_replicate, hdid]
      rfl
  obtain ⟨tbl, e₃, b2, x2, c2⟩ := buildOps_ok (out := out) (reachable_typed hr') (sortedOps m.sorted) m.cfg.sortedOps ins tbl1 e21 c1
    (by rw [← hD]; exact hids) (fun c hc => (houtc c ((hneed c).1 hc)).1) (by have := hord (sortedOps m.sorted) [] rfl; rwa [List.map_nil, List.append_nil] at this) hzero hdesc
  rw [← hD] at c2
  have r3 : Reachable e₃ := by
    have := reachable_buildOps m.cfg.sortedOps tbl1 e21 r21
    rwa [b2] at this
  have wf3 := reachable_wf r3
  -- the renaming
  obtain ⟨φ, hφ⟩ : ∃ φ : Nat → Nat, φ = fun x => (tbl.lookup (did x)).getD 0 := ⟨_, rfl⟩
  obtain ⟨ψ, hψ⟩ : ∃ ψ : Nat → Nat, ψ = fun c => (e₃.callOf (φ (out c))).getD 0 := ⟨_, rfl⟩
  have hcopy : ∀ x ∈ g.dataNodes, tbl.lookup (did x) = some (φ x) ∧ Copy e' e₃ (fun a => tbl.lookup (did a)) x (φ x) := by
    intro x hx
    obtain ⟨y, hy, hc⟩ := c2.copy x ((hDmem x).2 hx)
    have : φ x = y := by rw [hφ]; simp only [hy]; rfl
    rw [this]
    exact ⟨hy, hc⟩
  have hψ' : ∀ x c, x ∈ g.dataNodes → e'.callOf x = some c → e₃.callOf (φ x) = some (ψ c) := by
    intro x c hx hc
    obtain ⟨c', h1, -⟩ := (hcopy x hx).2.call c hc
    obtain ⟨-, ho⟩ := hcd x c hx hc
    rw [hψ]
    simp only [ho, h1]
    rfl
  have iso : Iso e' e₃ (· ∈ g.dataNodes) φ ψ := by
    refine ⟨?_, ?_, ?_, ?_⟩
    · intro x y hx hy hxy
      have h1 := (hcopy x hx).1
      have h2 := (hcopy y hy).1
      rw [← hxy] at h2
      exact hdinj x y hx (lookup_inj c2.vals h1 h2)
    · intro x hx
      cases hc : e'.callOf x with
      | none => exact (hcopy x hx).2.src hc
      | some c => exact hψ' x c hx hc
    · intro x c hx hc
      obtain ⟨c', h1, -, h3, -⟩ := (hcopy x hx).2.call c hc
      have : c' = ψ c := Option.some.inj (h1.symm.trans (hψ' x c hx hc))
      subst this
      have hcn := (hcd x c hx hc).1
      have h5 : (e'.callArgs c).map (fun a => tbl.lookup (did a)) = ((e'.callArgs c).map φ).map some := by
        rw [List.map_map]
        exact List.map_congr_left fun a ha => (hcopy a (hargd c hcn a ha)).1
      rw [h5] at h3
      exact (List.map_injective_iff.2 (Option.some_injective _) h3).symm
    · intro x c hx hc a ha
      exact hargd c (hcd x c hx hc).1 a ha
  have hgr : buildGraph e₃ (ins.map φ) (outs.map φ) = .ok (g.rename φ ψ) :=
    build_map iso wf3 (fun x hx => hall x (List.mem_append_left _ hx)) (fun x hx => hall x (List.mem_append_right _ hx))
      (fun x hx => (hcopy x (hall x (List.mem_append_right _ hx))).2.lt) hg'
  have hinfo : ∀ c, NeededCall e' outs c → ∃ ps bs,
      initEntries (infoOf e' (e'.callInfo c)).op ((e'.callArgs c).map (phShape e')) = .ok (ps, bs) ∧
      infoOf e₃ (e₃.callInfo (ψ c)) = freshInfo (infoOf e' (e'.callInfo c)).op (infoOf e' (e'.callInfo c)).name ps bs := by
    intro c hc
    have hx := houtd c hc
    obtain ⟨c', h1, -, -, -, ps, bs, h5, h6⟩ := (hcopy _ hx).2.call c (houtc c hc).1
    have : c' = ψ c := Option.some.inj (h1.symm.trans (hψ' _ c hx (houtc c hc).1))
    subst this
    exact ⟨ps, bs, h5, by unfold infoOf at h6 ⊢; rw [h6]; rfl⟩
  -- the constructor
  have hbp : buildPlaceholders m.cfg e₂ = (.ok (ins.map φ, outs.map φ), e₃) := by
    have h1 : m.cfg.inputIds.mapM (fun id => Out.at? (tbl.lookup id)) = .ok (ins.map φ) := by
      apply mapM_at
      rw [hcin, List.map_map, List.map_map]
      exact List.map_congr_left fun x hx => (hcopy x (hall x (List.mem_append_left _ hx))).1
    have h2 : m.cfg.outputIds.mapM (fun id => Out.at? (tbl.lookup id)) = .ok (outs.map φ) := by
      apply mapM_at
      rw [hcout, List.map_map, List.map_map]
      exact List.map_congr_left fun x hx => (hcopy x (hall x (List.mem_append_right _ hx))).1
    rw [← hcin] at b1
    unfold buildPlaceholders
    simp only [M.bind_apply, M.lift_apply, b1, b2, h1, h2, M.pure_apply]
  have hs2 : SortsCorrectly topo₂ e₃ (ins.map φ) (outs.map φ) := ht₂ _ _ hbp
  have htopo2 := hs2 _ hgr
  have hψinj : ∀ c ∈ g.opNodes, ∀ d ∈ g.opNodes, ψ c = ψ d → c = d := by
    intro c hc d hd hcd'
    have h1 := (mem_opNodes hg' c).1 hc
    have h2 := (mem_opNodes hg' d).1 hd
    exact iso.inj_call wf3 (houtd c h1) (houtd d h2) (houtc c h1).1 (houtc d h2).1 hcd'
  have hperm : (sortedOps (topo₂ (g.rename φ ψ))).Perm ((sortedOps m.sorted).map ψ) := by
    refine (List.perm_ext_iff_of_nodup (nodup_sortedOps htopo2.nodup) ?_).2 ?_
    · refine List.Nodup.map_on ?_ (nodup_sortedOps htopo.nodup)
      intro c hc d hd
      exact hψinj c ((htopo.op c).1 (mem_sortedOps.1 hc)) d ((htopo.op d).1 (mem_sortedOps.1 hd))
    · intro c
      rw [mem_sortedOps, htopo2.op, Graph.rename, List.mem_map, List.mem_map]
      constructor
      · rintro ⟨d, hd, rfl⟩; exact ⟨d, mem_sortedOps.2 ((htopo.op d).2 hd), rfl⟩
      · rintro ⟨d, hd, rfl⟩; exact ⟨d, (htopo.op d).1 (mem_sortedOps.1 hd), rfl⟩
  have hnonempty : ∀ c, NeededCall e' outs c → (infoOf e' (e'.callInfo c)).name ≠ "" := by
    intro c hc
    have hc' := (hneed c).2 hc
    obtain ⟨x, hx, -⟩ := hc
    rw [hcall] at hx
    rw [← opName_eq, he, opName_nameOps hc' (wf.info_lt c (wf.call_lt x c hx))]
    unfold finalName
    by_cases hnm : (infoOf e (e.callInfo c)).name = ""
    · rw [if_pos hnm]; exact generatedName_ne_empty _ _
    · rw [if_neg hnm]; exact hnm
  have hnames : ∀ c, NeededCall e' outs c → (infoOf e₃ (e₃.callInfo (ψ c))).name = (infoOf e' (e'.callInfo c)).name := by
    intro c hc
    obtain ⟨ps, bs, -, h2⟩ := hinfo c hc
    rw [h2]; rfl
  have hneed3 : ∀ c, NeededCall e₃ (outs.map φ) c → ∃ d, NeededCall e' outs d ∧ c = ψ d := by
    intro c hc
    have := (mem_opNodes hgr c).2 hc
    rw [Graph.rename, List.mem_map] at this
    obtain ⟨d, hd, rfl⟩ := this
    exact ⟨d, (mem_opNodes hg' d).1 hd, rfl⟩
  have hnd3 : ((sortedOps (topo₂ (g.rename φ ψ))).map fun c =>
      finalName e₃ (sortedOps (topo₂ (g.rename φ ψ))) (e₃.callInfo c)).Nodup := by
    have h1 : ((sortedOps m.sorted).map fun c => finalName e₃ (sortedOps (topo₂ (g.rename φ ψ))) (e₃.callInfo (ψ c))) =
        (sortedOps m.sorted).map (opName e') := by
      apply List.map_congr_left
      intro c hc
      have hcn := (hneed c).1 hc
      rw [opName_eq]
      unfold finalName
      rw [if_neg (by rw [hnames c hcn]; exact hnonempty c hcn), hnames c hcn]
    have := (hperm.map fun c => finalName e₃ (sortedOps (topo₂ (g.rename φ ψ))) (e₃.callInfo c)).nodup_iff
    rw [this, List.map_map]
    show ((sortedOps m.sorted).map fun c => finalName e₃ (sortedOps (topo₂ (g.rename φ ψ))) (e₃.callInfo (ψ c))).Nodup
    rw [h1]
    exact hn
  have ho3 : ∀ x ∈ outs.map φ, x < e₃.phs.length := by
    intro y hy
    obtain ⟨x, hx, rfl⟩ := List.mem_map.1 hy
    exact (hcopy x (hall x (List.mem_append_right _ hx))).2.lt
  obtain ⟨m', e4, hm, -⟩ := (names_unique_iff r3 ho3 hs2 hgr).1 hnd3
  have hpure := construction_pure_partial r3 hs2 (by
    intro c hc
    obtain ⟨d, hd, rfl⟩ := hneed3 c hc
    rw [hnames d hd]
    exact hnonempty d hd)
  rw [hm] at hpure
  simp only at hpure
  subst hpure
  obtain ⟨g3, hg3, hmg3, hsorted3, -⟩ := ctor_maps r3 hm
  rw [hgr] at hg3
  have hg3' := Out.ok.inj hg3
  subst hg3'
  refine ⟨m', e4, φ, ψ, ?_, ?_⟩
  · unfold modelBuild
    simp only [M.bind_apply, hbp]
    exact hm
  · subst hmg
    exact {
      reach := r3
      ctor := ⟨topo₂, by rw [hgi, hgo]; exact hs2, by rw [hgi, hgo]; exact hm⟩
      iso := iso
      graph := hmg3
      ops := by rw [hsorted3]; exact hperm
      shape := fun x hx => (hcopy x hx).2.shape
      info := fun c hc => hinfo c ((hneed c).1 hc) }

end DW.RebuildL
