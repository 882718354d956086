import Verif.Lemmas.Rename
import Verif.Lemmas.NN
/-! # What `Model::Build` creates -/

set_option autoImplicit false

namespace DW.RebuildL

open DW DW.Spec DW.GraphL

/-- Only new objects. -/
structure Ext (e e' : Expr) : Prop where
  phs : ∃ p, e'.phs = e.phs ++ p
  calls : ∃ c, e'.calls = e.calls ++ c
  infos : ∃ i, e'.infos = e.infos ++ i

theorem Ext.refl (e : Expr) : Ext e e := ⟨⟨[], by simp⟩, ⟨[], by simp⟩, ⟨[], by simp⟩⟩

theorem Ext.trans {a b c : Expr} (h : Ext a b) (h' : Ext b c) : Ext a c := by
  obtain ⟨⟨p, hp⟩, ⟨q, hq⟩, ⟨r, hr⟩⟩ := h
  obtain ⟨⟨p', hp'⟩, ⟨q', hq'⟩, ⟨r', hr'⟩⟩ := h'
  exact ⟨⟨p ++ p', by rw [hp', hp, List.append_assoc]⟩, ⟨q ++ q', by rw [hq', hq, List.append_assoc]⟩,
    ⟨r ++ r', by rw [hr', hr, List.append_assoc]⟩⟩

variable {e e' : Expr}

theorem Ext.ph (h : Ext e e') {x : Nat} (hx : x < e.phs.length) : e'.phs[x]? = e.phs[x]? := by
  obtain ⟨p, hp⟩ := h.phs
  rw [hp, List.getElem?_append_left hx]

theorem Ext.call (h : Ext e e') {x : Nat} (hx : x < e.calls.length) : e'.calls[x]? = e.calls[x]? := by
  obtain ⟨p, hp⟩ := h.calls
  rw [hp, List.getElem?_append_left hx]

theorem Ext.info (h : Ext e e') {x : Nat} (hx : x < e.infos.length) : e'.infos[x]? = e.infos[x]? := by
  obtain ⟨p, hp⟩ := h.infos
  rw [hp, List.getElem?_append_left hx]

theorem Ext.phs_le (h : Ext e e') : e.phs.length ≤ e'.phs.length := by
  obtain ⟨p, hp⟩ := h.phs
  rw [hp]; simp

/-- The layer object of a layer applied once. -/
def freshInfo (op : Op) (name : String) (ps bs : List (String × Shape)) : InfoImpl :=
  { name := name, op := op, params := ps.map fun p => (p.1, ({ shape := p.2 } : Param)), buffers := bs }

/-- `make_layer` on existing placeholders of fitting shapes. -/
theorem makeLayer_ok {op : Op} {name : String} {ins args : List Nat} {out : Shape} {ps bs : List (String × Shape)}
    (ha : ins.take op.numIn = args) (hn : args.length = op.numIn) (hlt : ∀ a ∈ args, a < e.phs.length)
    (hi : initEntries op (args.map (phShape e)) = .ok (ps, bs)) (ho : outShape op (args.map (phShape e)) = .ok out) :
    Expr.makeLayer op.type name op.attrs ins e = (.ok e.phs.length,
      ⟨e.phs ++ [⟨out, some e.calls.length⟩], e.calls ++ [⟨e.infos.length, args⟩], e.infos ++ [freshInfo op name ps bs]⟩) := by
  have hop : makeOp op.type op.attrs = .ok op := by
    cases op <;> simp [makeOp, Op.type, attrAt, Op.attrs, getInt, getFloat, getInts, List.lookup]
  unfold Expr.makeLayer
  simp only [M.bind_apply, M.lift_apply, hop]
  have hl : Expr.layer op name e = (.ok e.infos.length, ⟨e.phs, e.calls, e.infos ++ [{ name := name, op := op }]⟩) := rfl
  simp only [hl]
  have hget : (e.infos ++ [({ name := name, op := op } : InfoImpl)])[e.infos.length]? = some { name := name, op := op } := by simp
  have hs : Expr.shapes ⟨e.phs, e.calls, e.infos ++ [{ name := name, op := op }]⟩ (ins.take op.numIn) =
      .ok (args.map (phShape e)) := by
    rw [ha]
    unfold Expr.shapes
    clear ha hn hi ho
    induction args with
    | nil => rfl
    | cons a args ih =>
      have h1 := hlt a (.head _)
      rw [List.mapM_cons, ih fun b hb => hlt b (.tail _ hb)]
      simp [Out.idx, List.getElem?_eq_getElem h1, phShape]
  have hlen : op.numIn ≤ ins.length := by rw [← hn, ← ha]; exact List.length_take_le' _ _
  rw [Expr.apply_eq hget hlen hs]
  obtain ⟨hp, hb⟩ := initEntries_names (by rw [List.length_map, hn]) hi
  have e1 : ps.foldl (fun m p => emplace m p.1 ({ shape := p.2 } : Param)) [] = ps.map fun p => (p.1, ({ shape := p.2 } : Param)) := by
    have := foldl_emplace_new (fun p : String × Shape => p.1) (fun p => ({ shape := p.2 } : Param)) ps [] (by
      rw [show ps.map (fun p => p.1) = ps.map Prod.fst from rfl, hp]; exact paramNames_nodup op) (by simp)
    simpa using this
  have e2 : bs.foldl (fun m b => emplace m b.1 b.2) [] = bs := by
    have := foldl_emplace_new (fun p : String × Shape => p.1) (fun p => p.2) bs [] (by
      rw [show bs.map (fun p => p.1) = bs.map Prod.fst from rfl, hb]; exact bufferNames_nodup op) (by simp)
    simpa using this
  simp only [M.bind_apply, Expr.initLayer, hget, hi, M.lift_apply, ho, M.get_apply, M.set_apply, M.pure_apply, e1, e2, ha]
  simp [freshInfo]

/-! ### Copies -/

/-- `y` in `e` is a copy of `x` in `E`; `f` tells the copies made so far. -/
structure Copy (E e : Expr) (f : Nat → Option Nat) (x y : Nat) : Prop where
  lt : y < e.phs.length
  shape : phShape e y = phShape E x
  src : E.callOf x = none → e.callOf y = none
  call : ∀ c, E.callOf x = some c → ∃ c', e.callOf y = some c' ∧ c' < e.calls.length ∧
    (E.callArgs c).map f = (e.callArgs c').map some ∧ e.callInfo c' < e.infos.length ∧
    ∃ ps bs, initEntries (infoOf E (E.callInfo c)).op ((E.callArgs c).map (phShape E)) = .ok (ps, bs) ∧
      e.infos[e.callInfo c']? = some (freshInfo (infoOf E (E.callInfo c)).op (infoOf E (E.callInfo c)).name ps bs)

variable {E : Expr} {f f' : Nat → Option Nat} {x y : Nat}

theorem Copy.mono (h : Copy E e f x y) (hx : Ext e e') (hf : ∀ a b, f a = some b → f' a = some b) : Copy E e' f' x y where
  lt := Nat.lt_of_lt_of_le h.lt hx.phs_le
  shape := by rw [← h.shape]; simp only [phShape, hx.ph h.lt]
  src hs := by rw [← h.src hs]; simp only [Expr.callOf, hx.ph h.lt]
  call c hc := by
    obtain ⟨c', h1, h2, h3, h4, ps, bs, h5, h6⟩ := h.call c hc
    have e3 : e'.callArgs c' = e.callArgs c' := by simp only [Expr.callArgs, hx.call h2]
    have e4 : e'.callInfo c' = e.callInfo c' := by simp only [Expr.callInfo, hx.call h2]
    obtain ⟨q, hq⟩ := hx.calls
    obtain ⟨r, hr⟩ := hx.infos
    refine ⟨c', ?_, by rw [hq]; simp; omega, ?_, by rw [e4, hr]; simp; omega, ps, bs, h5, ?_⟩
    · rw [← h1]; simp only [Expr.callOf, hx.ph h.lt]
    · rw [e3, ← h3]
      apply List.map_congr_left
      intro a ha
      have : f a ∈ (e.callArgs c').map some := by rw [← h3]; exact List.mem_map_of_mem ha
      obtain ⟨b, -, hb⟩ := List.mem_map.1 this
      rw [← hb, hf a b hb.symm]
    · rw [e4, hx.info h4, h6]

/-- The table holds a copy of every placeholder of `D`. -/
structure Copied (E e : Expr) (id : Nat → Int) (tbl : List (Int × Nat)) (D : List Nat) : Prop where
  keys : tbl.map Prod.fst = D.map id
  nodup : (D.map id).Nodup
  vals : (tbl.map Prod.snd).Nodup
  copy : ∀ x ∈ D, ∃ y, tbl.lookup (id x) = some y ∧ Copy E e (fun a => tbl.lookup (id a)) x y
  lt : ∀ p ∈ tbl, p.2 < e.phs.length

theorem lookup_append_left {tbl l : List (Int × Nat)} {k : Int} {y : Nat} (h : tbl.lookup k = some y) :
    (tbl ++ l).lookup k = some y := by
  rw [List.lookup_append, h]; rfl

theorem lookup_none {tbl : List (Int × Nat)} {k : Int} (h : k ∉ tbl.map Prod.fst) : tbl.lookup k = none := by
  rw [List.lookup_eq_none_iff]
  intro p hp
  simp only [beq_eq_false_iff_ne, ne_eq, bne_iff_ne]
  rintro rfl
  exact h (List.mem_map_of_mem hp)

variable {id : Nat → Int} {tbl : List (Int × Nat)} {D : List Nat}

theorem Copied.push (h : Copied E e id tbl D) (hx : Ext e e') (hnew : (( D ++ [x]).map id).Nodup) (hlt : e.phs.length < e'.phs.length)
    (hc : Copy E e' (fun a => (tbl ++ [(id x, e.phs.length)]).lookup (id a)) x e.phs.length) :
    tbl.lookup (id x) = none ∧ Copied E e' id (tbl ++ [(id x, e.phs.length)]) (D ++ [x]) := by
  have hk : tbl.lookup (id x) = none := by
    apply lookup_none
    rw [h.keys]
    rw [List.map_append, List.nodup_append] at hnew
    intro hm
    exact hnew.2.2 _ hm _ (by simp) rfl
  refine ⟨hk, ?_, hnew, ?_, ?_, ?_⟩
  · rw [List.map_append, List.map_append, h.keys]; rfl
  · rw [List.map_append, List.nodup_append]
    refine ⟨h.vals, by simp, ?_⟩
    intro a ha b hb
    obtain ⟨p, hp, rfl⟩ := List.mem_map.1 ha
    have := h.lt p hp
    simp only [List.map_cons, List.map_nil, List.mem_singleton] at hb
    omega
  · intro z hz
    rcases List.mem_append.1 hz with hz | hz
    · obtain ⟨y, h1, h2⟩ := h.copy z hz
      exact ⟨y, lookup_append_left h1, h2.mono hx fun a b hab => lookup_append_left hab⟩
    · rw [List.mem_singleton] at hz
      subst hz
      refine ⟨e.phs.length, ?_, hc⟩
      rw [List.lookup_append, hk]
      simp
  · intro p hp
    rcases List.mem_append.1 hp with hp | hp
    · exact Nat.lt_of_lt_of_le (h.lt p hp) hx.phs_le
    · rw [List.mem_singleton] at hp
      rw [hp]; exact hlt

theorem buildInputs_ok {cfg : Config} : ∀ (xs D : List Nat) (tbl : List (Int × Nat)) (e : Expr), Copied E e id tbl D →
    ((D ++ xs).map id).Nodup → (∀ x ∈ xs, E.callOf x = none) →
    (∀ x ∈ xs, ∃ i, cfg.phMap.lookup (id x) = some (phShape E x, i)) →
    ∃ tbl' e', buildInputs cfg (xs.map id) tbl e = (.ok tbl', e') ∧ Ext e e' ∧ Copied E e' id tbl' (D ++ xs)
  | [], D, tbl, e, h, _, _, _ => ⟨tbl, e, rfl, .refl e, by simpa using h⟩
  | x :: xs, D, tbl, e, h, hn, hs, hp => by
    obtain ⟨i, hi⟩ := hp x (.head _)
    have hx : Ext e (Expr.placeholder (phShape E x) e).2 := ⟨⟨[⟨phShape E x, none⟩], rfl⟩, ⟨[], by simp [Expr.placeholder]⟩, ⟨[], by simp [Expr.placeholder]⟩⟩
    have hn' : ((D ++ [x] ++ xs).map id).Nodup := by simpa using hn
    obtain ⟨h1, h2⟩ := h.push hx (x := x) (by
      rw [List.map_append, List.nodup_append] at hn'
      exact hn'.1) (by simp [Expr.placeholder]) (by
      refine ⟨by simp [Expr.placeholder], by simp [Expr.placeholder, phShape], fun _ => by simp [Expr.placeholder, Expr.callOf], ?_⟩
      intro c hc
      rw [hs x (.head _)] at hc
      cases hc)
    obtain ⟨tbl', e', h3, h4, h5⟩ := buildInputs_ok xs (D ++ [x]) _ _ h2 hn' (fun y hy => hs y (.tail _ hy)) (fun y hy => hp y (.tail _ hy))
    refine ⟨tbl', e', ?_, hx.trans h4, by simpa using h5⟩
    rw [List.map_cons]
    unfold buildInputs
    simp only [M.bind_apply, M.lift_apply, hi, Out.at?]
    have hl : Expr.placeholder (phShape E x) e = (.ok e.phs.length, (Expr.placeholder (phShape E x) e).2) := rfl
    rw [hl]
    simp only [h1, Option.isSome_none, Bool.false_eq_true, if_false]
    exact h3

theorem mapM_at {tbl : List (Int × Nat)} : ∀ {l : List Int} {r : List Nat}, l.map (fun k => tbl.lookup k) = r.map some →
    l.mapM (fun k => Out.at? (tbl.lookup k)) = .ok r
  | [], [], _ => rfl
  | [], _ :: _, h => by simp at h
  | _ :: _, [], h => by simp at h
  | k :: l, y :: r, h => by
    rw [List.map_cons, List.map_cons, List.cons.injEq] at h
    rw [List.mapM_cons, h.1, mapM_at h.2]
    rfl

/-- Arguments before results. -/
inductive Ordered (E : Expr) (out : Nat → Nat) : List Nat → List Nat → Prop
  | nil (D : List Nat) : Ordered E out D []
  | cons {D : List Nat} {c : Nat} {cs : List Nat} : (∀ a ∈ E.callArgs c, a ∈ D) → Ordered E out (D ++ [out c]) cs → Ordered E out D (c :: cs)

/-- What the config says about call `c`. -/
structure Describes (E : Expr) (id : Nat → Int) (out : Nat → Nat) (o : OpInfo) (c : Nat) : Prop where
  name : o.name = (infoOf E (E.callInfo c)).name
  type : o.type = (infoOf E (E.callInfo c)).op.type
  attrs : o.attrs = (infoOf E (E.callInfo c)).op.attrs
  inIds : ∃ k, o.inIds = (E.callArgs c).map id ++ List.replicate k 0
  outIds : ∃ l, o.outIds = id (out c) :: l

theorem Copied.find (h : Copied E e id tbl D) {l : List Nat} (hl : ∀ a ∈ l, a ∈ D) :
    ∃ r : List Nat, l.map (fun a => tbl.lookup (id a)) = r.map some ∧ (∀ y ∈ r, y < e.phs.length) ∧ r.map (phShape e) = l.map (phShape E) := by
  induction l with
  | nil => exact ⟨[], rfl, by simp, rfl⟩
  | cons a l ih =>
    obtain ⟨r, h1, h2, h3⟩ := ih fun b hb => hl b (.tail _ hb)
    obtain ⟨y, h4, h5⟩ := h.copy a (hl a (.head _))
    refine ⟨y :: r, by rw [List.map_cons, List.map_cons, h1, h4], ?_, by rw [List.map_cons, List.map_cons, h3, h5.shape]⟩
    intro z hz
    rcases List.mem_cons.1 hz with rfl | hz
    · exact h5.lt
    · exact h2 z hz

theorem buildOps_ok {out : Nat → Nat} (ht : Typed E) : ∀ (cs : List Nat) (os : List OpInfo) (D : List Nat) (tbl : List (Int × Nat)) (e : Expr),
    Copied E e id tbl D → ((D ++ cs.map out).map id).Nodup → (∀ c ∈ cs, E.callOf (out c) = some c) → Ordered E out D cs →
    (cs ≠ [] → ∃ z ∈ D, id z = 0) → List.Forall₂ (Describes E id out) os cs →
    ∃ tbl' e', buildOps os tbl e = (.ok tbl', e') ∧ Ext e e' ∧ Copied E e' id tbl' (D ++ cs.map out)
  | [], [], D, tbl, e, h, _, _, _, _, _ => ⟨tbl, e, rfl, .refl e, by simpa using h⟩
  | c :: cs, o :: os, D, tbl, e, h, hn, hc, hord, hz, hd => by
    rw [List.forall₂_cons] at hd
    obtain ⟨hd, hds⟩ := hd
    cases hord with
    | cons hargs hord =>
    obtain ⟨⟨op, h1, h2, h3, ps, bs, h4⟩, h5⟩ := ht (out c) c (hc c (.head _))
    have hinf : infoOf E (E.callInfo c) = ((E.infos[E.callInfo c]?).getD ⟨"", .relu, [], []⟩) := rfl
    have hop : (infoOf E (E.callInfo c)).op = op := by
      rw [hinf]
      unfold opOf at h1
      cases hg : E.infos[E.callInfo c]? with
      | none => simp [hg] at h1
      | some inf => simpa [hg] using h1
    obtain ⟨args, g1, g2, g3⟩ := h.find hargs
    have hal : args.length = op.numIn := by
      have := congrArg List.length g1
      simp only [List.length_map] at this
      omega
    obtain ⟨k, hk⟩ := hd.inIds
    obtain ⟨l, hl⟩ := hd.outIds
    obtain ⟨z, hzD, hz0⟩ := hz (by simp)
    obtain ⟨zy, hzy, -⟩ := h.copy z hzD
    rw [hz0] at hzy
    have hin : o.inIds.mapM (fun k => Out.at? (tbl.lookup k)) = .ok (args ++ List.replicate k zy) := by
      apply mapM_at
      rw [hk, List.map_append, List.map_append, List.map_map, List.map_replicate, List.map_replicate, hzy, ← g1]
      rfl
    rw [← g3] at h3 h4
    have hml := makeLayer_ok (e := e) (op := op) (name := (infoOf E (E.callInfo c)).name) (ins := args ++ List.replicate k zy) (args := args)
      (by rw [← hal]; simp) hal g2 h4 h3
    generalize he1 : (⟨e.phs ++ [⟨phShape E (out c), some e.calls.length⟩], e.calls ++ [⟨e.infos.length, args⟩],
      e.infos ++ [freshInfo op (infoOf E (E.callInfo c)).name ps bs]⟩ : Expr) = e1 at hml
    have hx : Ext e e1 := by subst he1; exact ⟨⟨_, rfl⟩, ⟨_, rfl⟩, ⟨_, rfl⟩⟩
    have hn' : ((D ++ [out c] ++ cs.map out).map id).Nodup := by simpa using hn
    obtain ⟨h6, h7⟩ := h.push hx (x := out c) (by
      rw [List.map_append, List.nodup_append] at hn'
      exact hn'.1) (by subst he1; simp) (by
      refine ⟨by subst he1; simp, by subst he1; simp [phShape], fun hs => (by rw [hc c (.head _)] at hs; cases hs), ?_⟩
      intro d hd'
      rw [hc c (.head _), Option.some.injEq] at hd'
      subst hd'
      refine ⟨e.calls.length, by subst he1; simp [Expr.callOf], by subst he1; simp, ?_, by subst he1; simp [Expr.callInfo], ps, bs, ?_, ?_⟩
      · have : e1.callArgs e.calls.length = args := by subst he1; simp [Expr.callArgs]
        rw [this, ← g1]
        apply List.map_congr_left
        intro a ha
        obtain ⟨y, hy, -⟩ := h.copy a (hargs a ha)
        rw [hy, lookup_append_left hy]
      · rw [hop, ← g3]; exact h4
      · subst he1
        rw [hop]
        simp [Expr.callInfo])
    obtain ⟨tbl', e', h8, h9, h10⟩ := buildOps_ok ht cs os (D ++ [out c]) _ _ h7 hn' (fun d hd => hc d (.tail _ hd)) hord
      (fun _ => ⟨z, List.mem_append_left _ hzD, hz0⟩) hds
    refine ⟨tbl', e', ?_, hx.trans h9, by simpa using h10⟩
    unfold buildOps

    simp only [M.bind_apply, M.lift_apply, hin]
    have hout : Out.idx o.outIds 0 = .ok (id (out c)) := by rw [hl]; rfl
    have hnm := hd.name
    have hty := hd.type
    have hat := hd.attrs
    rw [hop] at hty hat
    simp only [hout, hnm, hty, hat, hml, h6, Option.isSome_none, Bool.false_eq_true, if_false]
    exact h8

end DW.RebuildL
