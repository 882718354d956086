import Verif.Lemmas.SampleNet
import Verif.Lemmas.Own
import Verif.Spec.Reload
import Verif.Props.Train
/-!
# Networks given as tables can be saved
-/

set_option autoImplicit false

namespace DW.SampleL

open DW DW.Spec DW.Samples DW.GraphL DW.Props.GraphP DW.RebuildL

/-! ### Layers are applied where they are made -/

/-- A program that leaves every layer object applied where it was created. -/
def Keeps {α : Type} (p : M Expr α) : Prop := ∀ e, Direct e → Direct (p e).2

theorem keeps_pure {α : Type} (a : α) : Keeps (pure a : M Expr α) := fun _ h => h
theorem keeps_lift {α : Type} (a : Out α) : Keeps (M.lift a : M Expr α) := fun _ h => h
theorem keeps_get : Keeps (M.get : M Expr Expr) := fun _ h => h
theorem keeps_placeholder (s : Shape) : Keeps (Expr.placeholder s) := fun _ h => .placeholder s h

theorem keeps_bind {α β : Type} {p : M Expr α} {f : α → M Expr β} (hp : Keeps p) (hf : ∀ a, Keeps (f a)) : Keeps (p >>= f) := fun e h => by
  have h1 := hp e h
  rw [M.bind_apply]
  rcases hpe : p e with ⟨o, e₁⟩
  rw [hpe] at h1
  cases o with
  | ok a => exact hf a e₁ h1
  | throw x => exact h1
  | ub x => exact h1

theorem use_eq (op : Op) (name : String) (args : List Nat) : use op name args = Expr.makeLayer op.type name op.attrs args := by
  have hop : makeOp op.type op.attrs = .ok op := by
    cases op <;> simp [makeOp, Op.type, attrAt, Op.attrs, getInt, getFloat, getInts, List.lookup]
  funext e
  unfold use Expr.makeLayer
  simp only [M.bind_apply, M.lift_apply, hop]

theorem keeps_use (op : Op) (name : String) (args : List Nat) : Keeps (use op name args) := fun e h => by
  rw [use_eq]
  exact .makeLayer _ _ _ _ h

theorem keeps_block (x : Nat) (c stride : Int) (down : Bool) : Keeps (createBasicBlock x c stride down) := by
  unfold createBasicBlock
  cases down <;> simp only [Bool.false_eq_true, if_false, if_true]
  all_goals
    repeat first
      | with_reducible exact keeps_use _ _ _
      | with_reducible exact keeps_pure _
      | with_reducible refine keeps_bind ?_ fun _ => ?_

theorem keeps_stage (x : Nat) (c stride : Int) : Keeps (makeStage x c stride) := by
  unfold makeStage
  exact keeps_bind keeps_get fun _ => keeps_bind (keeps_lift _) fun _ => keeps_bind (keeps_lift _) fun _ =>
    keeps_bind (keeps_block _ _ _ _) fun _ => keeps_block _ _ _ _

theorem direct_mnist (B : Int) : Direct (buildMNIST B {}).2 :=
  keeps_bind (keeps_placeholder _) (fun _ => keeps_bind (keeps_use _ _ _) fun _ => keeps_bind (keeps_use _ _ _) fun _ =>
    keeps_bind (keeps_use _ _ _) fun _ => keeps_bind (keeps_use _ _ _) fun _ => keeps_bind (keeps_use _ _ _) fun _ => keeps_pure _) _ .empty

theorem direct_iris (B : Int) : Direct (buildIris B {}).2 :=
  keeps_bind (keeps_placeholder _) (fun _ => keeps_bind (keeps_use _ _ _) fun _ => keeps_bind (keeps_use _ _ _) fun _ =>
    keeps_bind (keeps_use _ _ _) fun _ => keeps_bind (keeps_use _ _ _) fun _ => keeps_bind (keeps_use _ _ _) fun _ => keeps_pure _) _ .empty

theorem direct_cifar10 (B : Int) : Direct (buildCIFAR10 B {}).2 :=
  keeps_bind (keeps_placeholder _) (fun _ => keeps_bind (keeps_use _ _ _) fun _ => keeps_bind (keeps_use _ _ _) fun _ =>
    keeps_bind (keeps_use _ _ _) fun _ => keeps_bind (keeps_use _ _ _) fun _ => keeps_bind (keeps_use _ _ _) fun _ =>
    keeps_bind (keeps_use _ _ _) fun _ => keeps_bind (keeps_use _ _ _) fun _ => keeps_bind (keeps_use _ _ _) fun _ =>
    keeps_bind (keeps_use _ _ _) fun _ => keeps_bind (keeps_use _ _ _) fun _ => keeps_bind (keeps_use _ _ _) fun _ =>
    keeps_bind (keeps_use _ _ _) fun _ => keeps_bind (keeps_use _ _ _) fun _ => keeps_bind (keeps_use _ _ _) fun _ => keeps_pure _) _ .empty

theorem direct_resnet (B : Int) : Direct (buildResnet B {}).2 :=
  keeps_bind (keeps_placeholder _) (fun _ => keeps_bind (keeps_use _ _ _) fun _ => keeps_bind (keeps_use _ _ _) fun _ =>
    keeps_bind (keeps_use _ _ _) fun _ => keeps_bind (keeps_stage _ _ _) fun _ => keeps_bind (keeps_stage _ _ _) fun _ =>
    keeps_bind (keeps_stage _ _ _) fun _ => keeps_bind (keeps_use _ _ _) fun _ => keeps_bind (keeps_use _ _ _) fun _ =>
    keeps_bind (keeps_use _ _ _) fun _ => keeps_pure _) _ .empty

/-! ### The checks -/

/-- A short string of bytes. -/
def nameOk (s : String) : Bool := s.toList.all (fun c => decide (c.toNat < 256)) && decide (s.length ≤ 24)

def intOk (v : Int) : Bool := decide (-2 ^ 31 ≤ v ∧ v < 2 ^ 31)

def attrOk : AttrVal → Bool
  | .int v => intOk v
  | .float _ => true
  | .ints a b => intOk a && intOk b
  | .floats _ _ => true
  | .unsupported => false

/-- The tensors of the layer have short names, and shapes that can be written. -/
def tensorsOk (op : Op) (shs : List Shape) : Bool :=
  match initEntries op shs with
  | .ok (ps, bs) => decide ((ps ++ bs).length ≤ 4) && (ps ++ bs).all fun p =>
      nameOk p.1 && decide (p.2.length ≤ 4) && p.2.all intOk && decide (4 * p.2.prod.toNat < 2 ^ 63)
  | _ => false

/-- All that has to be checked of a table so that the model can be saved. -/
structure Savable (input : List Nat) (l : List Step) : Prop where
  count : l.length < 64
  names : (l.all fun s => nameOk s.name && nameOk s.op.type && nameOk (String.ofList (s.op.type.toList.map Char.toLower))) = true
  attrs : (l.all fun s => decide ((s.op.attrs.map Prod.fst).Nodup) && decide (s.op.attrs.length < 8) &&
    s.op.attrs.all fun a => nameOk a.1 && attrOk a.2) = true
  args : (l.all fun s => decide (s.args.length ≤ 2)) = true
  drop : (l.all fun s => match s.op with | .dropout _ => false | _ => true) = true
  tensors : (l.all fun s => tensorsOk s.op (s.args.map fun a => batchOf 1 (restAt input l a))) = true
  dims : input.length ≤ 3 ∧ (l.all fun s => decide (s.rest.length ≤ 3)) = true

theorem denseNet_savable : Savable [784] (denseNet 10) := by constructor <;> decide +kernel
theorem iris_savable : Savable [4] (denseNet 3) := by constructor <;> decide +kernel
theorem cifar10_savable : Savable [3, 32, 32] cifar10Net := by constructor <;> decide +kernel
theorem resnet_savable : Savable [3, 32, 32] resnet := by constructor <;> decide +kernel

/-! ### What follows -/

theorem nameOk_iff {s : String} (h : nameOk s = true) : OkStr 24 s := by
  simp only [nameOk, Bool.and_eq_true, List.all_eq_true, decide_eq_true_eq] at h
  exact ⟨h.1, h.2⟩

theorem intOk_iff {v : Int} (h : intOk v = true) : IsInt v := by
  simp only [intOk, decide_eq_true_eq] at h
  exact h

theorem okStr_mono {a b : Nat} {s : String} (h : OkStr a s) (hab : a ≤ b) : OkStr b s := ⟨h.1, Nat.le_trans h.2 hab⟩

theorem okStr_append {a b : Nat} {s t : String} (hs : OkStr a s) (ht : OkStr b t) : OkStr (a + b) (s ++ t) := by
  refine ⟨fun c hc => ?_, by rw [String.length_append]; exact Nat.add_le_add hs.2 ht.2⟩
  rw [String.toList_append] at hc
  rcases List.mem_append.1 hc with h | h
  · exact hs.1 c h
  · exact ht.1 c h

theorem okStr_nat {n : Nat} (hn : n ≤ 64) : OkStr 3 (toString n) := by
  have : ∀ n < 65, nameOk (toString n) = true ∧ (toString n).length ≤ 3 := by decide +kernel
  obtain ⟨h1, h2⟩ := this n (by omega)
  exact ⟨(nameOk_iff h1).1, h2⟩

variable {e : Expr} {B K lim : Nat} {input : List Nat} {l : List Step} {topo : Graph → List Node} {m : Model} {e' : Expr}

theorem prod_pos_of {r : List Nat} (h : r.all (0 < ·) = true) : 0 < r.prod := by
  induction r with
  | nil => simp
  | cons a r ih =>
    rw [List.all_cons, Bool.and_eq_true] at h
    rw [List.prod_cons]
    exact Nat.mul_pos (by simpa using h.1) (ih h.2)

theorem le_prod {r : List Nat} (h : r.all (0 < ·) = true) : ∀ a ∈ r, a ≤ r.prod := by
  induction r with
  | nil => simp
  | cons b r ih =>
    rw [List.all_cons, Bool.and_eq_true] at h
    have hb : 0 < b := by simpa using h.1
    have hr := prod_pos_of h.2
    intro a ha
    rw [List.prod_cons]
    rcases List.mem_cons.1 ha with rfl | ha
    · exact Nat.le_mul_of_pos_right _ hr
    · exact Nat.le_trans (ih h.2 a ha) (Nat.le_mul_of_pos_left _ hb)

theorem restAt_small (hc : Checked K input l) {x : Nat} (hx : x ≤ l.length) : small K (restAt input l x) = true := by
  cases x with
  | zero => exact hc.small.1
  | succ x =>
    simp only [restAt, List.getElem?_eq_getElem (show x < l.length from hx), Option.map_some, Option.getD_some]
    exact List.all_eq_true.1 hc.small.2 _ (List.getElem_mem _)

theorem restAt_length (hv : Savable input l) {x : Nat} (hx : x ≤ l.length) : (restAt input l x).length ≤ 3 := by
  cases x with
  | zero => exact hv.dims.1
  | succ x =>
    simp only [restAt, List.getElem?_eq_getElem (show x < l.length from hx), Option.map_some, Option.getD_some]
    simpa using List.all_eq_true.1 hv.dims.2 _ (List.getElem_mem (show x < l.length from hx))

/-- The shapes of a table can be written. -/
theorem net_shape_ok (h : IsNet e B input l) (hc : Checked K input l) (hv : Savable input l) (hB : 0 < B) (hK : B * K ≤ 2147483647)
    (hlim : 1000 ≤ lim) {x : Nat} (hx : x ≤ l.length) : OkInts lim (phShape e x) := by
  rw [net_phShape h hx]
  have h1 := restAt_small hc hx
  have h2 := restAt_length hv hx
  generalize restAt input l x = r at h1 h2
  simp only [small, Bool.and_eq_true, decide_eq_true_eq] at h1
  have hp := prod_pos_of h1.1
  have hBK : B ≤ B * K := Nat.le_mul_of_pos_right _ (by omega)
  have hKB : K ≤ B * K := Nat.le_mul_of_pos_left _ hB
  refine ⟨fun v hv => ?_, by simp [batchOf]; omega⟩
  rcases List.mem_cons.1 hv with rfl | hv
  · unfold IsInt; omega
  · obtain ⟨a, ha, rfl⟩ := List.mem_map.1 hv
    have := le_prod h1.1 a ha
    unfold IsInt; omega

theorem net_sortedOps (hr : Reachable e) (h : IsNet e B input l) (hs : SortsCorrectly topo e [0] [l.length])
    (hm : modelCtor topo [0] [l.length] e = (.ok m, e')) {c : Nat} (hc : c ∈ sortedOps m.sorted) : c < l.length := by
  obtain ⟨g, hg, -, hso, -⟩ := ctor_maps hr hm
  have ht := hs g hg
  rw [← hso] at ht
  obtain ⟨x, hx, -⟩ := (mem_opNodes hg c).1 ((ht.op c).1 (mem_sortedOps.1 hc))
  exact (net_callOf_inv h hx).2

theorem nodup_length_le {xs : List Nat} (hn : xs.Nodup) {k : Nat} (hx : ∀ x ∈ xs, x < k) : xs.length ≤ k := by
  have := (List.Nodup.subperm hn (l₂ := List.range k) fun x h => List.mem_range.2 (hx x h)).length_le
  simpa using this

theorem net_lengths (hr : Reachable e) (h : IsNet e B input l) (hc : Checked K input l) (hs : SortsCorrectly topo e [0] [l.length])
    (hm : modelCtor topo [0] [l.length] e = (.ok m, e')) :
    (sortedOps m.sorted).length ≤ l.length ∧ (sortedData m.sorted).length ≤ l.length + 1 := by
  obtain ⟨g, hg, -, hso, -⟩ := ctor_maps hr hm
  have ht := hs g hg
  rw [← hso] at ht
  refine ⟨nodup_length_le (nodup_sortedOps ht.nodup) fun c hc' => net_sortedOps hr h hs hm hc', nodup_length_le (nodup_sortedData ht.nodup) fun x hx => ?_⟩
  have := (net_data hr h hc hs hm x).1 hx
  omega

/-- The names of the layers are short. -/
theorem net_name (hr : Reachable e) (h : IsNet e B input l) (hc : Checked K input l) (hv : Savable input l)
    (hs : SortsCorrectly topo e [0] [l.length]) (hm : modelCtor topo [0] [l.length] e = (.ok m, e')) {c : Nat}
    (hcm : c ∈ sortedOps m.sorted) : OkStr 27 (opName e' c) := by
  have hlt := net_sortedOps hr h hs hm hcm
  obtain ⟨s, hsl⟩ : ∃ s, l[c]? = some s := ⟨_, List.getElem?_eq_getElem hlt⟩
  obtain ⟨-, -, -, -, he, -⟩ := ctor_maps hr hm
  rw [he, opName_nameOps hcm (by rw [net_callInfo h hlt, net_infos_length h]; exact hlt), net_callInfo h hlt, finalName]
  simp only [(net_info h hsl).1, (net_info h hsl).2]
  have hn := List.all_eq_true.1 hv.names s (List.mem_of_getElem? hsl)
  simp only [Bool.and_eq_true] at hn
  split
  · refine okStr_append (a := 24) (b := 3) (nameOk_iff hn.2) (okStr_nat ?_)
    have h1 := List.idxOf_le_length (a := c) (l := (sortedOps m.sorted).map e.callInfo)
    rw [List.length_map] at h1
    have := (net_lengths hr h hc hs hm).1
    have := hv.count
    omega
  · exact okStr_mono (nameOk_iff hn.1.1) (by omega)

theorem isInt_of {n : Nat} (h : n ≤ 1000) : IsInt (n : Int) := by unfold IsInt; omega

theorem okInts_of {xs : List Nat} (h : ∀ n ∈ xs, n ≤ 1000) (hlen : xs.length ≤ 100) (hlim : 1000 ≤ lim) :
    OkInts lim (xs.map fun n : Nat => (n : Int)) :=
  ⟨fun v hv => by obtain ⟨n, hn, rfl⟩ := List.mem_map.1 hv; exact isInt_of (h n hn), by rw [List.length_map]; omega⟩

/-- The configuration of the model can be written and read. -/
theorem net_cfg (hr : Reachable e) (h : IsNet e B input l) (hc : Checked K input l) (hv : Savable input l)
    (hs : SortsCorrectly topo e [0] [l.length]) (hm : modelCtor topo [0] [l.length] e = (.ok m, e')) (hB : 0 < B)
    (hK : B * K ≤ 2147483647) (hlim : 1000 ≤ lim) : OkCfg lim m.cfg := by
  obtain ⟨hl1, hl2⟩ := net_lengths hr h hc hs hm
  have hcnt := hv.count
  have hid : ∀ x, dataId m.sorted x ≤ 1000 := fun x => by
    have := List.idxOf_le_length (a := x) (l := sortedData m.sorted)
    unfold dataId; omega
  obtain ⟨k1, k2, -⟩ := data_ids hr hs hm
  have hw := wiring_partial hr hs (net_orderly hr h hc) hm
  have hdat := net_data hr h hc hs hm
  obtain ⟨g, hg, -, -, he, -, -, -, -, -, hcfg⟩ := ctor_maps hr hm
  have hfil : ∀ p : Nat → Bool, ((sortedData m.sorted).filter p).length ≤ 100 := fun p => by
    have := List.length_filter_le p (sortedData m.sorted); omega
  have hids : ∀ p : Nat → Bool, OkInts lim (((sortedData m.sorted).filter p).map fun x => (dataId m.sorted x : Int)) := fun p => by
    have := okInts_of (xs := ((sortedData m.sorted).filter p).map (dataId m.sorted)) (fun n hn => by
      obtain ⟨x, -, rfl⟩ := List.mem_map.1 hn; exact hid x) (by rw [List.length_map]; exact hfil p) hlim
    rwa [List.map_map] at this
  refine ⟨?_, ?_, ?_, ?_, ?_, ?_, ?_⟩
  · rw [hcfg]; exact hids _
  · rw [hcfg]; exact hids _
  · rw [k1]
    exact (List.nodup_range).map fun a b hab => by exact_mod_cast hab
  · intro p hp
    refine ⟨?_, ?_, k2 p hp⟩
    · rw [hcfg] at hp
      obtain ⟨x, -, rfl⟩ := List.mem_map.1 hp
      exact isInt_of (hid x)
    · rw [hcfg] at hp
      obtain ⟨x, hx, rfl⟩ := List.mem_map.1 hp
      have : phShape e' x = phShape e x := by rw [he]; simp [phShape, (nameOps_frame e (sortedOps m.sorted)).1]
      simp only [this]
      exact net_shape_ok h hc hv hB hK hlim ((hdat x).1 hx)
  · rw [hcfg]; simp only [createConfig, List.length_map]; omega
  · intro o ho
    obtain ⟨k, hk⟩ := List.getElem?_of_mem ho
    have hk' := hk
    rw [hcfg] at hk'
    simp only [createConfig, List.getElem?_map, Option.map_eq_some_iff] at hk'
    obtain ⟨c, hck, hoc⟩ := hk'
    have hcm := List.mem_of_getElem? hck
    have hlt := net_sortedOps hr h hs hm hcm
    obtain ⟨s, hsl⟩ : ∃ s, l[c]? = some s := ⟨_, List.getElem?_eq_getElem hlt⟩
    have hsm := List.mem_of_getElem? hsl
    obtain ⟨x, -, -, o', ho', hi, hou⟩ := hw k c hck
    obtain rfl : o = o' := Option.some.inj (hk.symm.trans ho')
    have hop : (infoOf e' (e'.callInfo c)).op = s.op := by
      have h1 : e'.callInfo c = c := by rw [he, callInfo_nameOps, net_callInfo h hlt]
      have h2 := tens_nameOps e (sortedOps m.sorted) c
      rw [h1, he]
      have := congrArg Prod.fst h2
      simp only [tens] at this
      rw [this, (net_info h hsl).2]
    have hname : o.name = opName e' c := by
      rw [← hoc]
      unfold opName infoOf
      cases e'.infos[e'.callInfo c]? <;> rfl
    have htype : o.type = s.op.type := by rw [← hoc]; simp only [hop]
    have hattrs : o.attrs = s.op.attrs := by rw [← hoc]; simp only [hop]
    have hn := List.all_eq_true.1 hv.names s hsm
    have ha := List.all_eq_true.1 hv.attrs s hsm
    simp only [Bool.and_eq_true, decide_eq_true_eq, List.all_eq_true] at hn ha
    have hargs : s.args.length ≤ 2 := by simpa using List.all_eq_true.1 hv.args s hsm
    refine ⟨?_, ?_, ?_, ?_, ?_, ?_, ?_⟩
    · rw [hname]; exact okStr_mono (net_name hr h hc hv hs hm hcm) (by omega)
    · rw [htype]; exact okStr_mono (nameOk_iff hn.1.2) (by omega)
    · rw [hi, net_callArgs h hsl]
      have := okInts_of (xs := s.args.map (dataId m.sorted)) (fun n hn => by
        obtain ⟨x, -, rfl⟩ := List.mem_map.1 hn; exact hid x) (by rw [List.length_map]; omega) hlim
      rwa [List.map_map] at this
    · rw [hou]
      exact okInts_of (xs := [dataId m.sorted x]) (fun n hn => by obtain rfl := List.mem_singleton.1 hn; exact hid x) (by simp) hlim
    · rw [hattrs]; exact ha.1.1
    · rw [hattrs]
      intro a hm
      refine ⟨okStr_mono (nameOk_iff (ha.2 a hm).1) (by omega), ?_⟩
      have := (ha.2 a hm).2
      cases hval : a.2 <;> rw [hval] at this <;> simp only [attrOk, Bool.and_eq_true] at this
      · exact intOk_iff this
      · trivial
      · exact ⟨intOk_iff this.1, intOk_iff this.2⟩
      · trivial
      · cases this
    · rw [hattrs]; omega
  · rw [hcfg]; simp only [createConfig, List.length_map]; omega

/-- What is known of the tensors of a layer. -/
def EntryOk (p : String × Shape) : Prop := OkStr 24 p.1 ∧ OkInts 16 p.2 ∧ 4 * p.2.prod.toNat < 2 ^ 63

theorem net_tensors (hr : Reachable e) (h : IsNet e B input l) (hc : Checked K input l) (hv : Savable input l) (hd : Direct e)
    (hs : SortsCorrectly topo e [0] [l.length]) (hm : modelCtor topo [0] [l.length] e = (.ok m, e')) {c : Nat}
    (hcm : c ∈ sortedOps m.sorted) :
    let inf := infoOf e' (e'.callInfo c)
    (inf.params.length + inf.buffers.length ≤ 4) ∧ (∀ p ∈ inf.params, EntryOk (p.1, p.2.shape)) ∧ ∀ b ∈ inf.buffers, EntryOk b := by
  intro inf
  have hlt := net_sortedOps hr h hs hm hcm
  obtain ⟨s, hsl⟩ : ∃ s, l[c]? = some s := ⟨_, List.getElem?_eq_getElem hlt⟩
  have hsm := List.mem_of_getElem? hsl
  obtain ⟨-, -, -, -, he, -⟩ := ctor_maps hr hm
  have hci : e'.callInfo c = c := by rw [he, callInfo_nameOps, net_callInfo h hlt]
  have htn : tens e' c = tens e c := by rw [he]; exact tens_nameOps e _ c
  have ht := List.all_eq_true.1 hv.tensors s hsm
  have hdr := List.all_eq_true.1 hv.drop s hsm
  have hb := initEntries_batch s.op (fun p hp => by rw [hp] at hdr; cases hdr) (s.args.map (restAt input l)) B
  rw [List.map_map, List.map_map] at hb
  have hargs : e.callArgs c = s.args := net_callArgs h hsl
  have hle : ∀ a ∈ s.args, a ≤ l.length := fun a ha => by
    have := (reachable_wf hr).arg_lt _ _ (net_callOf h hlt) a (by rw [hargs]; exact ha)
    omega
  have hshs : (e.callArgs c).map (phShape e) = s.args.map (batchOf B ∘ restAt input l) := by
    rw [hargs]
    exact List.map_congr_left fun a ha => net_phShape h (hle a ha)
  unfold tensorsOk at ht
  cases hi : initEntries s.op (s.args.map fun a => batchOf 1 (restAt input l a)) with
  | throw x => rw [hi] at ht; cases ht
  | ub x => rw [hi] at ht; cases ht
  | ok r =>
    obtain ⟨ps, bs⟩ := r
    rw [hi] at ht
    simp only [Bool.and_eq_true, decide_eq_true_eq, List.all_eq_true, List.length_append] at ht
    have hown := direct_own hd [l.length] c ⟨c + 1, net_callOf h hlt, net_needed hr h hc hlt⟩ ps bs (by
      rw [net_callInfo h hlt, (net_info h hsl).2, hshs, hb]; exact hi)
    rw [net_callInfo h hlt] at hown
    have hte : tens e c = (s.op, ps, bs) := by
      unfold tens
      rw [(net_info h hsl).2, hown.1, hown.2]
    rw [hte] at htn
    have hq : ∀ p ∈ ps ++ bs, EntryOk p := fun p hp => by
      obtain ⟨⟨⟨a1, a2⟩, a3⟩, a4⟩ := ht.2 p hp
      exact ⟨nameOk_iff a1, ⟨fun v hv => intOk_iff (a3 v hv), by omega⟩, a4⟩
    have hp' : inf.params.map (fun p => (p.1, p.2.shape)) = ps := by
      have := congrArg (fun t => t.2.1) htn
      simpa [tens, inf, hci] using this
    have hb' : inf.buffers = bs := by
      have := congrArg (fun t => t.2.2) htn
      simpa [tens, inf, hci] using this
    refine ⟨?_, fun p hp => hq _ (List.mem_append_left _ ?_), fun b hbm => hq _ (List.mem_append_right _ (hb' ▸ hbm))⟩
    · have := congrArg List.length hp'
      rw [List.length_map] at this
      rw [this, hb']; exact ht.1
    · rw [← hp']
      exact List.mem_map_of_mem hp

theorem lookup_getD {α : Type} {Q : α → Prop} {xs : List (String × α)} {k : String} {d : α} (h : ∀ p ∈ xs, Q p.2) (hd : Q d) :
    Q ((xs.lookup k).getD d) := by
  cases hl : xs.lookup k with
  | none => exact hd
  | some a => exact h (k, a) (Props.BackendP.lookup_mem hl)

/-- A state that can be written. -/
def ShapeOk (s : Shape) : Prop := OkInts 16 s ∧ 4 * s.prod.toNat < 2 ^ 63

theorem net_state (hr : Reachable e) (h : IsNet e B input l) (hc : Checked K input l) (hv : Savable input l) (hd : Direct e)
    (hs : SortsCorrectly topo e [0] [l.length]) (hm : modelCtor topo [0] [l.length] e = (.ok m, e')) :
    m.state.length ≤ 256 ∧ ∀ k ∈ m.state, OkStr 60 k.1 ∧ ShapeOk (tensorShape e' k.2) := by
  have hl := (net_lengths hr h hc hs hm).1
  have hcnt := hv.count
  have ht := fun c hcm => net_tensors (c := c) hr h hc hv hd hs hm hcm
  have hn := fun c hcm => net_name (c := c) hr h hc hv hs hm hcm
  obtain ⟨-, -, -, -, -, -, -, -, -, hst, -⟩ := ctor_maps hr hm
  have hnil : ShapeOk [] := by
    refine ⟨⟨by simp, by simp⟩, by decide⟩
  refine ⟨?_, fun k hk => ?_⟩
  · rw [hst]
    have : ∀ ops : List Nat, (∀ c ∈ ops, c ∈ sortedOps m.sorted) → (ops.flatMap (stateEntries e')).length ≤ 4 * ops.length := by
      intro ops
      induction ops with
      | nil => simp
      | cons c ops ih =>
        intro hmem
        have h1 := ih fun d hd => hmem d (List.mem_cons_of_mem _ hd)
        have h2 := (ht c (hmem c List.mem_cons_self)).1
        simp only [List.flatMap_cons, List.length_append, stateEntries, List.length_map, List.length_cons] at h1 ⊢
        omega
    have := this _ fun c hc => hc
    omega
  · rw [hst] at hk
    obtain ⟨c, hcm, hk⟩ := List.mem_flatMap.1 hk
    obtain ⟨-, h2, h3⟩ := ht c hcm
    have hkey : ∀ p, OkStr 24 p → OkStr 60 (key (opName e' c) p) := fun p hp => by
      have := okStr_append (okStr_append (hn c hcm) (b := 1) (t := ".") ⟨by decide +kernel, by decide⟩) hp
      exact okStr_mono this (by omega)
    rcases List.mem_append.1 hk with hk | hk
    · obtain ⟨p, hp, rfl⟩ := List.mem_map.1 hk
      refine ⟨hkey _ (h2 p hp).1, ?_⟩
      simp only [tensorShape]
      cases hl : (infoOf e' (e'.callInfo c)).params.lookup p.1 with
      | none => exact hnil
      | some q => exact (h2 (p.1, q) (Props.BackendP.lookup_mem hl)).2
    · obtain ⟨p, hp, rfl⟩ := List.mem_map.1 hk
      refine ⟨hkey _ (h3 p hp).1, ?_⟩
      simp only [tensorShape]
      exact lookup_getD (Q := ShapeOk) (fun q hq => (h3 q hq).2) hnil

/-- The state of the model can be written and read. -/
theorem net_dict (hr : Reachable e) (h : IsNet e B input l) (hc : Checked K input l) (hv : Savable input l) (hd : Direct e)
    (hs : SortsCorrectly topo e [0] [l.length]) (hm : modelCtor topo [0] [l.length] e = (.ok m, e')) (hlim : 1000 ≤ lim) {d : Dict}
    (hst : IsStateOf e' m d) : OkDict lim d := by
  obtain ⟨hlen, hent⟩ := net_state hr h hc hv hd hs hm
  obtain ⟨bytes, hb, hp⟩ := hst
  have hmem : ∀ en ∈ d, ∃ k ∈ m.state, en = (k.1, ⟨tensorShape e' k.2, bytes k.2⟩) := fun en hen => by
    obtain ⟨k, hk, rfl⟩ := List.mem_map.1 (hp.mem_iff.1 hen)
    exact ⟨k, hk, rfl⟩
  refine ⟨?_, ?_, ?_, ?_, ?_⟩
  · refine (hp.map Prod.fst).nodup_iff.2 ?_
    have := (keys_distinct hr hm).2
    unfold stateDict
    rwa [List.map_map]
  · intro en hen
    obtain ⟨k, hk, rfl⟩ := hmem en hen
    exact okStr_mono (hent k hk).1 (by omega)
  · intro en hen
    obtain ⟨k, hk, rfl⟩ := hmem en hen
    exact ⟨(hent k hk).2.1.1, Nat.le_trans (hent k hk).2.1.2 (by omega)⟩
  · intro en hen
    obtain ⟨k, hk, rfl⟩ := hmem en hen
    have := (hent k hk).2.2
    rw [← hb k.2] at this
    exact this
  · rw [hp.length_eq]
    simp only [stateDict, List.length_map]
    omega

/-- **The models of tables can be saved and loaded.** -/
theorem net_restorable (hr : Reachable e) (h : IsNet e B input l) (hc : Checked K input l) (hv : Savable input l) (hd : Direct e)
    (hs : SortsCorrectly topo e [0] [l.length]) (hm : modelCtor topo [0] [l.length] e = (.ok m, e')) (hB : 0 < B)
    (hK : B * K ≤ 2147483647) (hlim : 1000 ≤ lim) (hlim' : lim < 2 ^ 63) {d : Dict} (hst : IsStateOf e' m d) {e₂ : Expr}
    {topo₂ : Graph → List Node} {fresh : Expr → Model → Dict} (hr₂ : Reachable e₂) (hs₂ : SortsRebuilt topo₂ m.cfg e₂)
    (hf : ∀ e m, IsStateOf e m (fresh e m)) : Restorable lim topo e [0] [l.length] m e' d e₂ topo₂ fresh where
  limit := hlim'
  ctor := hm
  state := hst
  cfg := net_cfg hr h hc hv hs hm hB hK hlim
  dict := net_dict hr h hc hv hd hs hm hlim hst
  reachable := hr₂
  sorts := hs₂
  fresh := hf
  sources := by
    intro x hx
    obtain ⟨g, hg, hmg, -⟩ := ctor_maps hr hm
    have hx' : x ≤ l.length := by
      rw [← net_data hr h hc hs hm x, ReloadL.mem_dataOf hr hs hm, hmg, takesPart_of_ok (reachable_wf hr) hg]
      exact hx
    cases x with
    | zero => simp [net_callOf_zero h]
    | succ x => simp [net_callOf h hx']
  apart := by
    have := hc.some
    intro x hx
    obtain rfl := List.mem_singleton.1 hx
    simp; omega
  insOrder := List.pairwise_singleton _ _
  outsOrder := List.pairwise_singleton _ _
  own := by
    have := Direct.model topo [0] [l.length] hd
    rw [hm] at this
    exact direct_own this _

end DW.SampleL
