import Verif.Lemmas.GraphWF
/-!
# Lemmas on wiring, names and the maps of a model
-/

set_option autoImplicit false

namespace DW

open DW.Spec

namespace GraphL

variable {e : Expr}

/-! ### Edges of one call -/

theorem argLinks_filter_self (c : Nat) : (argLinks e c).filter (fun l => l.2.1 == c) = argLinks e c := by
  rw [List.filter_eq_self]
  intro l hl
  simpa using (mem_argLinks.1 hl).1

theorem argLinks_filter_ne {c c' : Nat} (h : c' ≠ c) :
    (argLinks e c').filter (fun l => l.2.1 == c) = [] := by
  rw [List.filter_eq_nil_iff]
  intro l hl
  have := (mem_argLinks.1 hl).1
  simp [this, h]

theorem inLinks_filter (c : Nat) : ∀ ops : List Nat,
    (ops.flatMap (argLinks e)).filter (fun l => l.2.1 == c) =
      (List.replicate (ops.count c) (argLinks e c)).flatten
  | [] => rfl
  | d :: ops => by
    rw [List.flatMap_cons, List.filter_append, inLinks_filter c ops]
    by_cases h : d = c
    · subst h
      rw [argLinks_filter_self, List.count_cons_self, List.replicate_succ, List.flatten_cons]
    · rw [argLinks_filter_ne h, List.count_cons_of_ne h, List.nil_append]

theorem outLinks_filter (wf : WF e) {x c : Nat} (hc : e.callOf x = some c) : ∀ data : List Nat,
    (data.filterMap (fun y => (e.callOf y).map fun c => (c, y))).filter (fun l => l.1 == c) =
      List.replicate ((data.filterMap e.callOf).count c) (c, x)
  | [] => rfl
  | y :: data => by
    cases hy : e.callOf y with
    | none => simp [hy, outLinks_filter wf hc data]
    | some d =>
      rw [List.filterMap_cons, List.filterMap_cons]
      simp only [hy, Option.map_some]
      by_cases h : d = c
      · subst h
        have : y = x := wf.call_inj _ _ _ hy hc
        subst this
        rw [List.count_cons_self, List.replicate_succ, List.filter_cons_of_pos (by simp),
          outLinks_filter wf hc data]
      · rw [List.count_cons_of_ne h, List.filter_cons_of_neg (by simpa using h),
          outLinks_filter wf hc data]

/-! ### Port writes -/

theorem setPorts (f : Nat → Nat) : ∀ (l pre mid rest : List Nat), mid.length = l.length →
    ((l.zipIdx pre.length).map fun p => (f p.1, p.2)).foldl (fun ids p => ids.set p.2 p.1)
      (pre ++ mid ++ rest) = pre ++ l.map f ++ rest
  | [], pre, mid, rest, h => by
    have : mid = [] := List.eq_nil_of_length_eq_zero (by simpa using h)
    subst this; simp
  | a :: l, pre, m :: mid, rest, h => by
    have := setPorts f l (pre ++ [f a]) mid rest (by simpa using h)
    simp only [List.length_append, List.length_cons, List.length_nil] at this
    simpa using this
  | a :: l, pre, [], rest, h => by simp at h

theorem setPorts_repeat (f : Nat → Nat) (l : List Nat) : ∀ (k : Nat) (mid rest : List Nat),
    mid.length = l.length → 0 < k →
    (List.replicate k (l.zipIdx.map fun p => (f p.1, p.2))).flatten.foldl
      (fun ids p => ids.set p.2 p.1) (mid ++ rest) = l.map f ++ rest
  | 0, _, _, _, h => by omega
  | 1, mid, rest, hm, _ => by simpa using setPorts f l [] mid rest hm
  | k + 2, mid, rest, hm, _ => by
    rw [List.replicate_succ, List.flatten_cons, List.foldl_append]
    have := setPorts f l [] mid rest hm
    simp only [List.length_nil, List.nil_append] at this
    rw [this]
    exact setPorts_repeat f l (k + 1) _ rest (by simp) (by omega)

theorem portIds_repeat (f : Nat → Nat) (l : List Nat) (k : Nat) (hk : 0 < k) :
    portIds (List.replicate k (l.zipIdx.map fun p => (f p.1, p.2))).flatten =
      l.map f ++ List.replicate ((k - 1) * l.length) 0 := by
  unfold portIds
  have hlen : (List.replicate k (l.zipIdx.map fun p => (f p.1, p.2))).flatten.length =
      l.length + (k - 1) * l.length := by
    obtain ⟨k, rfl⟩ : ∃ j, k = j + 1 := ⟨k - 1, by omega⟩
    simp [List.length_flatten, Nat.succ_mul]; omega
  rw [hlen, List.replicate_add]
  exact setPorts_repeat f l k _ _ (by simp) hk

theorem portIds_zero (v k : Nat) : portIds (List.replicate (k + 1) (v, 0)) = v :: List.replicate k 0 := by
  unfold portIds
  have h : ∀ (n : Nat) (rest : List Nat) (w : Nat), (List.replicate n (v, 0)).foldl
      (fun (ids : List Nat) (p : Nat × Nat) => ids.set p.2 p.1) (v :: rest) = v :: rest := by
    intro n
    induction n with
    | zero => intros; rfl
    | succ n ih => intro rest w; rw [List.replicate_succ, List.foldl_cons]; exact ih rest w
  rw [List.length_replicate, List.replicate_succ, List.replicate_succ, List.foldl_cons]
  exact h k _ 0

section
variable {ins outs : List Nat} {g : Graph}

/-- How often `unroll` lists the call: 1 in the intended case. -/
def visits (e : Expr) (outs : List Nat) (c : Nat) : Nat :=
  ((unroll e outs).map fun u => u.ops.count c).getD 0

theorem visits_pos (h : buildGraph e ins outs = .ok g) {c : Nat} (hc : NeededCall e outs c) :
    0 < visits e outs c := by
  obtain ⟨u, hu, -⟩ := build_ok h
  simp only [visits, hu, Option.map_some, Option.getD_some]
  exact List.count_pos_iff.2 ((mem_unroll_ops hu c).2 hc)

theorem inIds_eq (h : buildGraph e ins outs = .ok g) (sorted : List Node) {c : Nat}
    (hc : NeededCall e outs c) :
    inIds g sorted c = (e.callArgs c).map (dataId sorted) ++
      List.replicate ((visits e outs c - 1) * (e.callArgs c).length) 0 := by
  have hv := visits_pos h hc
  obtain ⟨u, hu, h1, -⟩ := build_ok h
  have hcount : visits e outs c = u.ops.count c := by simp [visits, hu]
  rw [inIds, h1, inLinks_filter, ← portIds_repeat _ _ _ hv, hcount, List.map_flatten, List.map_replicate]
  congr 3
  simp [argLinks, Function.comp_def]

theorem outIds_eq (wf : WF e) (h : buildGraph e ins outs = .ok g) (sorted : List Node) {c x : Nat}
    (hc : e.callOf x = some c) (hx : NeededBy e outs x) :
    outIds g sorted c = dataId sorted x :: List.replicate (visits e outs c - 1) 0 := by
  have hv := visits_pos h ⟨x, hc, hx⟩
  obtain ⟨u, hu, -, h1, -⟩ := build_ok h
  have hcount : visits e outs c = u.ops.count c := by simp [visits, hu]
  rw [outIds, h1, outLinks_filter wf hc, ← (unroll_spec hu).2, List.map_replicate, hcount]
  obtain ⟨k, hk⟩ : ∃ k, u.ops.count c = k + 1 := ⟨visits e outs c - 1, by omega⟩
  rw [hk, portIds_zero]
  simp

theorem mkLayer_eq (wf : WF e) (h : buildGraph e ins outs = .ok g) (e' : Expr) {c x : Nat}
    (hc : e.callOf x = some c) :
    mkLayer e' g c = ⟨e'.callInfo c, (List.replicate (visits e outs c) (e.callArgs c)).flatten,
      List.replicate (visits e outs c) x⟩ := by
  obtain ⟨u, hu, h1, h2, -⟩ := build_ok h
  have hcount : visits e outs c = u.ops.count c := by simp [visits, hu]
  unfold mkLayer
  rw [h1, h2, inLinks_filter, outLinks_filter wf hc, ← (unroll_spec hu).2, hcount]
  congr 1
  · rw [List.map_flatten, List.map_replicate]
    congr 2
    simp [argLinks, Function.comp_def]
  · simp

end

/-! ### Orders in which nothing is visited twice -/

theorem unrollLoop_nodup (outs : List Nat) (ho : Orderly e outs) :
    ∀ (n : Nat) (stack reached : List Nat) (acc u : Unrolled),
    unrollLoop e n stack reached acc = some u →
    (∀ x ∈ stack, NeededBy e outs x) →
    (∀ x, x ∈ reached ↔ x ∈ acc.data) →
    (acc.data.filter fun x => (e.callOf x).isSome).Nodup →
    (stack.Pairwise fun b a => (e.callOf a).isSome → ¬ Needs e b a) →
    (∀ x ∈ stack, (e.callOf x).isSome → x ∉ reached) →
    (u.data.filter fun x => (e.callOf x).isSome).Nodup
  | n, [], reached, acc, u, h, _, _, hn, _, _ => by
    have : u = acc := by cases n <;> simp [unrollLoop] at h <;> exact h.symm
    rwa [this]
  | 0, x :: stack, reached, acc, u, h, _, _, _, _, _ => by simp [unrollLoop] at h
  | n + 1, x :: stack, reached, acc, u, h, hns, hr, hnd, hpw, hur => by
    unfold unrollLoop at h
    simp only at h
    have hpw' := List.pairwise_cons.1 hpw
    cases hc : e.callOf x with
    | none =>
      simp only [hc] at h
      refine unrollLoop_nodup outs ho n stack _ _ u h (fun y hy => hns y (by simp [hy])) ?_ ?_ hpw'.2 ?_
      · intro y; simp [hr]; tauto
      · simpa [List.filter_append, hc] using hnd
      · intro y hy hyc hm
        rcases List.mem_cons.1 hm with rfl | hm
        · simp [hc] at hyc
        · exact hur y (by simp [hy]) hyc hm
    | some c =>
      simp only [hc] at h
      rw [push_eq] at h
      refine unrollLoop_nodup outs ho n _ _ _ u h ?_ ?_ ?_ ?_ ?_
      · intro y hy
        rcases List.mem_append.1 hy with hy | hy
        · exact needed_arg (hns x (by simp)) (by
            rw [argsOf_some hc]; exact (List.mem_filter.1 (List.mem_reverse.1 hy)).1)
        · exact hns y (by simp [hy])
      · intro y; simp [hr]; tauto
      · rw [List.filter_append, List.nodup_append]
        refine ⟨hnd, ?_, ?_⟩
        · simp [hc]
        · intro a ha b hb
          simp only [List.mem_filter, List.mem_singleton] at ha hb
          intro heq
          rw [heq, hb.1] at ha
          exact hur x (by simp) (by simp [hc]) ((hr x).2 ha.1)
      · rw [List.pairwise_append]
        refine ⟨?_, hpw'.2, ?_⟩
        · rw [List.pairwise_reverse]
          have := ho.argsOrd x (hns x (by simp))
          rw [argsOf_some hc] at this
          exact this.filter _
        · intro b hb a ha hac hn
          have hb' : b ∈ e.argsOf x := by
            rw [argsOf_some hc]; exact (List.mem_filter.1 (List.mem_reverse.1 hb)).1
          exact hpw'.1 a ha hac (Needs.trans (Needs.of_arg hb') hn)
      · intro y hy hyc hm
        rcases List.mem_append.1 hy with hy' | hy'
        · have := (List.mem_filter.1 (List.mem_reverse.1 hy')).2
          simp only [List.mem_cons] at hm
          simp at this
          tauto
        · rcases List.mem_cons.1 hm with rfl | hm
          · exact hpw'.1 y hy' hyc (.refl y)
          · exact hur y (by simp [hy']) hyc hm

theorem filterMap_filter_isSome {α β : Type} (f : α → Option β) : ∀ l : List α,
    (l.filter fun x => (f x).isSome).filterMap f = l.filterMap f
  | [] => rfl
  | a :: l => by
    cases h : f a <;> simp [h, filterMap_filter_isSome f l]

theorem filterMap_nodup (wf : WF e) : ∀ {l : List Nat}, l.Nodup → (l.filterMap e.callOf).Nodup
  | [], _ => by simp
  | a :: l, h => by
    obtain ⟨h1, h2⟩ := List.nodup_cons.1 h
    cases hc : e.callOf a with
    | none => simpa [List.filterMap_cons, hc] using filterMap_nodup wf h2
    | some c =>
      rw [List.filterMap_cons]
      simp only [hc]
      rw [List.nodup_cons]
      refine ⟨?_, filterMap_nodup wf h2⟩
      intro hm
      obtain ⟨y, hy, hcy⟩ := List.mem_filterMap.1 hm
      exact h1 (wf.call_inj _ _ _ hc hcy ▸ hy)

theorem orderly_ops_nodup (wf : WF e) {outs : List Nat} (ho : Orderly e outs) {u : Unrolled}
    (hu : unroll e outs = some u) : u.ops.Nodup := by
  have h : (u.data.filter fun x => (e.callOf x).isSome).Nodup := by
    have hu' := hu
    unfold unroll at hu'
    rw [outs_stack] at hu'
    refine unrollLoop_nodup outs ho _ _ _ _ u hu' ?_ (by simp) (by simp) ?_ (by simp)
    · intro x hx; exact ⟨x, List.mem_reverse.1 hx, .refl x⟩
    · rw [List.pairwise_reverse]; exact ho.outsOrd
  rw [(unroll_spec hu).2, ← filterMap_filter_isSome]
  exact filterMap_nodup wf h

theorem orderly_visits (wf : WF e) {ins outs : List Nat} {g : Graph}
    (h : buildGraph e ins outs = .ok g) (ho : Orderly e outs) {c : Nat} (hc : NeededCall e outs c) :
    visits e outs c = 1 := by
  have hp := visits_pos h hc
  obtain ⟨u, hu, -⟩ := build_ok h
  have hn := orderly_ops_nodup wf ho hu
  have hle := List.nodup_iff_count_le_one.1 hn c
  simp only [visits, hu, Option.map_some, Option.getD_some] at hp ⊢
  omega

/-! ### Sorted data and operations -/

theorem filterMap_nodup_of_inj {α β : Type} {f : α → Option β} {l : List α} (h : l.Nodup)
    (hf : ∀ a ∈ l, ∀ b ∈ l, ∀ c, f a = some c → f b = some c → a = b) : (l.filterMap f).Nodup := by
  induction l with
  | nil => simp
  | cons a l ih =>
    obtain ⟨h1, h2⟩ := List.nodup_cons.1 h
    have ih := ih h2 (fun a ha b hb => hf a (by simp [ha]) b (by simp [hb]))
    cases hc : f a with
    | none => simpa [List.filterMap_cons, hc] using ih
    | some c =>
      rw [List.filterMap_cons]
      simp only [hc]
      rw [List.nodup_cons]
      refine ⟨?_, ih⟩
      intro hm
      obtain ⟨y, hy, hcy⟩ := List.mem_filterMap.1 hm
      exact h1 (hf a (by simp) y (by simp [hy]) c hc hcy ▸ hy)

theorem mem_sortedData {sorted : List Node} {x : Nat} : x ∈ sortedData sorted ↔ .data x ∈ sorted := by
  unfold sortedData
  rw [List.mem_filterMap]
  constructor
  · rintro ⟨n, hn, h⟩
    cases n <;> simp [Node.data?] at h
    subst h; exact hn
  · intro h; exact ⟨_, h, rfl⟩

theorem mem_sortedOps {sorted : List Node} {x : Nat} : x ∈ sortedOps sorted ↔ .op x ∈ sorted := by
  unfold sortedOps
  rw [List.mem_filterMap]
  constructor
  · rintro ⟨n, hn, h⟩
    cases n <;> simp [Node.op?] at h
    subst h; exact hn
  · intro h; exact ⟨_, h, rfl⟩

theorem nodup_sortedData {sorted : List Node} (h : sorted.Nodup) : (sortedData sorted).Nodup := by
  apply filterMap_nodup_of_inj h
  intro a _ b _ c ha hb
  cases a <;> cases b <;> simp [Node.data?] at ha hb
  rw [ha, hb]

theorem nodup_sortedOps {sorted : List Node} (h : sorted.Nodup) : (sortedOps sorted).Nodup := by
  apply filterMap_nodup_of_inj h
  intro a _ b _ c ha hb
  cases a <;> cases b <;> simp [Node.op?] at ha hb
  rw [ha, hb]

/-- Positions among the selected nodes are ordered as in the whole list. -/
theorem idxOf_filterMap_lt {β : Type} [DecidableEq β] (f : Node → Option β)
    (hinj : ∀ a b c, f a = some c → f b = some c → a = b) {n m : Node} {x y : β}
    (hn : f n = some x) (hm : f m = some y) : ∀ {l : List Node}, m ∈ l →
    l.idxOf n < l.idxOf m → (l.filterMap f).idxOf x < (l.filterMap f).idxOf y
  | [], h, _ => by simp at h
  | a :: l, h, hlt => by
    by_cases han : a = n
    · subst han
      rw [List.filterMap_cons]
      simp only [hn]
      have hne : x ≠ y := by
        rintro rfl
        have := hinj _ _ _ hn hm
        subst this
        exact absurd hlt (Nat.lt_irrefl _)
      rw [List.idxOf_cons_self, List.idxOf_cons_ne _ hne]
      omega
    · have ham : a ≠ m := by
        rintro rfl
        rw [List.idxOf_cons_self] at hlt; omega
      rw [List.idxOf_cons_ne _ han, List.idxOf_cons_ne _ ham] at hlt
      have ih := idxOf_filterMap_lt f hinj hn hm (l := l) (by
        rcases List.mem_cons.1 h with h | h
        · exact absurd h.symm ham
        · exact h) (by omega)
      rw [List.filterMap_cons]
      cases hfa : f a with
      | none => simpa using ih
      | some z =>
        simp only
        have h1 : z ≠ x := by rintro rfl; exact han (hinj _ _ _ hfa hn)
        have h2 : z ≠ y := by rintro rfl; exact ham (hinj _ _ _ hfa hm)
        rw [List.idxOf_cons_ne _ h1, List.idxOf_cons_ne _ h2]
        omega

theorem dataId_lt_of {sorted : List Node} {x y : Nat} (hy : .data y ∈ sorted)
    (h : sorted.idxOf (.data x) < sorted.idxOf (.data y)) : dataId sorted x < dataId sorted y :=
  idxOf_filterMap_lt Node.data? (by
    intro a b c ha hb
    cases a <;> cases b <;> simp [Node.data?] at ha hb
    rw [ha, hb]) rfl rfl hy h

theorem opPos_lt_of {sorted : List Node} {x y : Nat} (hy : .op y ∈ sorted)
    (h : sorted.idxOf (.op x) < sorted.idxOf (.op y)) :
    (sortedOps sorted).idxOf x < (sortedOps sorted).idxOf y :=
  idxOf_filterMap_lt Node.op? (by
    intro a b c ha hb
    cases a <;> cases b <;> simp [Node.op?] at ha hb
    rw [ha, hb]) rfl rfl hy h

/-! ### Names -/

theorem generatedName_ne_empty (t : String) (i : Nat) : generatedName t i ≠ "" := by
  intro h
  have : (generatedName t i).toList = [] := by rw [h]; rfl
  rw [generatedName, String.toList_append, List.append_eq_nil_iff] at this
  have h2 : (toString i).toList = Nat.toDigits 10 i := Nat.toList_repr
  rw [h2] at this
  exact Nat.toDigits_ne_nil this.2

theorem callInfo_nameOp (e : Expr) (c idx d : Nat) : (nameOp e c idx).callInfo d = e.callInfo d := by
  simp [Expr.callInfo, (nameOp_frame e c idx).2.1]

theorem callInfo_nameOps (e : Expr) (ops : List Nat) (d : Nat) :
    (nameOps e ops).callInfo d = e.callInfo d := by
  simp [Expr.callInfo, (nameOps_frame e ops).2.1]

theorem callArgs_nameOps (e : Expr) (ops : List Nat) (d : Nat) :
    (nameOps e ops).callArgs d = e.callArgs d := by
  simp [Expr.callArgs, (nameOps_frame e ops).2.1]

theorem callOf_nameOps (e : Expr) (ops : List Nat) (d : Nat) :
    (nameOps e ops).callOf d = e.callOf d := by
  simp [Expr.callOf, (nameOps_frame e ops).1]

theorem nameOp_infos (e : Expr) (c idx i : Nat) : (nameOp e c idx).infos[i]? =
    (e.infos[i]?).map fun inf =>
      if i = e.callInfo c ∧ inf.name = "" then { inf with name := generatedName inf.op.type idx } else inf := by
  unfold nameOp
  simp only
  by_cases hi : i = e.callInfo c
  · subst hi
    cases h : e.infos[e.callInfo c]? with
    | none => simp [h]
    | some inf =>
      simp only
      split
      · rename_i hn
        simp [hn, List.getElem?_set_self', h]
      · rename_i hn
        simp [hn, h]
  · cases h : e.infos[e.callInfo c]? with
    | none => simp [hi]
    | some inf =>
      simp only
      split
      · simp [hi, List.getElem?_set_ne (Ne.symm hi)]
      · simp [hi]

theorem nameFold_infos (i : Nat) : ∀ (ops : List Nat) (off : Nat) (e : Expr),
    ((ops.zipIdx off).foldl (fun e p => nameOp e p.1 p.2) e).infos[i]? =
    (e.infos[i]?).map fun inf =>
      if i ∈ ops.map e.callInfo ∧ inf.name = "" then
        { inf with name := generatedName inf.op.type (off + (ops.map e.callInfo).idxOf i) }
      else inf
  | [], off, e => by simp
  | c :: ops, off, e => by
    rw [List.zipIdx_cons, List.foldl_cons, nameFold_infos i ops (off + 1)]
    have hci : ops.map (nameOp e c off).callInfo = ops.map e.callInfo := by
      apply List.map_congr_left; intro d _; exact callInfo_nameOp e c off d
    simp only [hci]
    rw [nameOp_infos]
    cases h : e.infos[i]? with
    | none => rfl
    | some inf =>
      simp only [Option.map_some, Option.some.injEq, List.map_cons, List.mem_cons]
      by_cases hi : i = e.callInfo c
      · subst hi
        by_cases hn : inf.name = ""
        · simp [hn, generatedName_ne_empty]
        · simp [hn]
      · by_cases hm : i ∈ ops.map e.callInfo
        · by_cases hn : inf.name = ""
          · rw [List.idxOf_cons_ne _ (Ne.symm hi)]
            simp only [hi, hm, hn, false_and, if_false, and_self, if_true, or_true]
            congr 2
            omega
          · simp [hi, hn]
        · simp [hi, hm]

theorem nameOps_infos (e : Expr) (ops : List Nat) (i : Nat) : (nameOps e ops).infos[i]? =
    (e.infos[i]?).map fun inf =>
      if i ∈ ops.map e.callInfo ∧ inf.name = "" then
        { inf with name := generatedName inf.op.type ((ops.map e.callInfo).idxOf i) }
      else inf := by
  have := nameFold_infos i ops 0 e
  simpa [nameOps] using this

theorem opName_nameOps {ops : List Nat} {c : Nat} (hc : c ∈ ops)
    (hl : e.callInfo c < e.infos.length) :
    opName (nameOps e ops) c = finalName e ops (e.callInfo c) := by
  unfold opName finalName
  rw [callInfo_nameOps, nameOps_infos]
  simp only [List.getElem?_eq_getElem hl, Option.map_some, Option.getD_some, infoOf]
  have hm : e.callInfo c ∈ ops.map e.callInfo := List.mem_map_of_mem hc
  by_cases hn : e.infos[e.callInfo c].name = ""
  · simp [hm, hn]
  · simp [hn]

theorem checkNames_eq (e : Expr) : ∀ (ops : List Nat) (seen : List String),
    checkNames e ops seen =
      if (ops.map (opName e)).Nodup ∧ ∀ c ∈ ops, opName e c ∉ seen then .ok () else .throw .dw
  | [], seen => by simp [checkNames]
  | c :: ops, seen => by
    unfold checkNames
    split
    · rename_i h
      rw [if_neg]
      rintro ⟨-, h'⟩
      exact h' c (by simp) h
    · rename_i h
      rw [checkNames_eq e ops]
      congr 1
      simp only [List.map_cons, List.nodup_cons, List.mem_map, List.mem_cons, eq_iff_iff]
      constructor
      · rintro ⟨h1, h2⟩
        refine ⟨⟨?_, h1⟩, ?_⟩
        · rintro ⟨d, hd, hdc⟩
          exact h2 d hd (.inl hdc)
        · rintro d (rfl | hd)
          · exact h
          · exact fun hs => h2 d hd (.inr hs)
      · rintro ⟨⟨h1, h2⟩, h3⟩
        refine ⟨h2, fun d hd hs => ?_⟩
        rcases hs with hs | hs
        · exact h1 ⟨d, hd, hs⟩
        · exact h3 d (.inr hd) hs

/-! ### The constructor -/

section ctor
variable {topo : Graph → List Node} {ins outs : List Nat} {g : Graph}

theorem ctor_of_build (h : buildGraph e ins outs = .ok g) :
    modelCtor topo ins outs e =
      let ops := sortedOps (topo g)
      let e' := nameOps e ops
      if (ops.map (opName e')).Nodup then
        (.ok { graph := g, sorted := topo g, layers := (ops.foldl (addLayer e' g) {}).layers,
               layersMap := (ops.foldl (addLayer e' g) {}).layersMap,
               params := (ops.foldl (addLayer e' g) {}).params,
               state := (ops.foldl (addLayer e' g) {}).state,
               cfg := createConfig e' g (topo g) }, e')
      else (.throw .dw, e') := by
  unfold modelCtor
  rw [h]
  simp only [checkNames_eq]
  by_cases hn : ((sortedOps (topo g)).map (opName (nameOps e (sortedOps (topo g))))).Nodup
  · simp [hn]
  · simp [hn]

theorem ctor_ok {m : Model} {e' : Expr} (h : modelCtor topo ins outs e = (.ok m, e')) :
    ∃ g, buildGraph e ins outs = .ok g ∧ e' = nameOps e (sortedOps (topo g)) ∧
      ((sortedOps (topo g)).map (opName e')).Nodup ∧
      m = { graph := g, sorted := topo g,
            layers := ((sortedOps (topo g)).foldl (addLayer e' g) {}).layers,
            layersMap := ((sortedOps (topo g)).foldl (addLayer e' g) {}).layersMap,
            params := ((sortedOps (topo g)).foldl (addLayer e' g) {}).params,
            state := ((sortedOps (topo g)).foldl (addLayer e' g) {}).state,
            cfg := createConfig e' g (topo g) } := by
  cases hb : buildGraph e ins outs with
  | throw x => simp [modelCtor, hb] at h
  | ub x => simp [modelCtor, hb] at h
  | ok g =>
    rw [ctor_of_build hb] at h
    simp only at h
    split at h
    · rename_i hn
      simp only [Prod.mk.injEq, Out.ok.injEq] at h
      obtain ⟨h1, h2⟩ := h
      subst h2
      exact ⟨g, rfl, rfl, hn, h1.symm⟩
    · simp at h

end ctor

end GraphL

end DW
