import Verif.Lemmas.GraphMaps
/-!
# Topological orders, generated names, `train` and config order
-/

set_option autoImplicit false

namespace DW

open DW.Spec

/-- One topological order: nodes by creation time of their placeholder. Used to show that orders
exist and to run concrete cases; the theorems hold for every order. -/
def creationOrder (e : Expr) (g : Graph) : List Node :=
  (List.range e.phs.length).flatMap fun x =>
    (match e.callOf x with
     | some c => if c ∈ g.opNodes then [.op c] else []
     | none => []) ++ (if x ∈ g.dataNodes then [.data x] else [])

namespace GraphL

variable {e : Expr} {ins outs : List Nat} {g : Graph}

/-! ### When construction fails -/

theorem mem_nodes_iff (wf : WF e) {u : Unrolled} (hu : unroll e outs = some u) (x : Nat) :
    x ∈ ((u.ops.flatMap (argLinks e)).map Prod.fst ++
      (u.data.filterMap fun x => (e.callOf x).map fun c => (c, x)).map Prod.snd).foldl insertNew [] ↔
    TakesPart e outs x := by
  rw [mem_foldl_insertNew]
  simp only [List.not_mem_nil, false_or, List.mem_append, List.mem_map, List.mem_flatMap,
    List.mem_filterMap]
  constructor
  · rintro (⟨l, ⟨c, hc, hl⟩, rfl⟩ | ⟨l, ⟨y, hy, hl⟩, rfl⟩)
    · exact ⟨c, (mem_unroll_ops hu c).1 hc, .inr (List.mem_of_getElem? (mem_argLinks.1 hl).2)⟩
    · cases hcy : e.callOf y with
      | none => simp [hcy] at hl
      | some c =>
        simp [hcy] at hl
        subst hl
        exact ⟨c, ⟨y, hcy, ((unroll_spec hu).1 y).1 hy⟩, .inl hcy⟩
  · rintro ⟨c, hc, hx | hx⟩
    · obtain ⟨y, hy, hn⟩ := hc
      have := wf.call_inj _ _ _ hx hy
      subst this
      exact .inr ⟨(c, x), ⟨x, ((unroll_spec hu).1 x).2 hn, by simp [hx]⟩, rfl⟩
    · obtain ⟨p, hp, hx⟩ := List.getElem_of_mem hx
      exact .inl ⟨(x, c, p), ⟨c, (mem_unroll_ops hu c).2 hc,
        mem_argLinks.2 ⟨rfl, by rw [← hx]; exact List.getElem?_eq_getElem hp⟩⟩, rfl⟩

theorem build_ok_of (wf : WF e) (ho : ∀ x ∈ outs, x < e.phs.length)
    (h : ∀ x ∈ ins ++ outs, TakesPart e outs x) : ∃ g, buildGraph e ins outs = .ok g := by
  obtain ⟨u, hu⟩ := unroll_some wf ho
  unfold buildGraph
  rw [hu]
  simp only
  rw [if_pos]
  · exact ⟨_, rfl⟩
  · rw [List.all_eq_true]
    intro x hx
    rw [List.contains_iff_mem]
    exact (mem_nodes_iff wf hu x).2 (h x hx)

theorem build_ub_of (wf : WF e) (ho : ∀ x ∈ outs, x < e.phs.length) {x : Nat}
    (hx : x ∈ ins ++ outs) (h : ¬ TakesPart e outs x) : buildGraph e ins outs = .ub .null := by
  obtain ⟨u, hu⟩ := unroll_some wf ho
  unfold buildGraph
  rw [hu]
  simp only
  rw [if_neg]
  intro hall
  have := List.all_eq_true.1 hall x hx
  rw [List.contains_iff_mem] at this
  exact h ((mem_nodes_iff wf hu x).1 this)

theorem takesPart_of_ok (wf : WF e) (h : buildGraph e ins outs = .ok g) (x : Nat) :
    x ∈ g.dataNodes ↔ TakesPart e outs x := by
  obtain ⟨u, hu, h1, h2, -, h3, -⟩ := build_ok h
  rw [h3, h1, h2]
  exact mem_nodes_iff wf hu x

/-! ### A topological order exists -/

def producer (e : Expr) (c : Nat) : Nat :=
  ((List.range e.phs.length).find? fun x => e.callOf x == some c).getD 0

theorem producer_eq (wf : WF e) {x c : Nat} (h : e.callOf x = some c) : producer e c = x := by
  unfold producer
  cases hf : (List.range e.phs.length).find? fun x => e.callOf x == some c with
  | none =>
    have := List.find?_eq_none.1 hf x (by simpa using callOf_lt h)
    simp [h] at this
  | some y =>
    have := List.find?_some hf
    simp at this
    exact wf.call_inj _ _ _ this h

def rank (e : Expr) : Node → Nat
  | .data x => 2 * x + 1
  | .op c => 2 * producer e c

def chunk (e : Expr) (g : Graph) (x : Nat) : List Node :=
  (match e.callOf x with
   | some c => if c ∈ g.opNodes then [.op c] else []
   | none => []) ++ (if x ∈ g.dataNodes then [.data x] else [])

theorem mem_chunk {x : Nat} {n : Node} : n ∈ chunk e g x ↔
    (∃ c, e.callOf x = some c ∧ c ∈ g.opNodes ∧ n = .op c) ∨ (x ∈ g.dataNodes ∧ n = .data x) := by
  unfold chunk
  rw [List.mem_append]
  apply or_congr
  · cases e.callOf x with
    | none => simp
    | some c => by_cases h : c ∈ g.opNodes <;> simp [h]
  · by_cases h : x ∈ g.dataNodes <;> simp [h]

theorem rank_of_mem_chunk (wf : WF e) {x : Nat} {n : Node} (h : n ∈ chunk e g x) :
    rank e n = 2 * x ∨ rank e n = 2 * x + 1 := by
  rcases mem_chunk.1 h with ⟨c, hc, -, rfl⟩ | ⟨-, rfl⟩
  · exact .inl (by simp [rank, producer_eq wf hc])
  · exact .inr rfl

theorem order_pairwise (wf : WF e) :
    (creationOrder e g).Pairwise fun a b => rank e a < rank e b := by
  have : creationOrder e g = (List.range e.phs.length).flatMap (chunk e g) := rfl
  rw [this, List.pairwise_flatMap]
  constructor
  · intro x _
    unfold chunk
    cases hc : e.callOf x with
    | none => by_cases h : x ∈ g.dataNodes <;> simp [h]
    | some c =>
      simp only
      by_cases h1 : c ∈ g.opNodes <;> by_cases h2 : x ∈ g.dataNodes <;>
        simp [h1, h2, rank, producer_eq wf hc]
  · refine List.pairwise_lt_range.imp ?_
    intro x y hxy n hn m hm
    have h1 := rank_of_mem_chunk wf hn
    have h2 := rank_of_mem_chunk wf hm
    omega

theorem idxOf_lt_of_rank {α : Type} [DecidableEq α] (r : α → Nat) : ∀ {l : List α},
    l.Pairwise (fun a b => r a < r b) → ∀ {a b : α}, a ∈ l → b ∈ l → r a < r b →
    l.idxOf a < l.idxOf b
  | [], _, a, _, ha, _, _ => by simp at ha
  | c :: l, hp, a, b, ha, hb, h => by
    obtain ⟨h1, h2⟩ := List.pairwise_cons.1 hp
    have hcb : c ≠ b := by
      rintro rfl
      rcases List.mem_cons.1 ha with rfl | ha
      · omega
      · have := h1 a ha; omega
    rw [List.idxOf_cons_ne _ hcb]
    by_cases hca : c = a
    · subst hca; rw [List.idxOf_cons_self]; omega
    · rw [List.idxOf_cons_ne _ hca]
      have := idxOf_lt_of_rank r h2 (a := a) (b := b)
        (by rcases List.mem_cons.1 ha with h | h
            · exact absurd h.symm hca
            · exact h)
        (by rcases List.mem_cons.1 hb with h | h
            · exact absurd h.symm hcb
            · exact h) h
      omega

/-- Every graph built by the model constructor has a topological order. -/
theorem creationOrder_isTopo (wf : WF e) (ho : ∀ x ∈ outs, x < e.phs.length)
    (h : buildGraph e ins outs = .ok g) : IsTopo g (creationOrder e g) := by
  have hpw := order_pairwise (g := g) wf
  have hmem : ∀ n, n ∈ creationOrder e g ↔ ∃ x < e.phs.length, n ∈ chunk e g x := by
    intro n
    have : creationOrder e g = (List.range e.phs.length).flatMap (chunk e g) := rfl
    rw [this, List.mem_flatMap]
    simp
  have hneed : ∀ x, NeededBy e outs x → x < e.phs.length := by
    rintro x ⟨o, hoo, hn⟩
    exact Nat.lt_of_le_of_lt (Needs.le wf hn) (ho o hoo)
  have hdata : ∀ x, .data x ∈ creationOrder e g ↔ x ∈ g.dataNodes := by
    intro x
    rw [hmem]
    constructor
    · rintro ⟨y, hy, hm⟩
      rcases mem_chunk.1 hm with ⟨c, -, -, h⟩ | ⟨h, h'⟩
      · cases h
      · cases h'; exact h
    · intro hx
      exact ⟨x, hneed x ((mem_dataNodes h x).1 hx).1, mem_chunk.2 (.inr ⟨hx, rfl⟩)⟩
  have hop : ∀ c, .op c ∈ creationOrder e g ↔ c ∈ g.opNodes := by
    intro c
    rw [hmem]
    constructor
    · rintro ⟨y, hy, hm⟩
      rcases mem_chunk.1 hm with ⟨d, -, h, h'⟩ | ⟨h, h'⟩
      · cases h'; exact h
      · cases h'
    · intro hc
      obtain ⟨x, hx, hn⟩ := (mem_opNodes h c).1 hc
      exact ⟨x, hneed x hn, mem_chunk.2 (.inl ⟨c, hx, hc, rfl⟩)⟩
  refine ⟨hpw.imp (fun h heq => by subst heq; omega), hdata, hop, ?_, ?_⟩
  · rintro ⟨a, c, p⟩ hl
    obtain ⟨⟨x, hx, hn⟩, ha⟩ := (mem_inLinks h a c p).1 hl
    have haa : a ∈ e.callArgs c := List.mem_of_getElem? ha
    have hax : a ∈ e.argsOf x := by rw [argsOf_some hx]; exact haa
    apply idxOf_lt_of_rank (rank e) hpw
    · exact (hdata a).2 ((mem_dataNodes h a).2 ⟨needed_arg hn hax, .inr ⟨x, hn, hax⟩⟩)
    · exact (hop c).2 ((mem_opNodes h c).2 ⟨x, hx, hn⟩)
    · have := wf.arg_lt x c hx a haa
      simp only [rank, producer_eq wf hx]
      omega
  · rintro ⟨c, x⟩ hl
    obtain ⟨hx, hn⟩ := (mem_outLinks h c x).1 hl
    apply idxOf_lt_of_rank (rank e) hpw
    · exact (hop c).2 ((mem_opNodes h c).2 ⟨x, hx, hn⟩)
    · exact (hdata x).2 ((mem_dataNodes h x).2 ⟨hn, .inl (by simp [hx])⟩)
    · simp only [rank, producer_eq wf hx]
      omega

/-! ### Generated names -/

theorem type_lower_last (op : Op) : ∃ l c, op.type.toList.map Char.toLower = l ++ [c] ∧
    c.isDigit = false := by
  cases op
  · exact ⟨"linea".toList, 'r', by show "Linear".toList.map Char.toLower = _; decide, by decide⟩
  · exact ⟨"rel".toList, 'u', by show "ReLU".toList.map Char.toLower = _; decide, by decide⟩
  · exact ⟨"softma".toList, 'x', by show "Softmax".toList.map Char.toLower = _; decide, by decide⟩
  · exact ⟨"batchnorm1".toList, 'd', by show "BatchNorm1D".toList.map Char.toLower = _; decide, by decide⟩
  · exact ⟨"el".toList, 'u', by show "ELU".toList.map Char.toLower = _; decide, by decide⟩
  · exact ⟨"maxpoolin".toList, 'g', by show "MaxPooling".toList.map Char.toLower = _; decide, by decide⟩
  · exact ⟨"convolutio".toList, 'n', by show "Convolution".toList.map Char.toLower = _; decide, by decide⟩
  · exact ⟨"leakyrel".toList, 'u', by show "LeakyReLU".toList.map Char.toLower = _; decide, by decide⟩
  · exact ⟨"sigmoi".toList, 'd', by show "Sigmoid".toList.map Char.toLower = _; decide, by decide⟩
  · exact ⟨"dropou".toList, 't', by show "Dropout".toList.map Char.toLower = _; decide, by decide⟩
  · exact ⟨"globalavgpoolin".toList, 'g', by show "GlobalAvgPooling".toList.map Char.toLower = _; decide, by decide⟩
  · exact ⟨"batchnorm2".toList, 'd', by show "BatchNorm2D".toList.map Char.toLower = _; decide, by decide⟩
  · exact ⟨"ad".toList, 'd', by show "Add".toList.map Char.toLower = _; decide, by decide⟩

theorem digits_tail : ∀ {x x' y y' : List Char} {c c' : Char}, c.isDigit = false → c'.isDigit = false →
    (∀ d ∈ x, d.isDigit = true) → (∀ d ∈ x', d.isDigit = true) →
    x ++ c :: y = x' ++ c' :: y' → x = x' ∧ c :: y = c' :: y'
  | [], [], _, _, _, _, _, _, _, _, h => by simpa using h
  | [], a :: x', _, _, _, _, hc, _, _, h2, h => by
    simp only [List.nil_append, List.cons_append, List.cons.injEq] at h
    have := h2 a (by simp)
    rw [← h.1, hc] at this; simp at this
  | a :: x, [], _, _, _, _, _, hc', h1, _, h => by
    simp only [List.nil_append, List.cons_append, List.cons.injEq] at h
    have := h1 a (by simp)
    rw [h.1, hc'] at this; simp at this
  | a :: x, b :: x', y, y', c, c', hc, hc', h1, h2, h => by
    simp only [List.cons_append, List.cons.injEq] at h
    obtain ⟨h3, h4⟩ := digits_tail hc hc' (fun d hd => h1 d (by simp [hd]))
      (fun d hd => h2 d (by simp [hd])) h.2
    exact ⟨by rw [h.1, h3], h4⟩

theorem toDigits_inj {i j : Nat} (h : Nat.toDigits 10 i = Nat.toDigits 10 j) : i = j := by
  rw [← Nat.ofDigitChars_ten_toDigits (n := i), ← Nat.ofDigitChars_ten_toDigits (n := j), h]

theorem generatedName_inj {op op' : Op} {i j : Nat}
    (h : generatedName op.type i = generatedName op'.type j) :
    i = j ∧ op.type.toList.map Char.toLower = op'.type.toList.map Char.toLower := by
  obtain ⟨l, c, hl, hc⟩ := type_lower_last op
  obtain ⟨l', c', hl', hc'⟩ := type_lower_last op'
  have h' := congrArg (fun s => s.toList.reverse) h
  have hi : (toString i).toList = Nat.toDigits 10 i := Nat.toList_repr
  have hj : (toString j).toList = Nat.toDigits 10 j := Nat.toList_repr
  simp only [generatedName, String.toList_append, String.toList_ofList, hl, hl', hi, hj, List.reverse_append,
    List.reverse_cons, List.reverse_nil, List.nil_append, List.singleton_append] at h'
  obtain ⟨h1, h2⟩ := digits_tail hc hc'
    (fun d hd => Nat.isDigit_of_mem_toDigits (by decide) (by decide) (List.mem_reverse.1 hd))
    (fun d hd => Nat.isDigit_of_mem_toDigits (by decide) (by decide) (List.mem_reverse.1 hd)) h'
  refine ⟨toDigits_inj (List.reverse_injective h1), ?_⟩
  rw [hl, hl']
  have := congrArg List.reverse h2
  simpa using this

/-! ### `train` -/

theorem train_infos (m : Model) (mode : Bool) (e : Expr) (i : Nat) :
    (m.train mode e).2.infos[i]? = (e.infos[i]?).map fun inf => { inf with
      params := inf.params.map fun q =>
        if (i, q.1) ∈ m.params.map Prod.snd then (q.1, { q.2 with trainable := mode }) else q } := by
  unfold Model.train
  simp only [M.modify_apply]
  generalize m.params = ps
  induction ps generalizing e with
  | nil =>
    simp only [List.foldl_nil, List.map_nil, List.not_mem_nil, if_false]
    cases e.infos[i]? <;> simp
  | cons p ps ih =>
    rw [List.foldl_cons, ih]
    obtain ⟨k, j, n⟩ := p
    simp only [List.map_cons, List.mem_cons, Prod.mk.injEq]
    cases h : e.infos[j]? with
    | none =>
      by_cases hi : i = j
      · subst hi; rw [h]; rfl
      · congr 1
        funext inf
        congr 2
        funext q
        by_cases hm : (i, q.1) ∈ ps.map Prod.snd
        · rw [if_pos hm, if_pos (Or.inr hm)]
        · rw [if_neg hm, if_neg (by rintro (⟨h, -⟩ | h); exacts [hi h, hm h])]
    | some inf =>
      simp only
      by_cases hi : i = j
      · subst hi
        obtain ⟨hlt, hh⟩ := List.getElem?_eq_some_iff.1 h
        rw [List.getElem?_set_self hlt, h]
        simp only [Option.map_some, Option.some.injEq, List.map_map]
        congr 1
        apply List.map_congr_left
        intro q _
        simp only [Function.comp]
        by_cases hq : q.1 = n
        · rw [if_pos hq, if_pos (Or.inl ⟨trivial, hq⟩)]
          split <;> rfl
        · rw [if_neg hq]
          by_cases hm : (i, q.1) ∈ ps.map Prod.snd
          · rw [if_pos hm, if_pos (Or.inr hm)]
          · rw [if_neg hm, if_neg (by rintro (⟨-, h⟩ | h); exacts [hq h, hm h])]
      · rw [List.getElem?_set_ne (Ne.symm hi)]
        congr 1
        funext inf
        congr 2
        funext q
        by_cases hm : (i, q.1) ∈ ps.map Prod.snd
        · rw [if_pos hm, if_pos (Or.inr hm)]
        · rw [if_neg hm, if_neg (by rintro (⟨h, -⟩ | h); exacts [hi h, hm h])]

/-! ### Config order -/

theorem pairwise_idxOf {α : Type} [DecidableEq α] {l : List α} (h : l.Nodup) :
    l.Pairwise fun a b => l.idxOf a < l.idxOf b := by
  rw [List.pairwise_iff_getElem]
  intro i j hi hj hij
  rw [h.idxOf_getElem i hi, h.idxOf_getElem j hj]
  exact hij

theorem map_idxOf {α : Type} [DecidableEq α] {l : List α} (h : l.Nodup) :
    l.map (fun a => l.idxOf a) = List.range l.length := by
  apply List.ext_getElem
  · simp
  · intro i h1 h2
    simp only [List.getElem_map, List.getElem_range]
    exact h.idxOf_getElem i (by simpa using h1)

theorem dataId_inj {sorted : List Node} {x y : Nat} (hx : .data x ∈ sorted)
    (h : dataId sorted x = dataId sorted y) : x = y := by
  unfold dataId at h
  exact (List.idxOf_inj (mem_sortedData.2 hx)).1 h

/-! ### Lookup in a map with distinct keys -/

theorem lookup_of_mem {β : Type} : ∀ {l : List (String × β)} {k : String} {v : β},
    (l.map Prod.fst).Nodup → (k, v) ∈ l → l.lookup k = some v
  | [], _, _, _, h => by simp at h
  | (a, b) :: l, k, v, hn, h => by
    rw [List.map_cons, List.nodup_cons] at hn
    rw [List.lookup_cons]
    rcases List.mem_cons.1 h with h' | h'
    · cases h'; simp
    · have : k ≠ a := by
        rintro rfl
        exact hn.1 (List.mem_map.2 ⟨(k, v), h', rfl⟩)
      have hk : (k == a) = false := by simpa using this
      rw [hk]
      exact lookup_of_mem hn.2 h'

theorem lookup_none_of_not_mem {β : Type} {l : List (String × β)} {k : String}
    (h : k ∉ l.map Prod.fst) : l.lookup k = none := by
  cases hl : l.lookup k with
  | none => rfl
  | some v => exact absurd ((lookup_isSome_iff l k).1 (by simp [hl])) h

/-! ### What a constructed model is -/

theorem nameOps_named {ops : List Nat} (h : Named e) : Named (nameOps e ops) :=
  named_of_eq h (nameOps_sig e ops) (nameOps_frame e ops).2.1

theorem ctor_maps {topo : Graph → List Node} {m : Model} {e' : Expr} (hr : Reachable e)
    (h : modelCtor topo ins outs e = (.ok m, e')) :
    ∃ g, buildGraph e ins outs = .ok g ∧ m.graph = g ∧ m.sorted = topo g ∧
      e' = nameOps e (sortedOps m.sorted) ∧
      ((sortedOps m.sorted).map (opName e')).Nodup ∧
      m.layers = (sortedOps m.sorted).map (mkLayer e' g) ∧
      m.layersMap = ((sortedOps m.sorted).map fun c => (opName e' c, mkLayer e' g c)) ∧
      m.params = (sortedOps m.sorted).flatMap (paramEntries e') ∧
      m.state = (sortedOps m.sorted).flatMap (stateEntries e') ∧
      m.cfg = createConfig e' g m.sorted := by
  obtain ⟨g, hg, he, hn, hm⟩ := ctor_ok h
  have hgood : ∀ i, GoodInfo (infoOf e' i) := fun i => goodInfo_of_named (by
    rw [he]; exact nameOps_named (reachable_named hr))
  rw [maps_eq hgood _ hn] at hm
  subst hm
  exact ⟨g, hg, rfl, rfl, he, hn, rfl, rfl, rfl, rfl, rfl⟩

end GraphL

end DW
