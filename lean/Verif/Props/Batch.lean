import Verif.Lemmas.Batch
/-!
# The samples of a batch do not influence each other (C83)
-/

set_option autoImplicit false

namespace DW.Props.BatchP

open DW DW.Spec DW.HistL DW.BackendL DW.NetL DW.GraphL DW.BatchL DW.Props.BackendP DW.Props.GraphP

noncomputable section

variable {topo : Graph → List Node} {e : Expr} {ins outs : List Nat} {m : Model} {real : F32 → ℝ} {tensors : Nat → InfoTensors}
  {L : Layers e} {θ₀ : L.Params} {N : Nat}

/-- **C83.** In evaluation mode, what a model computes for a sample depends on that sample only: not on the other samples of the
batch, nor on its place in the batch, nor on random numbers and the history. -/
theorem eval_by_sample (B : Built topo e ins outs m real tensors L θ₀)
    (hf : ∀ x ∈ dataOf m, ∀ c, e.callOf x = some c → Frozen (tensors (e.callInfo c))) (hN : ∀ y ∈ ins, IsBatchOf N (phShape e y))
    {θ : L.Params} {last₁ last₂ : Option ((Nat → Env) × Vals e)} {w₁ w₂ : World}
    (h₁ : History e ins outs m real tensors L θ₀ θ last₁ w₁) (h₂ : History e ins outs m real tensors L θ₀ θ last₂ w₂)
    {b₁ b₂ : Backend} {env₁ env₂ : Nat → Env} {it₁ it₂ ot₁ ot₂ : List Nat} (ha₁ : FwdArgs e m ins outs w₁ b₁ it₁ ot₁)
    (ha₂ : FwdArgs e m ins outs w₂ b₂ it₂ ot₂) (hp₁ : ∀ c, IsPick (env₁ c).pick) (hp₂ : ∀ c, IsPick (env₂ c).pick)
    {i i' : Fin N} (hi : SamplesMatch N i i' w₁ w₂ it₁ it₂) :
    ∃ w₁' w₂', m.forward env₁ it₁ ot₁ w₁ = (.ok (), w₁') ∧ m.forward env₂ it₂ ot₂ w₂ = (.ok (), w₂') ∧
      SamplesMatch N i i' w₁' w₂' ot₁ ot₂ := by
  obtain ⟨v₁, hv₁, hc₁⟩ := values_of_inputs B ha₁ env₁ θ
  obtain ⟨v₂, hv₂, hc₂⟩ := values_of_inputs B ha₂ env₂ θ
  obtain ⟨w₁', -, r₁, -, -, o₁, -⟩ := forward_evaluates_partial B h₁ ha₁ hp₁ hv₁ hc₁
  obtain ⟨w₂', -, r₂, -, -, o₂, -⟩ := forward_evaluates_partial B h₂ ha₂ hp₂ hv₂ hc₂
  have hb := batches B hf hN
  have hlist : ∀ y, IsBatchOf N (phShape e y) → ∀ u u' : Elems (phShape e y),
      Same i i' u u' ↔ sampleOf N i (List.ofFn u) = sampleOf N i' (List.ofFn u') := fun y hy u u' => by
    obtain ⟨rest, hr⟩ := hy
    exact same_list (n := size rest) (by rw [hr]; exact size_batch rest)
  have hsame := values_sample (i := i) (i' := i') B hf hN hv₁ hv₂ fun y hy => by
    rw [hlist y (hN y hy)]
    obtain ⟨k, hk, rfl⟩ := List.getElem_of_mem hy
    have l₁ : k < it₁.length := by rw [ha₁.givenIns.length]; exact hk
    have l₂ : k < it₂.length := by rw [ha₂.givenIns.length]; exact hk
    have e₁ := hc₁ k _ _ (List.getElem?_eq_getElem hk) (List.getElem?_eq_getElem l₁)
    have e₂ := hc₂ k _ _ (List.getElem?_eq_getElem hk) (List.getElem?_eq_getElem l₂)
    obtain ⟨b, b', f₁, f₂, hbb⟩ := hi k _ _ (List.getElem?_eq_getElem l₁) (List.getElem?_eq_getElem l₂)
    unfold Holds at e₁ e₂
    obtain rfl := Option.some.inj (e₁.symm.trans f₁)
    obtain rfl := Option.some.inj (e₂.symm.trans f₂)
    exact hbb
  refine ⟨w₁', w₂', r₁, r₂, fun k k₁ k₂ hk₁ hk₂ => ?_⟩
  have hlt : k < outs.length := by
    rw [← ha₁.givenOuts.length]
    exact (List.getElem?_eq_some_iff.1 hk₁).1
  have hmem := (plan B).outs_mem _ (List.getElem_mem hlt)
  exact ⟨_, _, o₁ k _ _ (List.getElem?_eq_getElem hlt) hk₁, o₂ k _ _ (List.getElem?_eq_getElem hlt) hk₂,
    (hlist _ (hb _ hmem) _ _).1 (hsame _ hmem)⟩

/-- In every model a program can come to the point of calling `forward` with any inputs, right after `compile`. -/
theorem compile_session (B : Built topo e ins outs m real tensors L θ₀) (inp : Vals e) :
    ∃ (w : World) (b : Backend) (it ot : List Nat), History e ins outs m real tensors L θ₀ θ₀ none w ∧
      FwdArgs e m ins outs w b it ot ∧ Carry e w ins it inp ∧ ∃ w₀, w = (m.compile e real (fun _ => 0) tensors w₀).2 := by
  let S1 : List Buf := ins.map fun y => ⟨phShape e y, List.ofFn (inp y)⟩
  let S2 : List Buf := outs.map fun y => ⟨phShape e y, List.ofFn (0 : Elems (phShape e y))⟩
  let it := (List.range ins.length).map fun j => 0 + j
  let ot := (List.range outs.length).map fun j => S1.length + j
  have l1 : S1.length = ins.length := by simp [S1]
  have l2 : S2.length = outs.length := by simp [S2]
  let w₀ : World := ⟨S1 ++ S2, none⟩
  have hlen : w₀.store.length = ins.length + outs.length := by
    show (S1 ++ S2).length = _
    simp only [List.length_append, l1, l2]
  obtain ⟨w₁, b₁, c1, c2, c3⟩ := compile_succeeds B (fun _ => 0) w₀
  have hist₁ : History e ins outs m real tensors L θ₀ θ₀ none w₁ := by
    have := History.compile (e := e) (ins := ins) (outs := outs) (m := m) (real := real) (tensors := tensors) (L := L) (θ₀ := θ₀)
      (fun _ => 0) w₀
    rw [c1] at this
    exact this
  have r1 : ∀ i y h : Nat, ins[i]? = some y → it[i]? = some h → Holds w₁.store (inp y) h := fun i y h hy hh => by
    obtain ⟨rfl, hlt⟩ := shifted hh
    have h0 : (([] : List Buf) ++ S1 ++ S2)[0 + i]? = some ⟨phShape e y, List.ofFn (inp y)⟩ :=
      getElem?_block (a := []) (by rw [List.getElem?_map, hy]; rfl)
    rw [List.nil_append] at h0
    unfold Holds
    rw [(c3 _ (by omega)).1]
    exact h0
  have r2 : ∀ i y h : Nat, outs[i]? = some y → ot[i]? = some h → Holds w₁.store (0 : Elems (phShape e y)) h := fun i y h hy hh => by
    obtain ⟨rfl, hlt⟩ := shifted hh
    have h0 : (S1 ++ S2 ++ [])[S1.length + i]? = some ⟨phShape e y, List.ofFn (0 : Elems (phShape e y))⟩ :=
      getElem?_block (by rw [List.getElem?_map, hy]; rfl)
    rw [List.append_nil] at h0
    unfold Holds
    rw [(c3 _ (by omega)).1]
    exact h0
  have room : ∀ {store : List Buf} {s : Shape} {u : Elems s} {h : Nat}, Holds store u h → Room store s h := fun {_ _ u _} h =>
    ⟨List.ofFn u, h, by simp⟩
  have far : ∀ {k n a : Nat}, a ∈ (List.range n).map (fun j => k + j) → k ≤ a ∧ a < k + n := fun {k n a} h => by
    obtain ⟨j, hj, rfl⟩ := List.mem_map.1 h
    have := List.mem_range.1 hj
    exact ⟨by omega, by omega⟩
  have nd : ∀ k n : Nat, ((List.range n).map fun j => k + j).Nodup := fun k n =>
    List.nodup_range.map fun _ _ h => Nat.add_left_cancel h
  have out1 : ∀ a ∈ it, a ∉ privates m b₁ := fun a ha => (c3 a (by have := far ha; omega)).2
  have out2 : ∀ a ∈ ot, a ∉ privates m b₁ := fun a ha => (c3 a (by have := far ha; omega)).2
  exact ⟨w₁, b₁, it, ot, hist₁, ⟨c2, ⟨by simp [it], fun i y h hy hh => room (r1 i y h hy hh), out1⟩,
    ⟨by simp [ot], fun i y h hy hh => room (r2 i y h hy hh), out2⟩, nd _ _, fun a ha hb => by
      have h1 := far ha
      have h2 := far hb
      omega⟩, r1, w₀, by rw [c1]⟩

/-- In every model a program can come to the point of calling `forward` with any inputs. -/
theorem fwd_session (B : Built topo e ins outs m real tensors L θ₀) (inp : Vals e) :
    ∃ (w : World) (b : Backend) (it ot : List Nat), History e ins outs m real tensors L θ₀ θ₀ none w ∧
      FwdArgs e m ins outs w b it ot ∧ Carry e w ins it inp :=
  let ⟨w, b, it, ot, h, ha, hc, _⟩ := compile_session B inp
  ⟨w, b, it, ot, h, ha, hc⟩

/-! ## Batch normalisation of two samples -/

/-- `y = BatchNorm1D(x)`, for batches of two samples of one number. -/
def norm : M Expr Nat := do
  let x ← Expr.placeholder [2, 1]
  Expr.makeLayer "BatchNorm1D" "" [("eps", .float 1), ("alpha", .float 0)] [x]

def normE : Expr := (norm {}).2

theorem norm_reachable : Reachable normE := reachable_bind (.placeholder _ .empty) fun _ _ _ h => .makeLayer _ _ _ _ h

theorem normE_eq : normE =
    { phs := [⟨[2, 1], none⟩, ⟨[2, 1], some 0⟩]
      calls := [⟨0, [0]⟩]
      infos := [⟨"", .batchNorm1D 1 0, [("gamma", ⟨[1], true⟩), ("beta", ⟨[1], true⟩)],
        [("running_mean", [1]), ("running_var", [1])]⟩] } := by
  decide +kernel

/-- Its tensors in training mode, and in evaluation mode. -/
def normTensors (mode : Bool) : InfoTensors where
  params := [("gamma", ⟨⟨[1], [1]⟩, ⟨[1], [0]⟩, mode⟩), ("beta", ⟨⟨[1], [0]⟩, ⟨[1], [0]⟩, mode⟩)]
  buffers := [("running_mean", ⟨[1], [0]⟩), ("running_var", ⟨[1], [1]⟩)]

theorem norm_built_with {real : F32 → ℝ} (hreal : 0 < real 1) (mode : Bool) : ∃ (m : Model) (L : Layers normE) (θ₀ : L.Params),
    Built (creationOrder normE) normE [0] [1] m real (fun _ => normTensors mode) L θ₀ ∧ dataOf m = [0, 1] := by
  have ht : SortsCorrectly (creationOrder normE) normE [0] [1] := topological_order_exists norm_reachable (by decide +kernel)
  obtain ⟨m, hm, hd⟩ := look (f := fun m => sortedData m.sorted)
    (show observe (modelCtor (creationOrder normE) [0] [1] normE) _ = some [0, 1] by decide +kernel)
  have hd' : dataOf m = [0, 1] := hd
  have ho : Orderly normE [1] := orderly_of_desc norm_reachable (List.pairwise_singleton _ _) fun x => by
    rw [normE_eq]
    match x with
    | 0 | 1 => decide +kernel
    | x + 2 => exact List.Pairwise.nil
  have hsound : Sound normE m [0] [1] := ⟨by rw [normE_eq]; decide, by rw [normE_eq, hd']; decide, by rw [normE_eq]; decide, by decide, by decide⟩
  have hsh : ∀ y ∈ dataOf m, phShape normE y = [2, 1] := by rw [hd', normE_eq]; decide
  have hfits : CountFits [2, 1] := fun k => by
    match k with
    | 0 | 1 | 2 => simp [count]
    | k + 3 => simp [count]
  have hfit : AllFit normE m real (fun _ => normTensors mode) := by
    refine ⟨fun x hx c hc => ?_, fun x hx c hc => ?_⟩ <;> rw [hd'] at hx <;> simp only [List.mem_cons, List.not_mem_nil, or_false] at hx <;>
      rw [normE_eq] at hc ⊢ <;> rcases hx with rfl | rfl <;> first | (obtain rfl := Option.some.inj hc) | exact absurd hc (by simp [Expr.callOf])
    · exact ⟨hreal, 2, 1, rfl, countFits_ones 1, hfits⟩
    · refine ⟨mode, fun ps bs hb => ?_⟩
      obtain ⟨rfl, rfl⟩ : [("gamma", [1]), ("beta", [1])] = ps ∧ [("running_mean", [1]), ("running_var", [1])] = bs := by
        exact Prod.mk.inj (Out.ok.inj hb)
      simp only [List.forall_mem_cons, List.not_mem_nil, false_imp_iff, implies_true, and_true]
      refine ⟨⟨⟨[1], ⟨_, rfl, rfl⟩, rfl⟩, ⟨[0], ⟨_, rfl, rfl⟩, rfl⟩⟩, ⟨[0], rfl, rfl, ?_⟩, ⟨[1], rfl, rfl, ?_⟩⟩ <;> simp
  obtain ⟨L, θ₀, B⟩ := built_exists norm_reachable ht hm ho hsound
    (fun y hy _ => by rw [hsh y hy]; exact ⟨by decide, hfits⟩) hfit
  exact ⟨m, L, θ₀, B, hd⟩

theorem norm_built (mode : Bool) : ∃ (m : Model) (L : Layers normE) (θ₀ : L.Params),
    Built (creationOrder normE) normE [0] [1] m (fun _ => 1) (fun _ => normTensors mode) L θ₀ ∧ dataOf m = [0, 1] :=
  norm_built_with one_pos mode

theorem norm_shape (y : Nat) (hy : y ∈ [0, 1]) : phShape normE y = [2, 1] := by
  rw [normE_eq]
  revert y
  decide

/-- Batches of two numbers. -/
def pair (a b : ℝ) : Vals normE := fun _ k => if k.val = 0 then a else b

theorem norm_size {y : Nat} (hy : y ∈ [0, 1]) : size (phShape normE y) = 2 * 1 := by
  rw [norm_shape y hy]
  decide

theorem pair_entry {a b : ℝ} {y : Nat} (hy : y ∈ [0, 1]) : entry (pair a b y) 0 = a ∧ entry (pair a b y) 1 = b := by
  have h := norm_size hy
  unfold entry
  rw [dif_pos (by omega), dif_pos (by omega)]
  exact ⟨rfl, rfl⟩

theorem same_two {y : Nat} (hy : y ∈ [0, 1]) {i i' : Fin 2} {u u' : Elems (phShape normE y)} :
    Same i i' u u' ↔ entry u i = entry u' i' := by
  have h := norm_size hy
  unfold Same
  rw [h]
  constructor
  · exact fun H => by simpa using H 0 (by omega)
  · intro H k hk
    obtain rfl : k = 0 := by omega
    simpa using H

theorem pairs_match {w w' : World} {it it' : List Nat} {a b a' b' : ℝ} {i i' : Fin 2} (h : Carry normE w [0] it (pair a b))
    (h' : Carry normE w' [0] it' (pair a' b')) (hl : it.length = 1) (hs : Same i i' (pair a b 0) (pair a' b' 0)) :
    SamplesMatch 2 i i' w w' it it' := fun k k₁ k₂ hk₁ hk₂ => by
  obtain rfl : k = 0 := by
    have := (List.getElem?_eq_some_iff.1 hk₁).1
    omega
  exact ⟨_, _, h 0 0 _ rfl hk₁, h' 0 0 _ rfl hk₂, (same_list (norm_size (by simp))).1 hs⟩

theorem norm_batches : ∀ y ∈ [0], IsBatchOf 2 (phShape normE y) := fun y hy =>
  ⟨[1], norm_shape y (by simp_all)⟩

/-- The hypotheses of `eval_by_sample` are met by a model with batch normalisation, and batches in which one number is at
different places beside different others. -/
example : ∃ (m : Model) (L : Layers normE) (θ₀ : L.Params) (w₁ w₂ : World) (b₁ b₂ : Backend) (it₁ it₂ ot₁ ot₂ : List Nat),
    Built (creationOrder normE) normE [0] [1] m (fun _ => 1) (fun _ => normTensors false) L θ₀ ∧
    (∀ x ∈ dataOf m, ∀ c, normE.callOf x = some c → Frozen (normTensors false)) ∧
    (∀ y ∈ [0], IsBatchOf 2 (phShape normE y)) ∧
    History normE [0] [1] m (fun _ => 1) (fun _ => normTensors false) L θ₀ θ₀ none w₁ ∧
    History normE [0] [1] m (fun _ => 1) (fun _ => normTensors false) L θ₀ θ₀ none w₂ ∧
    FwdArgs normE m [0] [1] w₁ b₁ it₁ ot₁ ∧ FwdArgs normE m [0] [1] w₂ b₂ it₂ ot₂ ∧
    Carry normE w₁ [0] it₁ (pair 3 5) ∧ Carry normE w₂ [0] it₂ (pair 7 3) ∧ SamplesMatch 2 (0 : Fin 2) (1 : Fin 2) w₁ w₂ it₁ it₂ := by
  obtain ⟨m, L, θ₀, B, hd⟩ := norm_built false
  obtain ⟨w₁, b₁, it₁, ot₁, h₁, a₁, c₁⟩ := fwd_session B (pair 3 5)
  obtain ⟨w₂, b₂, it₂, ot₂, h₂, a₂, c₂⟩ := fwd_session B (pair 7 3)
  refine ⟨m, L, θ₀, w₁, w₂, b₁, b₂, it₁, it₂, ot₁, ot₂, B, fun x _ c _ name p hp => ?_, norm_batches, h₁, h₂, a₁, a₂, c₁, c₂,
    pairs_match c₁ c₂ a₁.givenIns.length ?_⟩
  · have := lookup_mem hp
    simp only [normTensors, List.mem_cons, Prod.mk.injEq, List.not_mem_nil, or_false] at this
    rcases this with ⟨-, rfl⟩ | ⟨-, rfl⟩ <;> rfl
  · rw [same_two (by simp)]
    exact (pair_entry (by simp)).1.trans (pair_entry (by simp)).2.symm

/-- **C83**, if it were claimed for training mode as well. -/
def AlwaysBySample : Prop :=
  ∀ (topo : Graph → List Node) (e : Expr) (ins outs : List Nat) (m : Model) (real : F32 → ℝ) (tensors : Nat → InfoTensors)
    (L : Layers e) (θ₀ : L.Params), Built topo e ins outs m real tensors L θ₀ →
    ∀ N : Nat, (∀ y ∈ ins, IsBatchOf N (phShape e y)) →
    ∀ (w₁ w₂ : World), History e ins outs m real tensors L θ₀ θ₀ none w₁ → History e ins outs m real tensors L θ₀ θ₀ none w₂ →
    ∀ (b₁ b₂ : Backend) (env : Nat → Env) (it₁ it₂ ot₁ ot₂ : List Nat), FwdArgs e m ins outs w₁ b₁ it₁ ot₁ →
    FwdArgs e m ins outs w₂ b₂ it₂ ot₂ → (∀ c, IsPick (env c).pick) →
    ∀ i i' : Fin N, SamplesMatch N i i' w₁ w₂ it₁ it₂ →
    ∃ w₁' w₂', m.forward env it₁ ot₁ w₁ = (.ok (), w₁') ∧ m.forward env it₂ ot₂ w₂ = (.ok (), w₂') ∧
      SamplesMatch N i i' w₁' w₂' ot₁ ot₂

theorem batchNorm_two (X : Fin 2 → Fin 1 → ℝ) (gamma beta : Fin 1 → ℝ) (hg : gamma 0 = 1) (hb : beta 0 = 0) :
    batchNorm 1 gamma beta X 0 0 = 0 ↔ X 0 0 = X 1 0 := by
  have hpos : 0 < Real.sqrt (variance (fun i => X i 0) + 1) := by
    apply Real.sqrt_pos.2
    have : 0 ≤ variance (fun i => X i 0) := by
      unfold variance mean
      positivity
    linarith
  unfold batchNorm normalise
  rw [hg, hb, add_zero, one_mul, div_eq_zero_iff, or_iff_left hpos.ne']
  unfold mean
  simp only [Fin.sum_univ_two, Fintype.card_fin, Nat.cast_ofNat]
  constructor <;> intro h <;> linarith

theorem computes1_norm {op : Op} {s o : Shape} {P : Nat} {f : (Nat → ℝ) → (Fin P → ℝ) → Elems s → Elems o} {θ : Fin P → ℝ} {ex : Prop}
    (h : Computes1 (fun _ => 1) (normTensors true) op s o P f θ ex) (hop : op = .batchNorm1D 1 0) (hs : s = [2, 1]) (r : Nat → ℝ)
    (x : Elems s) : entry (f r θ x) 0 = 0 ↔ entry x 0 = entry x 1 := by
  cases h with
  | @batchNorm1D B n eps alpha heps hn hf θ mu var hg hb hm hv =>
    obtain rfl : B = 2 := by exact_mod_cast (List.cons.inj hs).1
    obtain rfl : n = 1 := by exact_mod_cast (List.cons.inj (List.cons.inj hs).2).1
    have one : ∀ {name : String} {y : ℝ} {vals : List ℝ} {mode : Bool}, HasParam (normTensors true) name [((1 : Nat) : Int)] vals mode →
        (normTensors true).params.lookup name = some ⟨⟨[1], [y]⟩, ⟨[1], [0]⟩, true⟩ → vals = [y] := fun h h' => by
      obtain ⟨g, h, -⟩ := h
      rw [h] at h'
      exact (Buf.mk.inj (Parameter.mk.inj (Option.some.inj h')).1).2
    have g1 : gammaOf θ 0 = 1 := by simpa using one hg rfl
    have b1 : betaOf θ 0 = 0 := by simpa using one hb rfl
    have hE : ∀ (u : Elems [((2 : Nat) : Int), ((1 : Nat) : Int)]) (i : Fin 2), entry u i = arr (matE (size_mat 2 1)) u (i, 0) := fun u i => by
      rw [← entry_mat (size_mat 2 1)]
      simp
    have e0 := hE x 0
    have e1 := hE x 1
    have eo := hE (batchNormFn (size_mat 2 1) 1 θ x) 0
    simp only [Fin.val_zero, Fin.val_one] at e0 e1 eo
    rw [e0, e1]
    refine Iff.trans (Eq.congr_left eo) ?_
    rw [batchNormFn, arr_elems]
    exact batchNorm_two _ _ _ g1 b1
  | @batchNorm1DEval B n eps alpha heps hn hf _ mu var hpos hg hb hm hv =>
    obtain ⟨g, hg, -⟩ := hg
    exact absurd (congrArg Parameter.trainable (Option.some.inj hg)) (by simp)
  | _ => cases hop

/-- What the contract says of `BatchNorm1D` of two samples in training mode. -/
theorem computes_norm {op : Op} {n : Nat} {ishape : Fin n → Shape} {o : Shape} {P : Nat}
    {fn : (Nat → ℝ) → (Fin P → ℝ) → Args ishape → Elems o} {θ : Fin P → ℝ} {ex : Prop}
    (h : Computes (fun _ => 1) (normTensors true) op ishape o P fn θ ex) (hop : op = .batchNorm1D 1 0) (hn : 0 < n)
    (hs : ishape ⟨0, hn⟩ = [2, 1]) (r : Nat → ℝ) (X : Args ishape) :
    entry (fn r θ X) 0 = 0 ↔ entry (X ⟨0, hn⟩) 0 = entry (X ⟨0, hn⟩) 1 := by
  cases h with
  | add => cases hop
  | one hn' hsh ho h =>
    subst hn' hsh ho
    exact computes1_norm h hop hs r _

/-- In training mode the samples of a batch are not independent of each other: `BatchNorm1D` normalises by the
statistics of the batch. -/
theorem training_mixes_samples : ¬ AlwaysBySample := by
  intro claim
  obtain ⟨m, L, θ₀, B, hd⟩ := norm_built true
  obtain ⟨pick, hpick⟩ := Props.MaxPoolP.exists_pick
  let env : Nat → Env := fun _ => ⟨fun _ => 0, fun _ => 0, pick⟩
  obtain ⟨w₁, b₁, it₁, ot₁, h₁, a₁, c₁⟩ := fwd_session B (pair 0 0)
  obtain ⟨w₂, b₂, it₂, ot₂, h₂, a₂, c₂⟩ := fwd_session B (pair 0 2)
  have hm := pairs_match (i := 0) (i' := 0) c₁ c₂ a₁.givenIns.length (by
    rw [same_two (by simp)]
    exact (pair_entry (by simp)).1.trans (pair_entry (by simp)).1.symm)
  obtain ⟨w₁', w₂', r₁, r₂, hout⟩ := claim _ _ _ _ _ _ _ L θ₀ B 2 norm_batches w₁ w₂ h₁ h₂ b₁ b₂ env it₁ it₂ ot₁ ot₂ a₁ a₂ (fun _ => hpick)
    0 0 hm
  obtain ⟨v₁, hv₁, hc₁⟩ := values_of_inputs B a₁ env θ₀
  obtain ⟨v₂, hv₂, hc₂⟩ := values_of_inputs B a₂ env θ₀
  obtain ⟨_, -, r₁', -, -, o₁, -⟩ := forward_evaluates_partial B h₁ a₁ (fun _ => hpick) hv₁ hc₁
  obtain ⟨_, -, r₂', -, -, o₂, -⟩ := forward_evaluates_partial B h₂ a₂ (fun _ => hpick) hv₂ hc₂
  obtain rfl := (Prod.mk.inj (r₁.symm.trans r₁')).2
  obtain rfl := (Prod.mk.inj (r₂.symm.trans r₂')).2
  have li₁ : 0 < it₁.length := by rw [a₁.givenIns.length]; decide
  have li₂ : 0 < it₂.length := by rw [a₂.givenIns.length]; decide
  have lo₁ : 0 < ot₁.length := by rw [a₁.givenOuts.length]; decide
  have lo₂ : 0 < ot₂.length := by rw [a₂.givenOuts.length]; decide
  have i₁ := holds_unique (hc₁ 0 0 _ rfl (List.getElem?_eq_getElem li₁)) (c₁ 0 0 _ rfl (List.getElem?_eq_getElem li₁))
  have i₂ := holds_unique (hc₂ 0 0 _ rfl (List.getElem?_eq_getElem li₂)) (c₂ 0 0 _ rfl (List.getElem?_eq_getElem li₂))
  obtain ⟨d, d', f₁, f₂, hdd⟩ := hout 0 _ _ (List.getElem?_eq_getElem lo₁) (List.getElem?_eq_getElem lo₂)
  have o₁ := o₁ 0 1 _ rfl (List.getElem?_eq_getElem lo₁)
  have o₂ := o₂ 0 1 _ rfl (List.getElem?_eq_getElem lo₂)
  unfold Holds at o₁ o₂
  obtain rfl := Option.some.inj (o₁.symm.trans f₁)
  obtain rfl := Option.some.inj (o₂.symm.trans f₂)
  have hs := (same_two (by simp)).1 ((same_list (norm_size (y := 1) (by simp))).2 hdd)
  have hx : 1 ∈ dataOf m := by rw [hd]; simp
  have hc : normE.callOf 1 = some 0 := by rw [normE_eq]; decide
  have hargs : normE.argsOf 1 = [0] := by rw [normE_eq]; decide
  have hop : (infoOf normE (normE.callInfo 0)).op = .batchNorm1D 1 0 := by rw [normE_eq]; decide
  have hl : 0 < (normE.argsOf 1).length := by rw [hargs]; decide
  have harg : (normE.argsOf 1)[0] = 0 := by simp only [hargs]; rfl
  have key : ∀ v : Vals normE, (L.net m env).Evaluates θ₀ v → (entry (v 1) 0 = 0 ↔ entry (v 0) 0 = entry (v 0) 1) := fun v hv => by
    rw [hv 1 (mem_net.2 ⟨hx, by rw [hc]; rfl⟩)]
    have := computes_norm (B.layers 1 hx 0 hc) hop hl (by
      show phShape normE (normE.argsOf 1)[0] = _
      rw [harg]
      exact norm_shape 0 (by simp)) (rngOf normE env 1) ((L.net m env).inputs v 1)
    refine this.trans ?_
    show entry (v (normE.argsOf 1)[0]) 0 = entry (v (normE.argsOf 1)[0]) 1 ↔ _
    rw [harg]
  have k₁ := (key v₁ hv₁).2 (by rw [i₁]; exact (pair_entry (by simp)).1.trans (pair_entry (by simp)).2.symm)
  have k₂ := (key v₂ hv₂).1 (hs.symm.trans k₁)
  rw [i₂, (pair_entry (by simp)).1, (pair_entry (by simp)).2] at k₂
  norm_num at k₂

end

end DW.Props.BatchP
