import Verif.Props.Backend
import Verif.Props.Complete
/-!
# What running a model does not do

Concrete models in which full claims about `forward` and `backward` fail, and which show that the hypotheses of
the theorems in `Verif.Props.Backend` can be met.
-/

set_option autoImplicit false

namespace DW.Props.BackendP

open DW DW.Spec DW.HistL DW.BackendL DW.NetL DW.GraphL DW.Props.GraphP

noncomputable section

variable {topo : Graph → List Node} {e : Expr} {ins outs : List Nat} {m : Model} {real : F32 → ℝ} {tensors : Nat → InfoTensors}

theorem add_linear {n : Nat} {ishape : Fin n → Shape} {o : Shape} {j₀ j₁ : Fin n} (h₀ : ishape j₀ = o) (h₁ : ishape j₁ = o) (X : Args ishape) :
    ∃ F : Args ishape →L[ℝ] Elems o, HasFDerivAt (fun (X : Args ishape) (i : Fin (size o)) => recast h₀ (X j₀) i + recast h₁ (X j₁) i) F X ∧
      ∀ (V : Args ishape) (k : Fin (size o)), F V k = V j₀ (Fin.cast (by rw [h₀]) k) + V j₁ (Fin.cast (by rw [h₁]) k) := by
  have c₀ : size o = size (ishape j₀) := by rw [h₀]
  have c₁ : size o = size (ishape j₁) := by rw [h₁]
  let F : Args ishape →L[ℝ] Elems o := ContinuousLinearMap.pi fun i =>
    (ContinuousLinearMap.proj (R := ℝ) (φ := fun _ : Fin (size (ishape j₀)) => ℝ) (Fin.cast c₀ i)).comp (ContinuousLinearMap.proj j₀) +
      (ContinuousLinearMap.proj (R := ℝ) (φ := fun _ : Fin (size (ishape j₁)) => ℝ) (Fin.cast c₁ i)).comp (ContinuousLinearMap.proj j₁)
  exact ⟨F, F.hasFDerivAt, fun _ _ => rfl⟩

/-- What is passed back through a sum. -/
theorem add_back {n : Nat} {ishape : Fin n → Shape} {o : Shape} {j₀ j₁ : Fin n} (hne : j₀ ≠ j₁) (h₀ : ishape j₀ = o) (h₁ : ishape j₁ = o)
    {X : Args ishape} {bk : Elems o → Args ishape}
    (h : BackpropN (fun (X : Args ishape) (i : Fin (size o)) => recast h₀ (X j₀) i + recast h₁ (X j₁) i) X bk) (g : Elems o)
    (j : Fin n) (hj : j = j₀ ∨ j = j₁) (hs : ishape j = o) : bk g j = recast hs.symm g := by
  classical
  obtain ⟨J, hJ, he⟩ := h
  obtain ⟨F, hF, hF'⟩ := add_linear h₀ h₁ X
  have hJF : J = F := hJ.unique hF
  funext i
  have h1 := he g (Pi.single j (Pi.single i 1))
  rw [hJF, Finset.sum_eq_single j (fun j' _ hj' => by simp [Pi.single_eq_of_ne hj']) (fun h => absurd (Finset.mem_univ _) h),
    Finset.sum_eq_single i (fun i' _ hi' => by simp [hi']) (fun h => absurd (Finset.mem_univ _) h)] at h1
  simp only [Pi.single_eq_same, mul_one] at h1
  rw [← h1]
  rw [Finset.sum_eq_single (Fin.cast (by rw [hs]) i)]
  · rw [hF']
    rcases hj with rfl | rfl
    · rw [Pi.single_eq_of_ne hne.symm]
      simp [recast]
    · rw [Pi.single_eq_of_ne hne]
      simp [recast]
  · intro k _ hk
    rw [hF']
    have hk' : ∀ (hh : size o = size (ishape j)), Fin.cast hh k ≠ i := fun hh heq => hk (by rw [← heq]; rfl)
    rcases hj with rfl | rfl
    · rw [Pi.single_eq_of_ne hne.symm]
      simp [Pi.single_eq_of_ne (hk' _)]
    · rw [Pi.single_eq_of_ne hne]
      simp [Pi.single_eq_of_ne (hk' _)]
  · exact fun h => absurd (Finset.mem_univ _) h

/-! ## A residual block with `BatchNorm2D` -/

/-- `a = ReLU(x); b = BatchNorm2D(a); y = Add(b, a)`. -/
def resid : M Expr Nat := do
  let x ← Expr.placeholder [1, 1, 1, 1]
  let a ← Expr.makeLayer "ReLU" "" [] [x]
  let b ← Expr.makeLayer "BatchNorm2D" "" [("eps", .float 1), ("alpha", .float 0)] [a]
  Expr.makeLayer "Add" "" [] [b, a]

def residE : Expr := (resid {}).2

theorem resid_reachable : Reachable residE :=
  reachable_bind (.placeholder _ .empty) fun _ _ _ h => reachable_bind (.makeLayer _ _ _ _ h)
    fun _ _ _ h => reachable_bind (.makeLayer _ _ _ _ h) fun _ _ _ h => .makeLayer _ _ _ _ h

theorem residE_eq : residE =
    { phs := [⟨[1, 1, 1, 1], none⟩, ⟨[1, 1, 1, 1], some 0⟩, ⟨[1, 1, 1, 1], some 1⟩, ⟨[1, 1, 1, 1], some 2⟩]
      calls := [⟨0, [0]⟩, ⟨1, [1]⟩, ⟨2, [2, 1]⟩]
      infos := [⟨"", .relu, [], []⟩, ⟨"", .batchNorm2D 1 0, [("gamma", ⟨[1], true⟩), ("beta", ⟨[1], true⟩)],
        [("running_mean", [1]), ("running_var", [1])]⟩, ⟨"", .add, [], []⟩] } := by
  decide +kernel

/-- Tensors for the parameters and buffers of `BatchNorm2D` of one channel. -/
def bnTensors : InfoTensors where
  params := [("gamma", ⟨⟨[1], [1]⟩, ⟨[1], [0]⟩, true⟩), ("beta", ⟨⟨[1], [0]⟩, ⟨[1], [0]⟩, true⟩)]
  buffers := [("running_mean", ⟨[1], [0]⟩), ("running_var", ⟨[1], [1]⟩)]

/-- What is known of a model after looking at it. -/
theorem look {α : Type} {f : Model → α} {a : α} (h : observe (modelCtor topo ins outs e) f = some a) :
    ∃ m, (∃ e', modelCtor topo ins outs e = (.ok m, e')) ∧ f m = a := by
  rcases hm : modelCtor topo ins outs e with ⟨o, e'⟩
  rw [hm] at h
  cases o with
  | throw x => simp [observe] at h
  | ub x => simp [observe] at h
  | ok m => exact ⟨m, ⟨e', rfl⟩, Option.some.inj h⟩

theorem tensorsFit_nil {t : InfoTensors} {op : Op} {shs : List Shape} (h : initEntries op shs = .ok ([], [])) : TensorsFit t op shs :=
  ⟨true, fun ps bs hb => by
    rw [h] at hb
    cases hb
    exact ⟨fun _ h => absurd h List.not_mem_nil, fun _ h => absurd h List.not_mem_nil⟩⟩

theorem countFits_ones (n : Nat) : CountFits (List.replicate n 1) := fun k => by simp

theorem resid_built : ∃ (m : Model) (L : Layers residE) (θ₀ : L.Params),
    Built (creationOrder residE) residE [0] [3] m (fun _ => 1) (fun _ => bnTensors) L θ₀ ∧
    sortedData m.sorted = [0, 1, 2, 3] ∧ sortedOps m.sorted = [0, 1, 2] := by
  have ht : SortsCorrectly (creationOrder residE) residE [0] [3] := topological_order_exists resid_reachable (by decide +kernel)
  obtain ⟨m, hm, hd⟩ := look (f := fun m => (sortedData m.sorted, sortedOps m.sorted))
    (show observe (modelCtor (creationOrder residE) [0] [3] residE) _ = some ([0, 1, 2, 3], [0, 1, 2]) by decide +kernel)
  obtain ⟨hd, hs⟩ := Prod.mk.inj hd
  have hd' : dataOf m = [0, 1, 2, 3] := hd
  have ho : Orderly residE [3] := orderly_of_desc resid_reachable (List.pairwise_singleton _ _) fun x => by
    rw [residE_eq]
    match x with
    | 0 | 1 | 2 | 3 => decide +kernel
    | x + 4 => exact List.Pairwise.nil
  have hsound : Sound residE m [0] [3] := ⟨by rw [residE_eq]; decide, by rw [residE_eq, hd']; decide, by rw [residE_eq]; decide, by decide, by decide⟩
  have hsh : ∀ y ∈ dataOf m, phShape residE y = [1, 1, 1, 1] := by rw [hd', residE_eq]; decide
  have hfit : AllFit residE m (fun _ => 1) (fun _ => bnTensors) := by
    refine ⟨fun x hx c hc => ?_, fun x hx c hc => ?_⟩ <;> rw [hd'] at hx <;> simp only [List.mem_cons, List.not_mem_nil, or_false] at hx <;>
      rw [residE_eq] at hc ⊢ <;> rcases hx with rfl | rfl | rfl | rfl <;> first | (obtain rfl := Option.some.inj hc) | exact absurd hc (by simp [Expr.callOf])
    · exact trivial
    · exact ⟨one_pos, 1, 1, 1, 1, rfl, one_ne_zero, countFits_ones 1, countFits_ones 4⟩
    · exact trivial
    · exact tensorsFit_nil rfl
    · refine ⟨true, fun ps bs hb => ?_⟩
      obtain ⟨rfl, rfl⟩ : [("gamma", [1]), ("beta", [1])] = ps ∧ [("running_mean", [1]), ("running_var", [1])] = bs := by
        exact Prod.mk.inj (Out.ok.inj hb)
      simp only [List.forall_mem_cons, List.not_mem_nil, false_imp_iff, implies_true, and_true]
      refine ⟨⟨⟨[1], ⟨_, rfl, rfl⟩, rfl⟩, ⟨[0], ⟨_, rfl, rfl⟩, rfl⟩⟩, ⟨[0], rfl, rfl, ?_⟩, ⟨[1], rfl, rfl, ?_⟩⟩ <;> simp
    · exact tensorsFit_nil rfl
  obtain ⟨L, θ₀, B⟩ := built_exists resid_reachable ht hm ho hsound
    (fun y hy _ => by rw [hsh y hy]; exact ⟨by decide, countFits_ones 4⟩) hfit
  exact ⟨m, L, θ₀, B, hd, hs⟩

/-- What the contract says a sum computes. -/
theorem computes_add {t : InfoTensors} {op : Op} {n : Nat} {ishape : Fin n → Shape} {o : Shape} {P : Nat}
    {fn : (Nat → ℝ) → (Fin P → ℝ) → Args ishape → Elems o} {θ : Fin P → ℝ} {ex : Prop} (h : Computes real t op ishape o P fn θ ex)
    (hop : op = .add) : ex ∧ ∃ (j₀ j₁ : Fin n) (h₀ : ishape j₀ = o) (h₁ : ishape j₁ = o), j₀.val = 0 ∧ j₁.val = 1 ∧
      ∀ r θ', fn r θ' = fun X i => recast h₀ (X j₀) i + recast h₁ (X j₁) i := by
  cases h with
  | one hn hs ho h => subst hop; cases h
  | add hn h₀ h₁ => exact ⟨trivial, _, _, h₀, h₁, rfl, rfl, fun _ _ => rfl⟩

theorem bufs_injective {n : Nat} {ishape : Fin n → Shape} {X Y : Args ishape} (h : bufs X = bufs Y) : X = Y := by
  funext j
  have h1 := congrFun (List.ofFn_injective h) j
  exact List.ofFn_injective (Buf.mk.inj h1).2

theorem passesBack_unique {n : Nat} {ishape : Fin n → Shape} {o : Shape} {l : Cpu} {X : Args ishape} {y : Elems o}
    {bk bk' : Elems o → Args ishape} (h : PassesBack l X y bk) (h' : PassesBack l X y bk') : bk = bk' := by
  funext g
  obtain ⟨l₁, h1⟩ := h ⟨fun _ => 0, fun _ => 0, fun _ => 0⟩ g
  obtain ⟨l₂, h2⟩ := h' ⟨fun _ => 0, fun _ => 0, fun _ => 0⟩ g
  rw [h1] at h2
  exact bufs_injective (Prod.mk.inj (Out.ok.inj h2)).2

/-- **C21** for all models. -/
def BackwardSums : Prop :=
  ∀ (topo : Graph → List Node) (e : Expr) (ins outs : List Nat) (m : Model) (real : F32 → ℝ) (tensors : Nat → InfoTensors)
    (L : Layers e) (θ₀ : L.Params), Built topo e ins outs m real tensors L θ₀ →
    ∀ (θ : L.Params) (env : Nat → Env) (v : Vals e) (w : World), History e ins outs m real tensors L θ₀ θ (some (env, v)) w →
    ∀ (b : Backend) (env' : Nat → Env) (it ot gt : List Nat) (gout : Vals e), BwdArgs e m ins outs w b it ot gt v gout →
    ∃ (w' : World) (b' : Backend) (bk : Backs e) (G : Vals e), m.backward env' it ot gt w = (.ok (), w') ∧ w'.backend = some b' ∧
      (∀ x ∈ (L.net m env).made, ∃ l, layerAt e m b x = some l ∧ PassesBack l ((L.net m env).inputs v x) (v x) (bk x)) ∧
      Gradients m w' b' G ∧ Carry e w' outs gt G ∧
      ∀ y ∈ dataOf m, (L.net m env).Accumulates bk (fun y => if y ∈ outs then gout y else 0) G y

/-- What is lost of what a placeholder receives. -/
theorem received_lost {L : Layers e} {env : Nat → Env} {bk : Backs e} {G : Vals e} {y i : Nat} {x₀ : Nat}
    {j₀ : Fin (e.argsOf x₀).length} (hx₀ : x₀ ∈ (L.net m env).made) (hj₀ : (e.argsOf x₀)[j₀] = y) (hs₀ : ¬ Survives (writesOver e) e m x₀ y)
    (hne : ∀ x ∈ (L.net m env).made, x ≠ x₀ → y ∈ e.argsOf x → Survives (writesOver e) e m x y)
    (hj : ∀ j : Fin (e.argsOf x₀).length, (e.argsOf x₀)[j] = y → j = j₀) :
    (L.net m env).received bk G y i = (L.net m env).received (kept (writesOver e) e m bk) G y i + entry (bk x₀ (G x₀) j₀) i := by
  classical
  have h1 : ∀ x ∈ (L.net m env).made, (∑ j : Fin (e.argsOf x).length, if (e.argsOf x)[j] = y then entry (bk x (G x) j) i else 0) =
      (∑ j : Fin (e.argsOf x).length, if (e.argsOf x)[j] = y then entry (kept (writesOver e) e m bk x (G x) j) i else 0) +
      ∑ j : Fin (e.argsOf x).length, if (e.argsOf x)[j] = y ∧ ¬ Survives (writesOver e) e m x y then entry (bk x (G x) j) i else 0 := fun x _ => by
    rw [← Finset.sum_add_distrib]
    refine Finset.sum_congr rfl fun j _ => ?_
    by_cases ha : (e.argsOf x)[j] = y
    · by_cases hs : Survives (writesOver e) e m x y
      · rw [if_pos ha, if_pos ha, if_neg fun h => h.2 hs, add_zero]
        unfold kept
        rw [if_pos (by rw [ha]; exact hs)]
      · rw [if_pos ha, if_pos ha, if_pos ⟨ha, hs⟩]
        unfold kept
        rw [if_neg (by rw [ha]; exact hs)]
        simp [entry]
    · rw [if_neg ha, if_neg ha, if_neg fun h => ha h.1, add_zero]
  refine (Finset.sum_congr rfl h1).trans ?_
  rw [Finset.sum_add_distrib]
  refine congrArg₂ (· + ·) rfl ?_
  rw [Finset.sum_eq_single x₀, Finset.sum_eq_single j₀, if_pos ⟨hj₀, hs₀⟩]
  · exact fun j _ hj' => if_neg fun h => hj' (hj j h.1)
  · exact fun h => absurd (Finset.mem_univ _) h
  · exact fun x hx hx' => Finset.sum_eq_zero fun j _ => if_neg fun h => h.2 (hne x hx hx' (h.1 ▸ List.getElem_mem _))
  · exact fun h => absurd hx₀ h

theorem holds_unique {store : List Buf} {s : Shape} {u u' : Elems s} {h : Nat} (h1 : Holds store u h) (h2 : Holds store u' h) : u = u' := by
  unfold Holds at h1 h2
  rw [h1] at h2
  exact List.ofFn_injective (Buf.mk.inj (Option.some.inj h2)).2

/-- There is one gradient for each placeholder. -/
theorem gradients_unique (P : Plan e m ins outs) {w : World} {b : Backend} {gt : List Nat} {G G' : Vals e} (hl : gt.length = outs.length)
    (h1 : Gradients m w b G) (h2 : Gradients m w b G') (c1 : Carry e w outs gt G) (c2 : Carry e w outs gt G') :
    ∀ y ∈ dataOf m, G y = G' y := fun y hy => by
  by_cases ho : y ∈ outs
  · obtain ⟨i, hi, rfl⟩ := List.getElem_of_mem ho
    exact holds_unique (c1 i _ gt[i] (List.getElem?_eq_getElem hi) (List.getElem?_eq_getElem _))
      (c2 i _ gt[i] (List.getElem?_eq_getElem hi) (List.getElem?_eq_getElem _))
  · exact holds_unique (h1 y ((mem_nonOutputs P).2 ⟨hy, ho⟩)) (h2 y ((mem_nonOutputs P).2 ⟨hy, ho⟩))

/-- In the residual block, what `Add` passes back to the input of `BatchNorm2D` is lost. -/
theorem resid_lost {m : Model} {L : Layers residE} {θ₀ : L.Params}
    (B : Built (creationOrder residE) residE [0] [3] m (fun _ => 1) (fun _ => bnTensors) L θ₀)
    (hd : sortedData m.sorted = [0, 1, 2, 3]) (hs : sortedOps m.sorted = [0, 1, 2]) {env : Nat → Env} {v : Vals residE} {w : World}
    (hist : History residE [0] [3] m (fun _ => 1) (fun _ => bnTensors) L θ₀ θ₀ (some (env, v)) w) {b : Backend} {it ot gt : List Nat}
    (ha : BwdArgs residE m [0] [3] w b it ot gt v fun _ _ => 1) {w' : World} {b' : Backend} {bk : Backs residE} {G : Vals residE}
    (h1 : m.backward env it ot gt w = (.ok (), w')) (h2 : w'.backend = some b')
    (h3 : ∀ x ∈ (L.net m env).made, ∃ l, layerAt residE m b x = some l ∧ PassesBack l ((L.net m env).inputs v x) (v x) (bk x))
    (h4 : Gradients m w' b' G) (h5 : Carry residE w' [3] gt G)
    (h6 : ∀ y ∈ dataOf m, (L.net m env).Accumulates bk (fun y => if y ∈ [3] then fun _ => 1 else 0) G y) : False := by
  have hd' : dataOf m = [0, 1, 2, 3] := hd
  let one : Vals residE := fun _ _ => 1
  obtain ⟨w'', b'', bk', pk', G', g1, g2, g3, g4, g5, g6, g7, g8, g9⟩ := backward_general B hist (env' := env) ha
  rw [h1] at g1
  obtain rfl := (Prod.mk.inj g1).2
  rw [h2] at g2
  obtain rfl := Option.some.inj g2
  have hG := gradients_unique (plan B) ha.givenGrads.length h4 g5 h5 g6
  have hmade : ∀ x, x ∈ (L.net m env).made ↔ x ∈ [1, 2, 3] := fun x => by
    rw [mem_net, hd', residE_eq]
    constructor
    · rintro ⟨h, h'⟩
      simp only [List.mem_cons, List.not_mem_nil, or_false] at h ⊢
      rcases h with rfl | h
      · exact absurd h' (by decide)
      · exact h
    · revert x; decide
  have hbk : ∀ x ∈ (L.net m env).made, bk x = bk' x := fun x hx => by
    obtain ⟨l, l1, l2⟩ := h3 x hx
    obtain ⟨l', l1', l2', -⟩ := g4 x hx
    rw [l1] at l1'
    obtain rfl := Option.some.inj l1'
    exact passesBack_unique l2 l2'
  have hrep : ∀ x, Replaces (writesOver residE) residE m x 1 ↔ x = 2 := fun x => by
    unfold Replaces writesOver
    rw [hd', residE_eq]
    constructor
    · rintro ⟨h, -, ⟨c, hc, ho⟩, hy⟩
      simp only [List.mem_cons, List.not_mem_nil, or_false] at h
      rcases h with rfl | rfl | rfl | rfl
      · exact absurd hy (by decide)
      · exact absurd hy (by decide)
      · rfl
      · obtain rfl := Option.some.inj hc
        exact absurd ho (by decide)
    · rintro rfl
      exact ⟨by decide, by decide, ⟨1, rfl, rfl⟩, by decide⟩
  have hr2 : rankOf residE m 2 = 1 := by unfold rankOf; rw [hs, residE_eq]; rfl
  have hr3 : rankOf residE m 3 = 2 := by unfold rankOf; rw [hs, residE_eq]; rfl
  have hargs3 : residE.argsOf 3 = [2, 1] := by rw [residE_eq]; rfl
  have hsurv2 : Survives (writesOver residE) residE m 2 1 := fun x hx => by rw [(hrep x).1 hx]
  have hsurv3 : ¬ Survives (writesOver residE) residE m 3 1 := fun h => by
    have := h 2 ((hrep 2).2 rfl)
    omega
  obtain ⟨hex, j₀, j₁, e₀, e₁, hj₀, hj₁, hfn⟩ := computes_add (B.layers 3 (by rw [hd']; decide) 2 (by rw [residE_eq]; rfl))
    (by rw [residE_eq]; rfl)
  have hj₁' : (residE.argsOf 3)[j₁] = 1 := by simp [hargs3, hj₁]
  have hlost := received_lost (L := L) (env := env) (bk := bk) (G := G) (i := 0) ((hmade 3).2 (by decide)) hj₁' hsurv3
    (fun x hx hne hy => by
      have := (hmade x).1 hx
      simp only [List.mem_cons, List.not_mem_nil, or_false] at this
      rcases this with rfl | rfl | rfl
      · rw [residE_eq] at hy
        exact absurd hy (by decide)
      · exact hsurv2
      · exact absurd rfl hne)
    (fun j hj => by
      have hlt : j.val < 2 := j.isLt.trans_eq (by rw [hargs3]; rfl)
      refine Fin.ext ?_
      rw [hj₁]
      by_contra hne
      have : j.val = 0 := by omega
      simp [hargs3, this] at hj)
  have hsame : (L.net m env).received (kept (writesOver residE) residE m bk') G' 1 0 =
      (L.net m env).received (kept (writesOver residE) residE m bk) G 1 0 := by
    refine Finset.sum_congr rfl fun x hx => Finset.sum_congr rfl fun j _ => ?_
    unfold kept
    rw [hbk x hx, hG x (mem_net.1 hx).1]
  have hpos : ∀ y ∈ dataOf m, 0 < size (phShape residE y) := by rw [hd', residE_eq]; decide
  have h1d : 1 ∈ dataOf m := by rw [hd']; decide
  have h3d : 3 ∈ dataOf m := by rw [hd']; decide
  have a1 := h6 1 h1d ⟨0, hpos 1 h1d⟩
  have a2 := g8 1 h1d ⟨0, hpos 1 h1d⟩
  have a3 := h6 3 h3d ⟨0, hpos 3 h3d⟩
  unfold keptBase at a2
  rw [if_pos ⟨2, (hrep 2).2 rfl⟩] at a2
  have z1 : (L.net m env).received bk G 3 0 = 0 := Finset.sum_eq_zero fun x hx => Finset.sum_eq_zero fun j _ => if_neg fun h => by
    have hmem : 3 ∈ residE.argsOf x := h ▸ List.getElem_mem _
    have := (hmade x).1 hx
    rw [residE_eq] at hmem
    simp only [List.mem_cons, List.not_mem_nil, or_false] at this
    rcases this with rfl | rfl | rfl <;> exact absurd hmem (by decide)
  have hb3 : ∃ hsj, bk 3 (G 3) j₁ = recast hsj (G 3) := by
    obtain ⟨l, -, -, -, hx⟩ := g4 3 ((hmade 3).2 (by decide))
    have hx := hx hex
    rw [hfn] at hx
    refine ⟨e₁.symm, ?_⟩
    rw [hbk 3 ((hmade 3).2 (by decide))]
    refine add_back (fun h => ?_) e₀ e₁ (hx ?_) (G 3) j₁ (.inr rfl) e₁
    · rw [h, hj₁] at hj₀
      exact absurd hj₀ one_ne_zero
    · obtain ⟨F, hF, -⟩ := add_linear e₀ e₁ ((L.net m env).inputs v 3)
      exact hF.differentiableAt
  obtain ⟨hsj, hb3⟩ := hb3
  have z2 : entry (bk 3 (G 3) j₁) 0 = G 3 ⟨0, hpos 3 h3d⟩ := by
    rw [hb3]
    unfold entry
    rw [dif_pos (by rw [← hsj]; exact hpos 3 h3d)]
    rfl
  have hG1 := congrFun (hG 1 h1d) ⟨0, hpos 1 h1d⟩
  have a3' : G 3 ⟨0, hpos 3 h3d⟩ = 1 := by
    rw [a3, z1]
    simp [one]
  simp only [List.mem_singleton] at a1
  norm_num at a1
  rw [hsame] at a2
  rw [hlost, z2, a3'] at a1
  rw [← hG1, a1] at a2
  simp at a2

/-- **C21** is false: what `Add` passes back to the input of `BatchNorm2D` is lost. -/
theorem backward_sums_refuted : ¬ BackwardSums := by
  intro claim
  obtain ⟨m, L, θ₀, B, hd, hs⟩ := resid_built
  obtain ⟨pick, hpick⟩ := Props.MaxPoolP.exists_pick
  let env : Nat → Env := fun _ => ⟨fun _ => 0, fun _ => 0, pick⟩
  let one : Vals residE := fun _ _ => 1
  obtain ⟨v, w, b, it, ot, gt, hv, -, hist, ha⟩ := session B env (fun _ => hpick) one one
  obtain ⟨w', b', bk, G, h1, h2, h3, h4, h5, h6⟩ := claim _ _ _ _ _ _ _ L θ₀ B θ₀ env v w hist b env it ot gt one ha
  exact resid_lost B hd hs hist ha h1 h2 h3 h4 h5 h6

/-! ## An output that is used by another layer -/

/-- `a = ReLU(x); y = Add(a, x)`. -/
def skip : M Expr Nat := do
  let x ← Expr.placeholder [1]
  let a ← Expr.makeLayer "ReLU" "" [] [x]
  Expr.makeLayer "Add" "" [] [a, x]

def skipE : Expr := (skip {}).2

theorem skip_reachable : Reachable skipE :=
  reachable_bind (.placeholder _ .empty) fun _ _ _ h => reachable_bind (.makeLayer _ _ _ _ h) fun _ _ _ h => .makeLayer _ _ _ _ h

theorem skipE_eq : skipE =
    { phs := [⟨[1], none⟩, ⟨[1], some 0⟩, ⟨[1], some 1⟩]
      calls := [⟨0, [0]⟩, ⟨1, [1, 0]⟩]
      infos := [⟨"", .relu, [], []⟩, ⟨"", .add, [], []⟩] } := by
  decide +kernel

theorem skip_built : ∃ (m : Model) (L : Layers skipE) (θ₀ : L.Params),
    Built (creationOrder skipE) skipE [0] [2, 1] m (fun _ => 1) (fun _ => ⟨[], []⟩) L θ₀ ∧ dataOf m = [0, 1, 2] := by
  have ht : SortsCorrectly (creationOrder skipE) skipE [0] [2, 1] := topological_order_exists skip_reachable (by decide +kernel)
  obtain ⟨m, hm, hd⟩ := look (f := fun m => sortedData m.sorted)
    (show observe (modelCtor (creationOrder skipE) [0] [2, 1] skipE) _ = some [0, 1, 2] by decide +kernel)
  have hd' : dataOf m = [0, 1, 2] := hd
  have ho : Orderly skipE [2, 1] := orderly_of_desc skip_reachable (by decide) fun x => by
    rw [skipE_eq]
    match x with
    | 0 | 1 | 2 => decide +kernel
    | x + 3 => exact List.Pairwise.nil
  have hsound : Sound skipE m [0] [2, 1] := ⟨by rw [skipE_eq]; decide, by rw [skipE_eq, hd']; decide, by rw [skipE_eq]; decide, by decide, by decide⟩
  have hsh : ∀ y ∈ dataOf m, phShape skipE y = [1] := by rw [hd', skipE_eq]; decide
  have hfit : AllFit skipE m (fun _ => 1) (fun _ => ⟨[], []⟩) := by
    refine ⟨fun x hx c hc => ?_, fun x hx c hc => ?_⟩ <;> rw [hd'] at hx <;> simp only [List.mem_cons, List.not_mem_nil, or_false] at hx <;>
      rw [skipE_eq] at hc ⊢ <;> rcases hx with rfl | rfl | rfl <;> first | (obtain rfl := Option.some.inj hc) | exact absurd hc (by simp [Expr.callOf])
    · exact trivial
    · exact trivial
    · exact tensorsFit_nil rfl
    · exact tensorsFit_nil rfl
  obtain ⟨L, θ₀, B⟩ := built_exists skip_reachable ht hm ho hsound
    (fun y hy _ => by rw [hsh y hy]; exact ⟨by decide, countFits_ones 1⟩) hfit
  exact ⟨m, L, θ₀, B, hd'⟩

/-- **C69** for all models: `backward` changes none of its arguments. -/
def BackwardUntouched : Prop :=
  ∀ (topo : Graph → List Node) (e : Expr) (ins outs : List Nat) (m : Model) (real : F32 → ℝ) (tensors : Nat → InfoTensors)
    (L : Layers e) (θ₀ : L.Params), Built topo e ins outs m real tensors L θ₀ →
    ∀ (θ : L.Params) (env : Nat → Env) (v : Vals e) (w : World), History e ins outs m real tensors L θ₀ θ (some (env, v)) w →
    ∀ (b : Backend) (env' : Nat → Env) (it ot gt : List Nat) (gout : Vals e), BwdArgs e m ins outs w b it ot gt v gout →
    ∃ w', m.backward env' it ot gt w = (.ok (), w') ∧ ∀ h ∈ it ++ ot ++ gt, w'.store[h]? = w.store[h]?

/-- **C69** is false: what layers pass back to an output is added to the caller's `grad_output`. -/
theorem backward_changes_gradOutput : ¬ BackwardUntouched := by
  intro claim
  obtain ⟨m, L, θ₀, B, hd⟩ := skip_built
  obtain ⟨pick, hpick⟩ := Props.MaxPoolP.exists_pick
  let env : Nat → Env := fun _ => ⟨fun _ => 0, fun _ => 0, pick⟩
  let one : Vals skipE := fun _ _ => 1
  obtain ⟨v, w, b, it, ot, gt, hv, -, hist, ha⟩ := session B env (fun _ => hpick) one one
  obtain ⟨w', h1, h2⟩ := claim _ _ _ _ _ _ _ L θ₀ B θ₀ env v w hist b env it ot gt one ha
  obtain ⟨w'', b'', bk, pk, G, g1, g2, g3, g4, g5, g6, g7, g8, g9⟩ := backward_general B hist (env' := env) ha
  rw [h1] at g1
  obtain rfl := (Prod.mk.inj g1).2
  have hmade : ∀ x, x ∈ (L.net m env).made ↔ x ∈ [1, 2] := fun x => by
    rw [mem_net, hd, skipE_eq]
    constructor
    · rintro ⟨h, h'⟩
      simp only [List.mem_cons, List.not_mem_nil, or_false] at h ⊢
      rcases h with rfl | h
      · exact absurd h' (by decide)
      · exact h
    · revert x; decide
  have hov : ∀ x y, ¬ Replaces (writesOver skipE) skipE m x y := fun x y h => by
    unfold Replaces writesOver at h
    rw [hd, skipE_eq] at h
    obtain ⟨h, -, ⟨c, hc, ho⟩, -⟩ := h
    simp only [List.mem_cons, List.not_mem_nil, or_false] at h
    rcases h with rfl | rfl | rfl <;> first | (obtain rfl := Option.some.inj hc; exact absurd ho (by decide)) | exact absurd hc (by simp [Expr.callOf])
  have hsole : SoleConsumer skipE m [2, 1] := fun x y h => absurd h (hov x y)
  have acc := fun y hy => accumulates_sole hsole (g8 y hy)
  have hlen := ha.givenGrads.length
  obtain ⟨t2, t1, rfl⟩ : ∃ t2 t1, gt = [t2, t1] := by
    match gt, hlen with
    | [a, b], _ => exact ⟨a, b, rfl⟩
  -- the gradients of the outputs would be as given
  have hG : ∀ y ∈ [2, 1], G y = one y := fun y hy => by
    have key : ∀ i h : Nat, [2, 1][i]? = some y → [t2, t1][i]? = some h → G y = one y := fun i h a c => by
      refine holds_unique (g6 i y h a c) ?_
      unfold Holds
      rw [h2 h (by simp [List.mem_of_getElem? c])]
      exact ha.gradsHold i y h a c
    simp only [List.mem_cons, List.not_mem_nil, or_false] at hy
    rcases hy with rfl | rfl
    · exact key 0 t2 rfl rfl
    · exact key 1 t1 rfl rfl
  obtain ⟨hex, j₀, j₁, e₀, e₁, hj₀, hj₁, hfn⟩ := computes_add (B.layers 2 (by rw [hd]; decide) 1 (by rw [skipE_eq]; rfl))
    (by rw [skipE_eq]; rfl)
  have hargs : skipE.argsOf 2 = [1, 0] := by rw [skipE_eq]; rfl
  have hb : bk 2 (G 2) j₀ = recast e₀.symm (G 2) := by
    obtain ⟨l, -, -, -, hx⟩ := g4 2 ((hmade 2).2 (by decide))
    have hx := hx hex
    rw [hfn] at hx
    refine add_back (fun h => ?_) e₀ e₁ (hx ?_) (G 2) j₀ (.inl rfl) e₀
    · rw [h, hj₁] at hj₀
      exact absurd hj₀ one_ne_zero
    · obtain ⟨F, hF, -⟩ := add_linear e₀ e₁ ((L.net m env).inputs v 2)
      exact hF.differentiableAt
  have hpos : ∀ y ∈ dataOf m, 0 < size (phShape skipE y) := by rw [hd, skipE_eq]; decide
  have h1d : 1 ∈ dataOf m := by rw [hd]; decide
  have h2d : 2 ∈ dataOf m := by rw [hd]; decide
  have hrec : (L.net m env).received bk G 1 0 = entry (bk 2 (G 2) j₀) 0 := by
    refine (Finset.sum_eq_single 2 (fun x hx hne => Finset.sum_eq_zero fun j _ => if_neg fun h => ?_) fun h => absurd ((hmade 2).2 (by decide)) h).trans
      ((Finset.sum_eq_single j₀ (fun j _ hne => if_neg fun h => ?_) fun h => absurd (Finset.mem_univ _) h).trans (if_pos ?_))
    · have hmem : 1 ∈ skipE.argsOf x := h ▸ List.getElem_mem _
      have := (hmade x).1 hx
      rw [skipE_eq] at hmem
      simp only [List.mem_cons, List.not_mem_nil, or_false] at this
      rcases this with rfl | rfl
      · exact absurd hmem (by decide)
      · exact hne rfl
    · have hlt : j.val < 2 := j.isLt.trans_eq (by show (skipE.argsOf 2).length = 2; rw [hargs]; rfl)
      refine hne (Fin.ext ?_)
      rw [hj₀]
      by_contra hne
      have : j.val = 1 := by omega
      have h' : (skipE.argsOf 2)[j.val] = 1 := h
      simp [hargs, this] at h'
    · show (skipE.argsOf 2)[j₀.val] = 1
      simp [hargs, hj₀]
  have a1 := acc 1 h1d ⟨0, hpos 1 h1d⟩
  have z : entry (bk 2 (G 2) j₀) 0 = 1 := by
    rw [hb]
    unfold entry
    rw [dif_pos ((hpos 2 h2d).trans_eq (congrArg size e₀.symm)), hG 2 (by decide)]
    rfl
  rw [hG 1 (by decide)] at a1
  have a1 : (1 : ℝ) = 1 + (L.net m env).received bk G 1 0 := a1
  rw [hrec, z] at a1
  norm_num at a1

/-! ## An input that is also an output -/

/-- `y = ReLU(x)`. -/
def echo : M Expr Nat := do
  let x ← Expr.placeholder [1]
  Expr.makeLayer "ReLU" "" [] [x]

def echoE : Expr := (echo {}).2

theorem echo_reachable : Reachable echoE := reachable_bind (.placeholder _ .empty) fun _ _ _ h => .makeLayer _ _ _ _ h

theorem echoE_eq : echoE =
    { phs := [⟨[1], none⟩, ⟨[1], some 0⟩], calls := [⟨0, [0]⟩], infos := [⟨"", .relu, [], []⟩] } := by
  decide +kernel

/-- **C19** for all models with orderly wiring all of whose sources are listed, directly after `compile`. -/
def ForwardEvaluates : Prop :=
  ∀ (topo : Graph → List Node) (e : Expr) (ins outs : List Nat) (m : Model) (real : F32 → ℝ) (tensors : Nat → InfoTensors)
    (L : Layers e) (θ : L.Params), Reachable e → SortsCorrectly topo e ins outs → (∃ e', modelCtor topo ins outs e = (.ok m, e')) →
    Orderly e outs → (∀ y ∈ ins, e.callOf y = none) → (∀ y ∈ dataOf m, e.callOf y = none → y ∈ ins) → outs.Nodup → ins.Nodup →
    (∀ x ∈ dataOf m, ∀ c, e.callOf x = some c → Computes real (tensors (e.callInfo c)) (infoOf e (e.callInfo c)).op
      (fun j : Fin (e.argsOf x).length => phShape e (e.argsOf x)[j]) (phShape e x) (L.params x) (L.fn x) (θ x) (L.exact x)) →
    ∀ (junk : Nat → ℝ) (w w₁ : World), m.compile e real junk tensors w = (.ok (), w₁) →
    ∀ (b : Backend) (env : Nat → Env) (it ot : List Nat) (v : Vals e), FwdArgs e m ins outs w₁ b it ot → (∀ c, IsPick (env c).pick) →
      (L.net m env).Evaluates θ v → Carry e w₁ ins it v →
    ∃ w', m.forward env it ot w₁ = (.ok (), w') ∧ Carry e w' outs ot v

/-- **C19** is false: if an input is listed as an output too, the tensor for the output is not written, and layers take their
arguments from it. -/
theorem forward_evaluates_refuted : ¬ ForwardEvaluates := by
  intro claim
  have ht : SortsCorrectly (creationOrder echoE) echoE [0] [1, 0] := topological_order_exists echo_reachable (by decide +kernel)
  obtain ⟨m, hm, hd⟩ := look (f := fun m => ([m.graph.storage 0, m.graph.storage 1], [sortedData m.sorted, sortedOps m.sorted,
      idsOf m m.graph.ins, idsOf m m.graph.outs, inIds m.graph m.sorted 0, outIds m.graph m.sorted 0]))
    (show observe (modelCtor (creationOrder echoE) [0] [1, 0] echoE) _ =
      some ([.output, .output], [[0, 1], [0], [0], [1, 0], [0], [1]]) by decide +kernel)
  simp only [Prod.mk.injEq, List.cons.injEq, and_true] at hd
  obtain ⟨⟨s0, s1⟩, hd, ho, hi, hou, hin, hout⟩ := hd
  have hd' : dataOf m = [0, 1] := hd
  have hord : Orderly echoE [1, 0] := orderly_of_desc echo_reachable (by decide) fun x => by
    rw [echoE_eq]
    match x with
    | 0 | 1 => decide +kernel
    | x + 2 => exact List.Pairwise.nil
  have hfit : AllFit echoE m (fun _ => 1) (fun _ => ⟨[], []⟩) := by
    refine ⟨fun x hx c hc => ?_, fun x hx c hc => ?_⟩ <;> rw [hd'] at hx <;> simp only [List.mem_cons, List.not_mem_nil, or_false] at hx <;>
      rw [echoE_eq] at hc ⊢ <;> rcases hx with rfl | rfl <;> first | (obtain rfl := Option.some.inj hc) | exact absurd hc (by simp [Expr.callOf])
    · exact trivial
    · exact tensorsFit_nil rfl
  obtain ⟨L, θ, hL, -⟩ := layers_exist (m := m) (real := fun _ => 1) (tensors := fun _ => ⟨[], []⟩) (fun _ _ _ _ _ => True)
    fun x hx c hc => by
      obtain ⟨P, fn, θ, ex, h⟩ := layers_compute echo_reachable hfit x hx c hc
      exact ⟨P, fn, θ, ex, h, trivial⟩
  let w : World := ⟨[⟨[1], [5]⟩, ⟨[1], [0]⟩, ⟨[1], [0]⟩], none⟩
  have hcomp : m.compile echoE (fun _ => 1) (fun _ => 0) (fun _ => ⟨[], []⟩) w = (.ok (), ⟨[⟨[1], [5]⟩, ⟨[1], [0]⟩, ⟨[1], [0]⟩, ⟨[], []⟩, ⟨[], []⟩, ⟨[], []⟩, ⟨[], []⟩],
      some ⟨[3, 4], [5, 6], [.relu]⟩⟩) := by
    unfold Model.compile
    rw [hd, ho, echoE_eq]
    simp [s0, s1, allocData, Cpu.create, infoOf, Expr.callInfo, w, List.range, List.range.loop]
  obtain ⟨pick, hpick⟩ := Props.MaxPoolP.exists_pick
  let env : Nat → Env := fun _ => ⟨fun _ => 0, fun _ => 0, pick⟩
  let v₀ : Vals echoE := fun _ _ => 5
  let v : Vals echoE := Function.update v₀ 1 (L.fn 1 (rngOf echoE env 1) (θ 1) ((L.net m env).inputs v₀ 1))
  have hargs : echoE.argsOf 1 = [0] := by rw [echoE_eq]; rfl
  have hv : (L.net m env).Evaluates θ v := fun x hx => by
    obtain ⟨h1, h2⟩ := mem_net.1 hx
    rw [hd'] at h1
    simp only [List.mem_cons, List.not_mem_nil, or_false] at h1
    rcases h1 with rfl | rfl
    · rw [echoE_eq] at h2
      exact absurd h2 (by decide)
    · have hin : (L.net m env).inputs v 1 = (L.net m env).inputs v₀ 1 := by
        funext j
        refine Function.update_of_ne (f := v₀) (fun h => ?_) _
        have hmem : ((L.net m env).args 1)[j] ∈ echoE.argsOf 1 := List.getElem_mem _
        rw [h, hargs] at hmem
        exact absurd hmem (by decide)
      rw [hin]
      exact Function.update_self (f := v₀) 1 _
  have hsh : ∀ y ∈ [0, 1], phShape echoE y = [1] := by rw [echoE_eq]; decide
  have hroom : ∀ {s : Shape} {a : ℝ} {store : List Buf} {h : Nat}, s = [1] → store[h]? = some ⟨[1], [a]⟩ → Room store s h :=
    fun {s a store h} hs h1 => by subst hs; exact ⟨_, h1, rfl⟩
  have hcar : Carry echoE ⟨[⟨[1], [5]⟩, ⟨[1], [0]⟩, ⟨[1], [0]⟩, ⟨[], []⟩, ⟨[], []⟩, ⟨[], []⟩, ⟨[], []⟩],
      some ⟨[3, 4], [5, 6], [.relu]⟩⟩ [0] [0] v := fun i y h hy hh => by
    match i, hy, hh with
    | 0, hy, hh =>
      obtain rfl := Option.some.inj hy
      obtain rfl := Option.some.inj hh
      have : v 0 = v₀ 0 := Function.update_of_ne (f := v₀) (by decide) _
      unfold Holds
      rw [this]
      show _ = some (Buf.mk (phShape echoE 0) (List.ofFn fun _ : Fin (size (phShape echoE 0)) => 5))
      rw [hsh 0 (by decide)]
      simp [size, count]
  have hpriv : privates m ⟨[3, 4], [5, 6], [.relu]⟩ = [] := by
    unfold privates internals nonOutputs
    rw [hd']
    simp [s0, s1]
  have hfa : FwdArgs echoE m [0] [1, 0] ⟨[⟨[1], [5]⟩, ⟨[1], [0]⟩, ⟨[1], [0]⟩, ⟨[], []⟩, ⟨[], []⟩, ⟨[], []⟩, ⟨[], []⟩],
      some ⟨[3, 4], [5, 6], [.relu]⟩⟩ ⟨[3, 4], [5, 6], [.relu]⟩ [0] [1, 2] := by
    refine ⟨rfl, ⟨rfl, fun i y h hy hh => ?_, by rw [hpriv]; simp⟩, ⟨rfl, fun i y h hy hh => ?_, by rw [hpriv]; simp⟩, by decide, by decide⟩
    · match i, hy, hh with
      | 0, hy, hh =>
        obtain rfl := Option.some.inj hy
        obtain rfl := Option.some.inj hh
        exact hroom (hsh 0 (by decide)) rfl
    · match i, hy, hh with
      | 0, hy, hh =>
        obtain rfl := Option.some.inj hy
        obtain rfl := Option.some.inj hh
        exact hroom (hsh 1 (by decide)) rfl
      | 1, hy, hh =>
        obtain rfl := Option.some.inj hy
        obtain rfl := Option.some.inj hh
        exact hroom (hsh 0 (by decide)) rfl
  obtain ⟨w', hw', hc⟩ := claim _ _ _ _ _ _ _ L θ echo_reachable ht hm hord (by rw [echoE_eq]; decide) (by rw [hd', echoE_eq]; decide) (by decide)
    (by decide) hL _ w _ hcomp _ env [0] [1, 2] v hfa (fun _ => hpick) hv hcar
  have h2 := hc 1 0 2 rfl rfl
  have hrun : (m.forward env [0] [1, 2] ⟨[⟨[1], [5]⟩, ⟨[1], [0]⟩, ⟨[1], [0]⟩, ⟨[], []⟩, ⟨[], []⟩, ⟨[], []⟩, ⟨[], []⟩],
      some ⟨[3, 4], [5, 6], [.relu]⟩⟩).2.store[2]? = some ⟨[1], [0]⟩ := by
    unfold Model.forward
    simp [hi, hou, ho, hin, hout, M.bind_apply, needBackend, rebind, bind, runAll, onLayer, forwardOp, gather, Out.idx, Cpu.forward]
    cases reluFwd [⟨[1], [0]⟩] [⟨[1], [0]⟩] <;> rfl
  rw [hw'] at hrun
  unfold Holds at h2
  rw [show v 0 = v₀ 0 from Function.update_of_ne (f := v₀) (by decide) _, hrun] at h2
  have h3 := congrArg List.sum (Buf.mk.inj (Option.some.inj h2)).2
  rw [show List.ofFn (v₀ 0) = List.ofFn fun _ : Fin (size (phShape echoE 0)) => (5 : ℝ) from rfl, hsh 0 (by decide)] at h3
  simp [size, count] at h3

end

end DW.Props.BackendP
