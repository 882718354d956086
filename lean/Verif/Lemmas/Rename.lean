import Verif.Lemmas.Typed
/-! # Expressions with the same structure under other numbers -/

set_option autoImplicit false

namespace DW

/-- The graph with other numbers for placeholders and calls. -/
def Graph.rename (g : Graph) (φ ψ : Nat → Nat) : Graph where
  dataNodes := g.dataNodes.map φ
  opNodes := g.opNodes.map ψ
  inLinks := g.inLinks.map fun l => (φ l.1, ψ l.2.1, l.2.2)
  outLinks := g.outLinks.map fun l => (ψ l.1, φ l.2)
  ins := g.ins.map φ
  outs := g.outs.map φ

namespace RenameL

open DW.Spec DW.GraphL

/-- The part `P` of `e` occurs in `e'` under the numbers `φ` and `ψ`. -/
structure Iso (e e' : Expr) (P : Nat → Prop) (φ ψ : Nat → Nat) : Prop where
  inj : ∀ x y, P x → P y → φ x = φ y → x = y
  call : ∀ x, P x → e'.callOf (φ x) = (e.callOf x).map ψ
  args : ∀ x c, P x → e.callOf x = some c → e'.callArgs (ψ c) = (e.callArgs c).map φ
  closed : ∀ x c, P x → e.callOf x = some c → ∀ a ∈ e.callArgs c, P a

variable {e e' : Expr} {P : Nat → Prop} {φ ψ : Nat → Nat}

theorem Iso.call_some (h : Iso e e' P φ ψ) {x c : Nat} (hx : P x) (hc : e.callOf x = some c) : e'.callOf (φ x) = some (ψ c) := by
  rw [h.call x hx, hc]; rfl

theorem Iso.inj_call (h : Iso e e' P φ ψ) (wf : WF e') {x y c d : Nat} (hx : P x) (hy : P y) (hc : e.callOf x = some c)
    (hd : e.callOf y = some d) (hcd : ψ c = ψ d) : c = d := by
  have h1 := h.call_some hx hc
  have h2 := h.call_some hy hd
  rw [hcd] at h1
  have := h.inj x y hx hy (wf.call_inj _ _ _ h1 h2)
  rw [this, hd] at hc
  exact (Option.some.inj hc).symm

theorem contains_map (h : ∀ x y, P x → P y → φ x = φ y → x = y) {l : List Nat} (hl : ∀ x ∈ l, P x) {a : Nat} (ha : P a) :
    (l.map φ).contains (φ a) = l.contains a := by
  rw [Bool.eq_iff_iff, List.contains_iff_mem, List.contains_iff_mem, List.mem_map]
  constructor
  · rintro ⟨x, hx, hxa⟩
    rwa [← h x a (hl x hx) ha hxa]
  · exact fun h => ⟨a, h, rfl⟩

theorem unrollLoop_map (h : Iso e e' P φ ψ) : ∀ (n : Nat) (stack reached : List Nat) (acc u : Unrolled), (∀ x ∈ stack, P x) →
    (∀ x ∈ reached, P x) → unrollLoop e n stack reached acc = some u →
    unrollLoop e' n (stack.map φ) (reached.map φ) ⟨acc.data.map φ, acc.ops.map ψ⟩ = some ⟨u.data.map φ, u.ops.map ψ⟩
  | n, [], reached, acc, u, _, _, hu => by
    cases n <;> (simp only [unrollLoop, Option.some.injEq] at hu; subst hu; rfl)
  | 0, x :: stack, _, _, _, _, _, hu => by simp [unrollLoop] at hu
  | n + 1, x :: stack, reached, acc, u, hs, hr, hu => by
    have hx : P x := hs x (.head _)
    have hs' : ∀ y ∈ stack, P y := fun y hy => hs y (.tail _ hy)
    have hr' : ∀ y ∈ x :: reached, P y := by
      intro y hy
      rcases List.mem_cons.1 hy with rfl | hy
      · exact hx
      · exact hr y hy
    simp only [unrollLoop, List.map_cons] at hu ⊢
    cases hc : e.callOf x with
    | none =>
      have hc' : e'.callOf (φ x) = none := by rw [h.call x hx, hc]; rfl
      rw [hc] at hu
      simp only [hc'] at hu ⊢
      have := unrollLoop_map h n stack (x :: reached) _ u hs' hr' hu
      simpa using this
    | some c =>
      rw [hc] at hu
      simp only [h.call_some hx hc] at hu ⊢
      rw [push_eq] at hu ⊢
      have hcl := h.closed x c hx hc
      have := unrollLoop_map h n _ (x :: reached) _ u (by
        intro y hy
        rcases List.mem_append.1 hy with hy | hy
        · exact hcl y (List.mem_filter.1 (List.mem_reverse.1 hy)).1
        · exact hs' y hy) hr' hu
      have hf : ((e'.callArgs (ψ c)).filter fun a => !(φ x :: reached.map φ).contains a) =
          ((e.callArgs c).filter fun a => !(x :: reached).contains a).map φ := by
        rw [h.args x c hx hc, List.filter_map]
        congr 1
        apply List.filter_congr
        intro a ha
        have := contains_map h.inj hr' (hcl a ha)
        rw [List.map_cons] at this
        simp only [Function.comp, this]
      rw [hf]
      simpa using this

theorem unrollLoop_fuel : ∀ (n k : Nat) (stack reached : List Nat) (acc u u' : Unrolled),
    unrollLoop e n stack reached acc = some u → unrollLoop e k stack reached acc = some u' → u = u'
  | n, k, [], reached, acc, u, u', h, h' => by
    cases n <;> cases k <;> simp only [unrollLoop, Option.some.injEq] at h h' <;> rw [← h, ← h']
  | 0, _, x :: stack, _, _, _, _, h, _ => by simp [unrollLoop] at h
  | _ + 1, 0, x :: stack, _, _, _, _, _, h' => by simp [unrollLoop] at h'
  | n + 1, k + 1, x :: stack, reached, acc, u, u', h, h' => by
    simp only [unrollLoop] at h h'
    cases hc : e.callOf x with
    | none =>
      rw [hc] at h h'
      exact unrollLoop_fuel n k _ _ _ u u' h h'
    | some c =>
      rw [hc] at h h'
      exact unrollLoop_fuel n k _ _ _ u u' h h'

theorem unroll_map (h : Iso e e' P φ ψ) (wf : WF e') {outs : List Nat} (ho : ∀ x ∈ outs, P x)
    (hl : ∀ x ∈ outs, φ x < e'.phs.length) {u : Unrolled} (hu : unroll e outs = some u) :
    unroll e' (outs.map φ) = some ⟨u.data.map φ, u.ops.map ψ⟩ := by
  obtain ⟨u', hu'⟩ := unroll_some wf (outs := outs.map φ) (by
    intro y hy
    obtain ⟨x, hx, rfl⟩ := List.mem_map.1 hy
    exact hl x hx)
  rw [hu']
  unfold unroll at hu hu'
  rw [outs_stack] at hu hu'
  have h1 := unrollLoop_map h _ _ [] ⟨[], []⟩ u (fun x hx => ho x (List.mem_reverse.1 hx)) (by simp) hu
  rw [List.map_reverse] at h1
  exact congrArg some (unrollLoop_fuel _ _ _ _ _ _ _ hu' h1)

theorem insertNew_map (h : ∀ x y, P x → P y → φ x = φ y → x = y) : ∀ (l acc : List Nat), (∀ x ∈ l, P x) → (∀ x ∈ acc, P x) →
    (l.map φ).foldl insertNew (acc.map φ) = (l.foldl insertNew acc).map φ
  | [], _, _, _ => rfl
  | x :: l, acc, hl, ha => by
    have hx := hl x (.head _)
    simp only [List.map_cons, List.foldl_cons]
    have : insertNew (acc.map φ) (φ x) = (insertNew acc x).map φ := by
      have hc := contains_map h ha hx
      rw [Bool.eq_iff_iff, List.contains_iff_mem, List.contains_iff_mem] at hc
      unfold insertNew
      by_cases hm : x ∈ acc
      · rw [if_pos hm, if_pos (hc.2 hm)]
      · rw [if_neg hm, if_neg (fun hn => hm (hc.1 hn)), List.map_append]; rfl
    rw [this]
    refine insertNew_map h l _ (fun y hy => hl y (.tail _ hy)) ?_
    intro y hy
    unfold insertNew at hy
    split at hy
    · exact ha y hy
    · rcases List.mem_append.1 hy with hy | hy
      · exact ha y hy
      · rw [List.mem_singleton] at hy; rw [hy]; exact hx

theorem needed_P (h : Iso e e' P φ ψ) {x y : Nat} (hn : Needs e x y) (hx : P x) : P y := by
  induction hn with
  | refl _ => exact hx
  | step hc ha _ ih => exact ih (h.closed _ _ hx hc _ ha)

theorem argLinks_map (h : Iso e e' P φ ψ) {x c : Nat} (hx : P x) (hc : e.callOf x = some c) :
    argLinks e' (ψ c) = (argLinks e c).map fun l => (φ l.1, ψ l.2.1, l.2.2) := by
  unfold argLinks
  rw [h.args x c hx hc, List.zipIdx_map, List.map_map, List.map_map]
  rfl

/-- The graph of the renamed expression is the renamed graph. -/
theorem build_map (h : Iso e e' P φ ψ) (wf : WF e') {ins outs : List Nat} (hi : ∀ x ∈ ins, P x) (ho : ∀ x ∈ outs, P x)
    (hl : ∀ x ∈ outs, φ x < e'.phs.length) {g : Graph} (hg : buildGraph e ins outs = .ok g) :
    buildGraph e' (ins.map φ) (outs.map φ) = .ok (g.rename φ ψ) := by
  unfold buildGraph at hg ⊢
  cases hu : unroll e outs with
  | none => simp [hu] at hg
  | some u =>
    rw [unroll_map h wf ho hl hu]
    rw [hu] at hg
    obtain ⟨hud, huo⟩ := unroll_spec hu
    have hP : ∀ x ∈ u.data, P x := by
      intro x hx
      obtain ⟨o, ho', hn⟩ := (hud x).1 hx
      exact needed_P h hn (ho o ho')
    have hops : ∀ c ∈ u.ops, ∃ x, P x ∧ e.callOf x = some c := by
      intro c hc
      rw [huo, List.mem_filterMap] at hc
      obtain ⟨x, hx, hxc⟩ := hc
      exact ⟨x, hP x hx, hxc⟩
    have e1 : (u.ops.map ψ).flatMap (argLinks e') = (u.ops.flatMap (argLinks e)).map fun l => (φ l.1, ψ l.2.1, l.2.2) := by
      rw [List.flatMap_map, List.map_flatMap, List.flatMap_def, List.flatMap_def]
      congr 1
      apply List.map_congr_left
      intro c hc
      obtain ⟨x, hx, hxc⟩ := hops c hc
      exact argLinks_map h hx hxc
    have e2 : (u.data.map φ).filterMap (fun x => (e'.callOf x).map fun c => (c, x)) =
        (u.data.filterMap fun x => (e.callOf x).map fun c => (c, x)).map fun l => (ψ l.1, φ l.2) := by
      rw [List.filterMap_map, List.map_filterMap]
      apply List.filterMap_congr
      intro x hx
      simp only [Function.comp, h.call x (hP x hx)]
      cases e.callOf x <;> rfl
    have e3 : (u.ops.map ψ).foldl insertNew [] = (u.ops.foldl insertNew []).map ψ :=
      insertNew_map (P := fun c => ∃ x, P x ∧ e.callOf x = some c) (by
        rintro c d ⟨x, hx, hxc⟩ ⟨y, hy, hyd⟩ hcd
        exact h.inj_call wf hx hy hxc hyd hcd) u.ops [] hops (by simp)
    have hlinks : ∀ x ∈ (u.ops.flatMap (argLinks e)).map Prod.fst ++
        (u.data.filterMap fun x => (e.callOf x).map fun c => (c, x)).map Prod.snd, P x := by
      intro x hx
      rcases List.mem_append.1 hx with hx | hx
      · obtain ⟨l, hl, rfl⟩ := List.mem_map.1 hx
        obtain ⟨c, hc, hl⟩ := List.mem_flatMap.1 hl
        obtain ⟨y, hy, hyc⟩ := hops c hc
        obtain ⟨-, ha⟩ := mem_argLinks.1 hl
        exact h.closed y c hy hyc _ (List.mem_of_getElem? ha)
      · obtain ⟨l, hl, rfl⟩ := List.mem_map.1 hx
        obtain ⟨y, hy, hl⟩ := List.mem_filterMap.1 hl
        cases hc : e.callOf y with
        | none => simp [hc] at hl
        | some c =>
          rw [hc, Option.map_some, Option.some.injEq] at hl
          rw [← hl]
          exact hP y hy
    have e4 : (((u.ops.flatMap (argLinks e)).map fun l => (φ l.1, ψ l.2.1, l.2.2)).map Prod.fst ++
        ((u.data.filterMap fun x => (e.callOf x).map fun c => (c, x)).map fun l => (ψ l.1, φ l.2)).map Prod.snd) =
        ((u.ops.flatMap (argLinks e)).map Prod.fst ++
        (u.data.filterMap fun x => (e.callOf x).map fun c => (c, x)).map Prod.snd).map φ := by
      rw [List.map_append, List.map_map, List.map_map, List.map_map, List.map_map]
      rfl
    have e5 := insertNew_map h.inj _ [] hlinks (by simp)
    simp only [List.map_nil] at e5
    simp only at hg ⊢
    rw [e1, e2, e3, e4, e5]
    have hdn : ∀ x ∈ ((u.ops.flatMap (argLinks e)).map Prod.fst ++
        (u.data.filterMap fun x => (e.callOf x).map fun c => (c, x)).map Prod.snd).foldl insertNew [], P x := by
      intro x hx
      rw [mem_foldl_insertNew] at hx
      exact hlinks x (by simpa using hx)
    split at hg
    · next hall =>
      rw [if_pos, Out.ok.inj hg.symm]
      · rfl
      · rw [List.all_eq_true] at hall ⊢
        rw [← List.map_append]
        intro y hy
        obtain ⟨x, hx, rfl⟩ := List.mem_map.1 hy
        rw [contains_map h.inj hdn]
        · exact hall x hx
        · rcases List.mem_append.1 hx with hx | hx
          · exact hi x hx
          · exact ho x hx
    · simp at hg

end RenameL

end DW
