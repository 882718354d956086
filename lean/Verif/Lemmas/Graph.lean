import Verif.Spec.Graph
import Verif.Lemmas.NN
import Mathlib.Data.List.Basic
import Mathlib.Data.List.Nodup
/-!
# Lemmas on unrolling and graph building
-/

set_option autoImplicit false

namespace DW

open DW.Spec

namespace GraphL

variable {e : Expr}

theorem argsOf_some {x c : Nat} (h : e.callOf x = some c) : e.argsOf x = e.callArgs c := by
  simp [Expr.argsOf, h]

theorem argsOf_none {x : Nat} (h : e.callOf x = none) : e.argsOf x = [] := by
  simp [Expr.argsOf, h]

theorem mem_argsOf {x a : Nat} : a ∈ e.argsOf x ↔ ∃ c, e.callOf x = some c ∧ a ∈ e.callArgs c := by
  cases h : e.callOf x with
  | none => simp [argsOf_none h]
  | some c => simp [argsOf_some h]

theorem arg_lt (wf : WF e) {x a : Nat} (h : a ∈ e.argsOf x) : a < x := by
  obtain ⟨c, hc, ha⟩ := mem_argsOf.1 h
  exact wf.arg_lt x c hc a ha

theorem Needs.of_arg {x a : Nat} (h : a ∈ e.argsOf x) : Needs e x a := by
  obtain ⟨c, hc, ha⟩ := mem_argsOf.1 h
  exact .step hc ha (.refl _)

theorem Needs.trans {x y z : Nat} (h : Needs e x y) (h' : Needs e y z) : Needs e x z := by
  induction h with
  | refl _ => exact h'
  | step hc ha _ ih => exact .step hc ha (ih h')

theorem Needs.le (wf : WF e) {x y : Nat} (h : Needs e x y) : y ≤ x := by
  induction h with
  | refl _ => exact Nat.le_refl _
  | step hc ha _ ih => exact Nat.le_of_lt (Nat.lt_of_le_of_lt ih (wf.arg_lt _ _ hc _ ha))

/-! ### Weights -/

def wl (e : Expr) (n : Nat) : List Nat :=
  (List.range n).foldl
    (fun ws x => ws ++ [1 + ((e.argsOf x).map fun a => ws.getD a 0).sum]) []

theorem wl_succ (n : Nat) : wl e (n + 1) =
    wl e n ++ [1 + ((e.argsOf n).map fun a => (wl e n).getD a 0).sum] := by
  simp [wl, List.range_succ]

theorem wl_length (n : Nat) : (wl e n).length = n := by
  induction n with
  | zero => rfl
  | succ n ih => simp [wl_succ, ih]

theorem wl_getD_succ {n x : Nat} (h : x < n) : (wl e (n + 1)).getD x 0 = (wl e n).getD x 0 := by
  have : x < (wl e n).length := by rw [wl_length]; exact h
  rw [wl_succ]
  simp [List.getD_eq_getElem?_getD, List.getElem?_append_left this]

theorem wl_getD_stable {n m x : Nat} (h : x < n) (hm : n ≤ m) :
    (wl e m).getD x 0 = (wl e n).getD x 0 := by
  induction m with
  | zero => have : n = 0 := by omega
            subst this; rfl
  | succ m ih =>
    rcases Nat.lt_or_ge m n with h' | h'
    · have : n = m + 1 := by omega
      rw [this]
    · rw [wl_getD_succ (Nat.lt_of_lt_of_le h h'), ih h']

theorem weight_eq (wf : WF e) {x : Nat} (hx : x < e.phs.length) :
    e.weight x = 1 + ((e.argsOf x).map e.weight).sum := by
  have h1 : e.weight x = (wl e (x + 1)).getD x 0 := wl_getD_stable (Nat.lt_succ_self x) hx
  rw [h1, wl_succ]
  have hl : (wl e x).length = x := wl_length x
  rw [List.getD_eq_getElem?_getD, List.getElem?_append_right (by omega), hl]
  simp only [Nat.sub_self, List.getElem?_cons_zero, Option.getD_some]
  congr 2
  apply List.map_congr_left
  intro a ha
  exact (wl_getD_stable (arg_lt wf ha) (Nat.le_of_lt hx)).symm

/-! ### The unroll loop -/

theorem push_eq (reached : List Nat) : ∀ (args stack : List Nat),
    args.foldl (fun st a => if reached.contains a then st else a :: st) stack =
      (args.filter fun a => !reached.contains a).reverse ++ stack
  | [], _ => rfl
  | a :: args, stack => by
    rw [List.foldl_cons, push_eq reached args, List.filter_cons]
    by_cases h : a ∈ reached <;> simp [h]

theorem filter_sum_le (f : Nat → Nat) (p : Nat → Bool) : ∀ l : List Nat,
    ((l.filter p).map f).sum ≤ (l.map f).sum
  | [] => by simp
  | a :: l => by
    have := filter_sum_le f p l
    cases h : p a <;> simp [h] <;> omega

theorem callOf_lt {x c : Nat} (h : e.callOf x = some c) : x < e.phs.length := by
  unfold Expr.callOf at h
  rcases Nat.lt_or_ge x e.phs.length with h' | h'
  · exact h'
  · simp [h'] at h

theorem unrollLoop_some (wf : WF e) : ∀ (n : Nat) (stack reached : List Nat) (acc : Unrolled),
    (∀ x ∈ stack, x < e.phs.length) → (stack.map e.weight).sum < n + 1 →
    ∃ u, unrollLoop e n stack reached acc = some u
  | n, [], reached, acc, _, _ => ⟨acc, by cases n <;> rfl⟩
  | 0, x :: stack, _, _, hx, hn => by
    have := weight_eq wf (hx x (by simp))
    simp at hn; omega
  | n + 1, x :: stack, reached, acc, hx, hn => by
    have hw := weight_eq wf (hx x (by simp))
    unfold unrollLoop
    simp only
    cases hc : e.callOf x with
    | none =>
      exact unrollLoop_some wf n stack _ _ (fun y hy => hx y (by simp [hy])) (by
        simp at hn; omega)
    | some c =>
      simp only
      rw [push_eq]
      apply unrollLoop_some wf n
      · intro y hy
        rcases List.mem_append.1 hy with hy | hy
        · have : y ∈ e.argsOf x := by
            rw [argsOf_some hc]; exact (List.mem_filter.1 (List.mem_reverse.1 hy)).1
          exact Nat.lt_trans (arg_lt wf this) (hx x (by simp))
        · exact hx y (by simp [hy])
      · rw [List.map_append, List.sum_append, List.map_reverse, List.sum_reverse]
        have := filter_sum_le e.weight (fun a => !(x :: reached).contains a) (e.callArgs c)
        rw [argsOf_some hc] at hw
        simp at hn
        omega

theorem outs_stack (outs : List Nat) : outs.foldl (fun st o => o :: st) [] = outs.reverse := by
  rw [List.foldl_flip_cons_eq_append]; simp

theorem unroll_some (wf : WF e) {outs : List Nat} (ho : ∀ x ∈ outs, x < e.phs.length) :
    ∃ u, unroll e outs = some u := by
  unfold unroll
  rw [outs_stack]
  apply unrollLoop_some wf
  · intro x hx; exact ho x (List.mem_reverse.1 hx)
  · rw [List.map_reverse, List.sum_reverse]; omega

/-- Everything the loop guarantees, by one induction. -/
theorem unrollLoop_spec : ∀ (n : Nat) (stack reached : List Nat) (acc u : Unrolled),
    unrollLoop e n stack reached acc = some u →
    (∀ x, x ∈ reached ↔ x ∈ acc.data) →
    acc.ops = acc.data.filterMap e.callOf →
    (∀ y ∈ acc.data, ∀ a ∈ e.argsOf y, a ∈ acc.data ∨ a ∈ stack) →
    (∀ x ∈ u.data, x ∈ acc.data ∨ ∃ s ∈ stack, Needs e s x) ∧
    (∀ x ∈ acc.data, x ∈ u.data) ∧ (∀ x ∈ stack, x ∈ u.data) ∧
    (∀ y ∈ u.data, ∀ a ∈ e.argsOf y, a ∈ u.data) ∧
    u.ops = u.data.filterMap e.callOf
  | n, [], reached, acc, u, h, hr, ho, hcl => by
    have : u = acc := by cases n <;> simp [unrollLoop] at h <;> exact h.symm
    subst this
    refine ⟨fun x hx => .inl hx, fun x hx => hx, by simp, fun y hy a ha => ?_, ho⟩
    rcases hcl y hy a ha with h | h
    · exact h
    · simp at h
  | 0, x :: stack, reached, acc, u, h, hr, ho, hcl => by simp [unrollLoop] at h
  | n + 1, x :: stack, reached, acc, u, h, hr, ho, hcl => by
    unfold unrollLoop at h
    simp only at h
    cases hc : e.callOf x with
    | none =>
      simp only [hc] at h
      obtain ⟨h1, h2, h3, h4, h5⟩ := unrollLoop_spec n stack _ _ u h (by
          intro y; simp [hr]; tauto) (by simp [ho, hc]) (by
          intro y hy a ha
          simp only [List.mem_append, List.mem_singleton] at hy ⊢
          rcases hy with hy | rfl
          · rcases hcl y hy a ha with h | h
            · exact .inl (.inl h)
            · rcases List.mem_cons.1 h with rfl | h
              · exact .inl (.inr rfl)
              · exact .inr h
          · rw [argsOf_none hc] at ha; simp at ha)
      refine ⟨fun y hy => ?_, fun y hy => h2 y (by simp [hy]), fun y hy => ?_, h4, h5⟩
      · rcases h1 y hy with h | ⟨s, hs, h⟩
        · simp only [List.mem_append, List.mem_singleton] at h
          rcases h with h | rfl
          · exact .inl h
          · exact .inr ⟨y, by simp, .refl y⟩
        · exact .inr ⟨s, by simp [hs], h⟩
      · rcases List.mem_cons.1 hy with rfl | hy
        · exact h2 y (by simp)
        · exact h3 y hy
    | some c =>
      simp only [hc] at h
      rw [push_eq] at h
      obtain ⟨h1, h2, h3, h4, h5⟩ := unrollLoop_spec n _ _ _ u h (by
          intro y; simp [hr]; tauto) (by simp [ho, hc]) (by
          intro y hy a ha
          simp only [List.mem_append, List.mem_singleton, List.mem_reverse, List.mem_filter] at hy ⊢
          rcases hy with hy | rfl
          · rcases hcl y hy a ha with h | h
            · exact .inl (.inl h)
            · rcases List.mem_cons.1 h with rfl | h
              · exact .inl (.inr rfl)
              · exact .inr (.inr h)
          · rw [argsOf_some hc] at ha
            by_cases hm : a ∈ y :: reached
            · rcases List.mem_cons.1 hm with rfl | hm
              · exact .inl (.inr rfl)
              · exact .inl (.inl ((hr a).1 hm))
            · exact .inr (.inl ⟨ha, by simpa using hm⟩))
      refine ⟨fun y hy => ?_, fun y hy => h2 y (by simp [hy]), fun y hy => ?_, h4, h5⟩
      · rcases h1 y hy with h | ⟨s, hs, h⟩
        · simp only [List.mem_append, List.mem_singleton] at h
          rcases h with h | rfl
          · exact .inl h
          · exact .inr ⟨y, by simp, .refl y⟩
        · rcases List.mem_append.1 hs with hs | hs
          · exact .inr ⟨x, by simp, .step hc (List.mem_filter.1 (List.mem_reverse.1 hs)).1 h⟩
          · exact .inr ⟨s, by simp [hs], h⟩
      · rcases List.mem_cons.1 hy with rfl | hy
        · exact h2 y (by simp)
        · exact h3 y (by simp [hy])

theorem unroll_spec {outs : List Nat} {u : Unrolled} (h : unroll e outs = some u) :
    (∀ x, x ∈ u.data ↔ NeededBy e outs x) ∧ u.ops = u.data.filterMap e.callOf := by
  unfold unroll at h
  rw [outs_stack] at h
  obtain ⟨h1, -, h3, h4, h5⟩ := unrollLoop_spec _ _ _ _ u h (by simp) rfl (by simp)
  refine ⟨fun x => ⟨fun hx => ?_, ?_⟩, h5⟩
  · rcases h1 x hx with h | ⟨s, hs, h⟩
    · simp at h
    · exact ⟨s, List.mem_reverse.1 hs, h⟩
  · rintro ⟨o, ho, hn⟩
    have := h3 o (List.mem_reverse.2 ho)
    clear ho
    induction hn with
    | refl _ => exact this
    | step hc ha _ ih => exact ih (h4 _ this _ (mem_argsOf.2 ⟨_, hc, ha⟩))

theorem mem_unroll_ops {outs : List Nat} {u : Unrolled} (h : unroll e outs = some u) (c : Nat) :
    c ∈ u.ops ↔ NeededCall e outs c := by
  obtain ⟨h1, h2⟩ := unroll_spec h
  rw [h2, List.mem_filterMap]
  constructor
  · rintro ⟨x, hx, hc⟩; exact ⟨x, hc, (h1 x).1 hx⟩
  · rintro ⟨x, hc, hx⟩; exact ⟨x, (h1 x).2 hx, hc⟩

/-! ### `insertNew` -/

theorem mem_foldl_insertNew (l : List Nat) : ∀ (acc : List Nat) (x : Nat),
    x ∈ l.foldl insertNew acc ↔ x ∈ acc ∨ x ∈ l := by
  induction l with
  | nil => simp
  | cons a l ih =>
    intro acc x
    rw [List.foldl_cons, ih]
    unfold insertNew
    split
    · rename_i h
      simp only [List.mem_cons]
      constructor
      · tauto
      · rintro (h' | rfl | h')
        · exact .inl h'
        · exact .inl h
        · exact .inr h'
    · simp; tauto

theorem nodup_foldl_insertNew (l : List Nat) : ∀ acc : List Nat, acc.Nodup →
    (l.foldl insertNew acc).Nodup := by
  induction l with
  | nil => intro acc h; exact h
  | cons a l ih =>
    intro acc h
    rw [List.foldl_cons]
    apply ih
    unfold insertNew
    split
    · exact h
    · rename_i h'
      rw [List.nodup_append]
      refine ⟨h, by simp, ?_⟩
      intro x hx y hy
      simp at hy
      subst hy
      intro h''; subst h''; exact h' hx

/-! ### The graph -/

theorem build_ok {ins outs : List Nat} {g : Graph} (h : buildGraph e ins outs = .ok g) :
    ∃ u, unroll e outs = some u ∧ g.inLinks = u.ops.flatMap (argLinks e) ∧
      g.outLinks = u.data.filterMap (fun x => (e.callOf x).map fun c => (c, x)) ∧
      g.opNodes = u.ops.foldl insertNew [] ∧
      g.dataNodes = (g.inLinks.map Prod.fst ++ g.outLinks.map Prod.snd).foldl insertNew [] ∧
      g.ins = ins ∧ g.outs = outs ∧ (∀ x ∈ ins ++ outs, x ∈ g.dataNodes) := by
  unfold buildGraph at h
  cases hu : unroll e outs with
  | none => simp [hu] at h
  | some u =>
    simp only [hu] at h
    split at h
    · rename_i hall
      injection h with h
      subst h
      refine ⟨u, rfl, rfl, rfl, rfl, rfl, rfl, rfl, ?_⟩
      intro x hx
      have := List.all_eq_true.1 hall x hx
      simpa using this
    · cases h

theorem mem_argLinks {c : Nat} {l : Nat × Nat × Nat} :
    l ∈ argLinks e c ↔ l.2.1 = c ∧ (e.callArgs c)[l.2.2]? = some l.1 := by
  obtain ⟨x, c', p⟩ := l
  simp only [argLinks, List.mem_map]
  constructor
  · rintro ⟨⟨y, q⟩, hm, heq⟩
    simp only [Prod.mk.injEq] at heq
    obtain ⟨rfl, rfl, rfl⟩ := heq
    exact ⟨rfl, List.mem_zipIdx_iff_getElem?.1 hm⟩
  · rintro ⟨rfl, hm⟩
    exact ⟨(x, p), List.mem_zipIdx_iff_getElem?.2 hm, rfl⟩

section
variable {ins outs : List Nat} {g : Graph}

theorem mem_opNodes (h : buildGraph e ins outs = .ok g) (c : Nat) :
    c ∈ g.opNodes ↔ NeededCall e outs c := by
  obtain ⟨u, hu, -, -, h3, -⟩ := build_ok h
  rw [h3, mem_foldl_insertNew, ← mem_unroll_ops hu]; simp

theorem nodup_opNodes (h : buildGraph e ins outs = .ok g) : g.opNodes.Nodup := by
  obtain ⟨u, hu, -, -, h3, -⟩ := build_ok h
  rw [h3]; exact nodup_foldl_insertNew _ _ (by simp)

theorem nodup_dataNodes (h : buildGraph e ins outs = .ok g) : g.dataNodes.Nodup := by
  obtain ⟨u, hu, -, -, -, h3, -⟩ := build_ok h
  rw [h3]; exact nodup_foldl_insertNew _ _ (by simp)

theorem mem_inLinks (h : buildGraph e ins outs = .ok g) (x c p : Nat) :
    (x, c, p) ∈ g.inLinks ↔ NeededCall e outs c ∧ (e.callArgs c)[p]? = some x := by
  obtain ⟨u, hu, h1, -⟩ := build_ok h
  rw [h1, List.mem_flatMap]
  constructor
  · rintro ⟨c', hc', hm⟩
    obtain ⟨h2, h3⟩ := mem_argLinks.1 hm
    simp only at h2 h3
    subst h2
    exact ⟨(mem_unroll_ops hu _).1 hc', h3⟩
  · rintro ⟨hc, hx⟩
    exact ⟨c, (mem_unroll_ops hu c).2 hc, mem_argLinks.2 ⟨rfl, hx⟩⟩

theorem mem_outLinks (h : buildGraph e ins outs = .ok g) (c x : Nat) :
    (c, x) ∈ g.outLinks ↔ e.callOf x = some c ∧ NeededBy e outs x := by
  obtain ⟨u, hu, -, h1, -⟩ := build_ok h
  rw [h1, List.mem_filterMap]
  constructor
  · rintro ⟨y, hy, hc⟩
    cases hcy : e.callOf y with
    | none => simp [hcy] at hc
    | some c' =>
      simp only [hcy, Option.map_some, Option.some.injEq, Prod.mk.injEq] at hc
      obtain ⟨rfl, rfl⟩ := hc
      exact ⟨hcy, ((unroll_spec hu).1 _).1 hy⟩
  · rintro ⟨hc, hx⟩
    exact ⟨x, ((unroll_spec hu).1 _).2 hx, by simp [hc]⟩

theorem needed_arg {x a : Nat} (h : NeededBy e outs x) (ha : a ∈ e.argsOf x) :
    NeededBy e outs a := by
  obtain ⟨o, ho, hn⟩ := h
  exact ⟨o, ho, Needs.trans hn (Needs.of_arg ha)⟩

/-- Data nodes: needed placeholders that take part in some needed application. -/
theorem mem_dataNodes (h : buildGraph e ins outs = .ok g) (x : Nat) :
    x ∈ g.dataNodes ↔ NeededBy e outs x ∧
      ((e.callOf x).isSome ∨ ∃ y, NeededBy e outs y ∧ x ∈ e.argsOf y) := by
  obtain ⟨u, hu, -, -, -, h3, -⟩ := build_ok h
  rw [h3, mem_foldl_insertNew]
  simp only [List.not_mem_nil, false_or, List.mem_append, List.mem_map, Prod.exists,
    exists_and_right, exists_eq_right]
  constructor
  · rintro (⟨c, p, hm⟩ | ⟨c, hm⟩)
    · obtain ⟨⟨y, hy, hn⟩, hx⟩ := (mem_inLinks h _ _ _).1 hm
      have : x ∈ e.argsOf y := by rw [argsOf_some hy]; exact List.mem_of_getElem? hx
      exact ⟨needed_arg hn this, .inr ⟨y, hn, this⟩⟩
    · obtain ⟨h4, h5⟩ := (mem_outLinks h _ _).1 hm
      exact ⟨h5, .inl (by simp [h4])⟩
  · rintro ⟨hn, hc | ⟨y, hy, hx⟩⟩
    · obtain ⟨c, hc⟩ := Option.isSome_iff_exists.1 hc
      exact .inr ⟨c, (mem_outLinks h _ _).2 ⟨hc, hn⟩⟩
    · obtain ⟨c, hc, hx⟩ := mem_argsOf.1 hx
      obtain ⟨p, hp, hx⟩ := List.getElem_of_mem hx
      exact .inl ⟨c, p, (mem_inLinks h _ _ _).2 ⟨⟨y, hc, hy⟩, by rw [← hx]; exact List.getElem?_eq_getElem hp⟩⟩

end

end GraphL

end DW
