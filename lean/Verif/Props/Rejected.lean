import Verif.Lemmas.GraphMore
/-!
# A rejected layer application has no lasting effect (C75)
-/

set_option autoImplicit false

namespace DW.Props.RejectedP

open DW DW.Spec DW.GraphL

/-- The full claim of C75: if an application throws, the state is what it was before. -/
def RejectedHasNoEffect : Prop :=
  ∀ (e : Expr) (i : Nat) (ins : List Nat) (x : Exn), Reachable e → (Expr.apply i ins e).1 = .throw x → (Expr.apply i ins e).2 = e

theorem initLayer_used {e : Expr} (h : Named e) {i : Nat} {inf : InfoImpl} {shs : List Shape} (hinf : e.infos[i]? = some inf)
    (hl : shs.length = inf.op.numIn) (hn : inf.params.map Prod.fst = paramNames inf.op ∧ inf.buffers.map Prod.fst = bufferNames inf.op) :
    (Expr.initLayer i shs e).2 = e := by
  unfold Expr.initLayer
  simp only [hinf]
  cases hie : initEntries inf.op shs with
  | throw x => rfl
  | ub x => rfl
  | ok pb =>
    obtain ⟨ps, bs⟩ := pb
    obtain ⟨h1, h2⟩ := initEntries_names hl hie
    simp only
    have q1 := foldl_emplace_old (fun p : String × Shape => p.1) (fun p => ({ shape := p.2 } : Param)) inf.params ps (by
      intro a ha
      rw [hn.1, ← h1]
      exact List.mem_map_of_mem ha)
    have q2 := foldl_emplace_old (fun p : String × Shape => p.1) (fun p => p.2) inf.buffers bs (by
      intro a ha
      rw [hn.2, ← h2]
      exact List.mem_map_of_mem ha)
    rw [q1, q2]
    have : e.infos.set i inf = e.infos := by
      obtain ⟨hlt, hh⟩ := List.getElem?_eq_some_iff.1 hinf
      rw [← hh]
      exact List.set_getElem_self hlt
    cases e
    simp only at this ⊢
    rw [this]

/-- **C75 (proved part).** An application that throws creates no placeholder and no application and changes no other layer. It
has no effect at all if the layer has no parameters or was applied successfully before. Missing: the first application of a
layer with parameters, which keeps the tensors made for the rejected input (`rejected_application_refuted`). -/
theorem rejected_application_partial {e : Expr} (hr : Reachable e) {i : Nat} {ins : List Nat} {x : Exn}
    (h : (Expr.apply i ins e).1 = .throw x) :
    (Expr.apply i ins e).2.phs = e.phs ∧ (Expr.apply i ins e).2.calls = e.calls ∧
    (∀ j, j ≠ i → (Expr.apply i ins e).2.infos[j]? = e.infos[j]?) ∧
    (paramNames (infoOf e i).op = [] → (Expr.apply i ins e).2 = e) ∧
    ((∃ c < e.calls.length, e.callInfo c = i) → (Expr.apply i ins e).2 = e) := by
  have hnamed := reachable_named hr
  have key : ((Expr.apply i ins e).2 = e) ∨ ∃ inf shs, e.infos[i]? = some inf ∧ shs.length = inf.op.numIn ∧
      (Expr.apply i ins e).2 = (Expr.initLayer i shs e).2 := by
    revert h
    unfold Expr.apply
    simp only [M.bind_apply, M.get_apply, M.lift_apply]
    cases hinf : Out.idx e.infos i with
    | throw y => exact fun _ => .inl rfl
    | ub y => exact fun _ => .inl rfl
    | ok inf =>
      have hinf' : e.infos[i]? = some inf := by
        unfold Out.idx at hinf
        cases h : e.infos[i]? with
        | none => simp [h] at hinf
        | some a => simpa [h] using hinf
      simp only
      cases hargs : (List.range inf.op.numIn).mapM fun k => Out.idx ins k with
      | throw y => exact fun _ => .inl rfl
      | ub y => exact fun _ => .inl rfl
      | ok args =>
        simp only
        cases hs : e.shapes args with
        | throw y => exact fun _ => .inl rfl
        | ub y => exact fun _ => .inl rfl
        | ok shs =>
          simp only
          have hl : shs.length = inf.op.numIn := by
            rw [Out.mapM_ok_length hs, Out.mapM_ok_length hargs, List.length_range]
          rcases hil : Expr.initLayer i shs e with ⟨o, e'⟩
          intro h
          refine .inr ⟨inf, shs, hinf', hl, ?_⟩
          rw [hil]
          revert h
          cases o with
          | throw y => exact fun _ => rfl
          | ub y => exact fun _ => rfl
          | ok _ =>
            simp only
            cases outShape inf.op shs with
            | throw y => exact fun _ => rfl
            | ub y => exact fun _ => rfl
            | ok out => intro h; simp [M.set_apply, M.pure_apply] at h
  rcases key with hk | ⟨inf, shs, hinf, hl, hk⟩
  · rw [hk]
    exact ⟨rfl, rfl, fun _ _ => rfl, fun _ => rfl, fun _ => rfl⟩
  · rw [hk]
    obtain ⟨f1, f2, -⟩ := initLayer_frame i shs e
    refine ⟨f1, f2, ?_, ?_, ?_⟩
    · intro j hj
      unfold Expr.initLayer
      simp only [hinf]
      cases initEntries inf.op shs with
      | throw y => rfl
      | ub y => rfl
      | ok pb => exact List.getElem?_set_ne (Ne.symm hj)
    · intro hp
      have hi : infoOf e i = inf := by simp [infoOf, hinf]
      rw [hi] at hp
      have hb : bufferNames inf.op = [] := by
        revert hp
        cases inf.op <;> simp [paramNames, bufferNames]
      have := hnamed.all i _ (by simp [sig, hinf]; rfl)
      simp only [hp, hb, or_self, Prod.mk.injEq] at this
      exact initLayer_used hnamed hinf hl (by rw [hp, hb]; exact this)
    · rintro ⟨c, hc, hci⟩
      have := hnamed.used c hc (inf.op, inf.params.map Prod.fst, inf.buffers.map Prod.fst) (by rw [hci]; simp [sig, hinf])
      simp only [Prod.mk.injEq] at this
      exact initLayer_used hnamed hinf hl this

/-- `fc = Linear(3, "fc")`, a vector `v` of 4 elements, a batch `b` of 4 samples with 5 features. -/
def before : Expr := (do
  let _ ← Expr.placeholder [4]
  let _ ← Expr.placeholder [4, 5]
  Expr.layer (.linear 3) "fc" : M Expr Nat) {} |>.2

theorem before_reachable : Reachable before := .layer _ _ (.placeholder _ (.placeholder _ .empty))

/-- **C75 is violated by the code**: `fc(v)` throws because `v` is no batch, but leaves a `weight` for one feature. -/
theorem rejected_application_refuted : ¬ RejectedHasNoEffect := by
  intro h
  exact absurd (h before 0 [0] .dw before_reachable (by decide +kernel)) (by decide +kernel)

/-- The consequence: after the rejected `fc(v)`, `fc(b)` succeeds, with a weight that does not fit `b`; without it the weight fits. -/
theorem rejected_application_poisons :
    (Expr.apply 0 [1] (Expr.apply 0 [0] before).2).1.isOk = true ∧
    (infoOf (Expr.apply 0 [1] (Expr.apply 0 [0] before).2).2 0).params.map (fun p => (p.1, p.2.shape)) = [("weight", [3, 1]), ("bias", [3])] ∧
    (infoOf (Expr.apply 0 [1] before).2 0).params.map (fun p => (p.1, p.2.shape)) = [("weight", [3, 5]), ("bias", [3])] := by
  decide +kernel

/-- A rejected second application changes nothing. -/
example : (Expr.apply 0 [0] (Expr.apply 0 [1] before).2) = (.throw .dw, (Expr.apply 0 [1] before).2) := by decide +kernel

end DW.Props.RejectedP
