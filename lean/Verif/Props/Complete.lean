import Verif.Lemmas.Complete
import Verif.Props.Graph
/-!
# Models that compute something

Models made with the API, whose layers fit their inputs, are `Built`, which is what the theorems about running
models assume.
-/

set_option autoImplicit false

namespace DW.Props.BackendP

open DW DW.Spec DW.GraphL DW.CompleteL DW.Props.GraphP

noncomputable section

variable {topo : Graph → List Node} {e : Expr} {ins outs : List Nat} {m : Model} {real : F32 → ℝ} {tensors : Nat → InfoTensors}

/-- Layers can be collected. -/
theorem layers_exist
    (Q : (x P : Nat) → ((Nat → ℝ) → (Fin P → ℝ) → Args (fun j : Fin (e.argsOf x).length => phShape e (e.argsOf x)[j]) →
      Elems (phShape e x)) → (Fin P → ℝ) → Prop → Prop)
    (h : ∀ x ∈ dataOf m, ∀ c, e.callOf x = some c → ∃ P fn θ ex,
      Computes real (tensors (e.callInfo c)) (infoOf e (e.callInfo c)).op
        (fun j : Fin (e.argsOf x).length => phShape e (e.argsOf x)[j]) (phShape e x) P fn θ ex ∧ Q x P fn θ ex) :
    ∃ (L : Layers e) (θ₀ : L.Params), (∀ x ∈ dataOf m, ∀ c, e.callOf x = some c →
      Computes real (tensors (e.callInfo c)) (infoOf e (e.callInfo c)).op
        (fun j : Fin (e.argsOf x).length => phShape e (e.argsOf x)[j]) (phShape e x) (L.params x) (L.fn x) (θ₀ x) (L.exact x)) ∧
      ∀ x ∈ dataOf m, (e.callOf x).isSome → Q x (L.params x) (L.fn x) (θ₀ x) (L.exact x) := by
  have h' : ∀ x, ∃ (P : Nat) (fn : (Nat → ℝ) → (Fin P → ℝ) → Args (fun j : Fin (e.argsOf x).length => phShape e (e.argsOf x)[j]) →
      Elems (phShape e x)) (θ : Fin P → ℝ) (ex : Prop), x ∈ dataOf m → ∀ c, e.callOf x = some c →
        Computes real (tensors (e.callInfo c)) (infoOf e (e.callInfo c)).op
          (fun j : Fin (e.argsOf x).length => phShape e (e.argsOf x)[j]) (phShape e x) P fn θ ex ∧ Q x P fn θ ex := fun x => by
    by_cases hx : x ∈ dataOf m
    · cases hc : e.callOf x with
      | none => exact ⟨0, fun _ _ _ => 0, fun _ => 0, True, fun _ c h => by cases h⟩
      | some c =>
        obtain ⟨P, fn, θ, ex, h1⟩ := h x hx c hc
        exact ⟨P, fn, θ, ex, fun _ d hd => by rw [← Option.some.inj hd]; exact h1⟩
    · exact ⟨0, fun _ _ _ => 0, fun _ => 0, True, fun h => absurd h hx⟩
  choose P fn θ ex h' using h'
  refine ⟨⟨P, fn, ex⟩, θ, fun x hx c hc => (h' x hx c hc).1, fun x hx hc => ?_⟩
  obtain ⟨c, hc⟩ := Option.isSome_iff_exists.1 hc
  exact (h' x hx c hc).2

/-- Arguments in descending order are orderly. -/
theorem orderly_of_desc (hr : Reachable e) (ho : outs.Pairwise fun a b => b < a) (ha : ∀ x, (e.argsOf x).Pairwise fun a b => b < a) :
    Orderly e outs := by
  have hn : ∀ a b, b < a → ((e.callOf a).isSome → ¬ Needs e b a) := fun a b h _ hn =>
    absurd (Needs.le (reachable_wf hr) hn) (Nat.not_le.2 h)
  exact ⟨ho.imp (hn _ _), fun x _ => (ha x).imp (hn _ _)⟩

/-- Every layer of a model made with the API that fits its inputs computes a function. -/
theorem layers_compute (hr : Reachable e) (hf : AllFit e m real tensors) : ∀ x ∈ dataOf m, ∀ c, e.callOf x = some c → ∃ P fn θ ex,
    Computes real (tensors (e.callInfo c)) (infoOf e (e.callInfo c)).op
      (fun j : Fin (e.argsOf x).length => phShape e (e.argsOf x)[j]) (phShape e x) P fn θ ex := by
  intro x hx c hc
  obtain ⟨⟨op, h1, h2, h3, ps, bs, h4⟩, -⟩ := reachable_typed hr x c hc
  have hargs : e.argsOf x = e.callArgs c := by simp [Expr.argsOf, hc]
  have hop : (infoOf e (e.callInfo c)).op = op := by
    unfold opOf at h1
    obtain ⟨i, h, rfl⟩ := Option.map_eq_some_iff.1 h1
    simp [infoOf, h]
  have hl : (List.ofFn fun j : Fin (e.argsOf x).length => phShape e (e.argsOf x)[j]) = (e.argsOf x).map (phShape e) := by
    refine List.ext_getElem (by simp) fun k h1 h2 => by simp
  rw [← hargs] at h2 h3 h4
  have hf1 := hf.shapes x hx c hc
  have hf2 := hf.tensors x hx c hc
  rw [← hl] at h3 h4 hf1 hf2
  rw [hop] at hf1 hf2 ⊢
  exact computes_exists h2 h3 h4 hf1 hf2

/-- Such a model is `Built`. -/
theorem built_exists (hr : Reachable e) (hs : SortsCorrectly topo e ins outs) (hm : ∃ e', modelCtor topo ins outs e = (.ok m, e'))
    (ho : Orderly e outs) (hsound : Sound e m ins outs)
    (hsh : ∀ y ∈ dataOf m, y ∉ outs → Static (phShape e y) ∧ CountFits (phShape e y)) (hf : AllFit e m real tensors) :
    ∃ (L : Layers e) (θ₀ : L.Params), Built topo e ins outs m real tensors L θ₀ := by
  obtain ⟨L, θ₀, h, -⟩ := layers_exist (m := m) (real := real) (tensors := tensors) (fun _ _ _ _ _ => True)
    fun x hx c hc => by
      obtain ⟨P, fn, θ, ex, h⟩ := layers_compute hr hf x hx c hc
      exact ⟨P, fn, θ, ex, h, trivial⟩
  exact ⟨L, θ₀, hr, hs, hm, ho, hsound, hsh, h⟩

end

end DW.Props.BackendP
