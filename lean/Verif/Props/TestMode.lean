import Verif.Props.Epochs
import Verif.Props.Reload
import Verif.Props.Validation
/-!
# A loaded model is validated like the saved one (C94)
-/

set_option autoImplicit false

namespace DW.Props.TestModeP

open DW DW.Spec DW.GraphL DW.HistL DW.ReloadL DW.RebuildL DW.ValL DW.Props.SaveLoadP DW.Props.BackendP DW.Props.ReloadP DW.Props.ValidationP
  DW.Props.BatchP

noncomputable section

variable {lim : Nat} {topo topo₂ : Graph → List Node} {e e' e₂ : Expr} {xi yo N n : Nat} {m : Model} {real : F32 → ℝ}
  {tensors : Nat → InfoTensors} {L : Layers e} {θ : L.Params} {d : Dict} {fresh : Expr → Model → Dict}

/-- The two validation loops, with the same dataset, report the same: the sum of the accuracies and the number of rounds. -/
def SameValidation (ld : Loader ℝ) (fuel : Nat) (m : Model) (w : World) (x p y : Nat) (m' : Model) (w' : World) (x' p' y' : Nat) : Prop :=
  ∀ {env env' : Nat → Nat → Env}, (∀ k c, IsPick (env k c).pick) → (∀ k c, IsPick (env' k c).pick) →
  ∀ (junk junk' : Nat → ℝ) (rands rands' : Nat → List Int), ∃ (acc : ℝ) (iter : Nat), 0 < iter ∧
    (validationLoop m ld junk rands env x p y 0 0 fuel (w, 0)).1 = .ok (some (acc, iter)) ∧
    (validationLoop m' ld junk' rands' env' x' p' y' 0 0 fuel (w', 0)).1 = .ok (some (acc, iter))

/-- The loader gives batches for the input of the model, in the order of the dataset. -/
structure ValFits (e : Expr) (xi yo N n : Nat) (ld : Loader ℝ) : Prop where
  pos : 0 < N
  classes : 0 < n
  batch : ld.batch = N
  sample : phShape e xi = (N : Int) :: ld.dataset.shapeX
  label : ld.dataset.shapeY.prod = 1
  out : phShape e yo = [(N : Int), n]
  order : ld.shuffle = false
  fits : (ld.dataset.size : Int) + N ≤ 2147483647
  enough : N ≤ ld.dataset.size

/-- Models with the same forward pass make the same predictions. -/
theorem predicts_same {e₃ : Expr} {topo₃ : Graph → List Node} {x₃ y₃ : Nat} {m₃ : Model} {tensors₃ : Nat → InfoTensors} {L₃ : Layers e₃}
    {θ₃ : L₃.Params} (B : Built topo e [xi] [yo] m real tensors L θ) (B₃ : Built topo₃ e₃ [x₃] [y₃] m₃ real tensors₃ L₃ θ₃)
    (hx : phShape e₃ x₃ = phShape e xi)
    (hsame : ∀ {last last₃ w w₃ b b₃ it ot it₃ ot₃} {env env₃ : Nat → Env}, History e [xi] [yo] m real tensors L θ θ last w →
      History e₃ [x₃] [y₃] m₃ real tensors₃ L₃ θ₃ θ₃ last₃ w₃ → FwdArgs e m [xi] [yo] w b it ot → FwdArgs e₃ m₃ [x₃] [y₃] w₃ b₃ it₃ ot₃ →
      (∀ c, IsPick (env c).pick) → (∀ c, IsPick (env₃ c).pick) → SameForward m env it ot w m₃ env₃ it₃ ot₃ w₃)
    {f : List ℝ → List ℝ} (hf : Predicts e xi yo m real tensors L θ θ N f) : Predicts e₃ x₃ y₃ m₃ real tensors₃ L₃ θ₃ θ₃ N f := by
  intro last₃ w₃ u₃ b₃ env₃ h₃ p₃ t t' H A P F S S' i hi
  obtain ⟨pick, hpick⟩ := MaxPoolP.exists_pick
  obtain ⟨w, b, it, ot, hw, ha, hc⟩ := fwd_session B fun z a => t.vals.getD a 0
  obtain ⟨h, rfl⟩ := List.length_eq_one_iff.1 ha.givenIns.length
  obtain ⟨p, rfl⟩ := List.length_eq_one_iff.1 ha.givenOuts.length
  have hin : w.store[h]? = w₃.store[h₃]? := by
    have h1 := hc 0 xi h rfl rfl
    obtain ⟨vals, h2, h3⟩ := A.givenIns.room 0 x₃ h₃ rfl rfl
    unfold Holds at h1
    rw [h1, h2]
    obtain rfl := Option.some.inj (S.symm.trans h2)
    rw [hx] at h3
    congr 2
    · exact hx.symm
    · refine List.ext_getElem (by simp [h3]) fun a h4 h5 => ?_
      simp [List.getD, List.getElem?_eq_getElem h5]
  obtain ⟨u, u', r1, r2, r3⟩ := hsame (env := fun _ => ⟨fun _ => 0, fun _ => 0, pick⟩) hw H ha A (fun _ => hpick) P (by
    intro i k k' hk hk'
    obtain rfl := getD_single hk
    obtain rfl := getD_single hk'
    exact hin)
  rw [F] at r2
  obtain rfl : u₃ = u' := (Prod.mk.inj r2).2
  exact hf none w u b _ h p t t' hw ha (fun _ => hpick) r1 (hin.trans S) ((r3 0 p p₃ rfl rfl).trans S') i hi

/-- A model is saved in evaluation mode, and loaded in another process. -/
theorem validated_reloaded (B : Built topo e [xi] [yo] m real tensors L θ)
    (hS : Restorable lim topo e [xi] [yo] m e' d e₂ topo₂ fresh) (hd : StateHolds real m tensors d)
    (hm : ∀ x ∈ dataOf m, ∀ c, e.callOf x = some c → Frozen (tensors (e.callInfo c))) :
    ∃ m' d' e₃, ∃ φ : Nat → Nat, load lim topo₂ fresh (e₂, ⟨(save m.cfg d []).2, false⟩) = (.ok (m', d'), (e₃, ⟨[], false⟩)) ∧
      (∃ tensors₃, StateHolds real m' tensors₃ d' ∧ InMode e₃ m' tensors₃ false) ∧
      ∀ tensors₃, StateHolds real m' tensors₃ d' → InMode e₃ m' tensors₃ false →
        ∃ (topo₃ : Graph → List Node) (L₃ : Layers e₃) (θ₃ : L₃.Params), Built topo₃ e₃ [φ xi] [φ yo] m' real tensors₃ L₃ θ₃ ∧
          ∀ {ld : Loader ℝ} {last last₃ w w₃ b b₃ x p y x₃ p₃ y₃} {fuel : Nat}, ValFits e xi yo N n ld → ld.dataset.size / N < fuel →
            History e [xi] [yo] m real tensors L θ θ last w → History e₃ [φ xi] [φ yo] m' real tensors₃ L₃ θ₃ θ₃ last₃ w₃ →
            ValArgs e m yo ld w b x p y → ValArgs e₃ m' (φ yo) ld w₃ b₃ x₃ p₃ y₃ →
            SameValidation ld fuel m w x p y m' w₃ x₃ p₃ y₃ := by
  obtain ⟨m', d', e₃, φ, h1, h2, h3, h4⟩ := reloaded_computes B hS hd (mode := false) hm
  have hsh : ∀ x ∈ dataOf m, phShape e₃ (φ x) = phShape e x := fun x hx => by
    rw [h2.shape x ((mem_dataOf B.reachable B.sorts hS.ctor x).1 hx)]
    obtain ⟨-, -, -, -, he, -⟩ := ctor_maps B.reachable hS.ctor
    rw [he]
    simp [phShape, (nameOps_frame e (sortedOps m.sorted)).1]
  have hxi : xi ∈ dataOf m := (plan B).ins_mem xi (by simp)
  have hyo : yo ∈ dataOf m := (plan B).outs_mem yo (by simp)
  refine ⟨m', d', e₃, φ, h1, h3, fun tensors₃ hd₃ hm₃ => ?_⟩
  obtain ⟨topo₃, L₃, θ₃, B₃, hsame⟩ := h4 tensors₃ hd₃ hm₃
  refine ⟨topo₃, L₃, θ₃, B₃, ?_⟩
  intro ld last last₃ w w₃ b b₃ x p y x₃ p₃ y₃ fuel fit hfuel hist hist₃ ha ha₃ env env₃ hp hp₃ junk junk₃ rands rands₃
  obtain ⟨f, hf⟩ := predicts_exists (N := N) B hm ⟨_, fit.sample⟩ θ
  have hf₃ : Predicts e₃ (φ xi) (φ yo) m' real tensors₃ L₃ θ₃ θ₃ N f :=
    predicts_same B B₃ (hsh xi hxi) (fun a1 a2 a3 a4 a5 a6 => hsame a1 a2 a3 a4 a5 a6 (.inl rfl)) hf
  obtain ⟨w', b', last', r1, -⟩ := rounds B hf fit.batch fit.pos fit.sample fit.label fit.out fit.classes fit.order fit.fits hp junk rands
    (ld.dataset.size / N) 0 fuel 0 (by omega) hfuel hist ha
  obtain ⟨w₃', b₃', last₃', r3, -⟩ := rounds B₃ hf₃ fit.batch fit.pos ((hsh xi hxi).trans fit.sample) fit.label ((hsh yo hyo).trans fit.out)
    fit.classes fit.order fit.fits hp₃ junk₃ rands₃ (ld.dataset.size / N) 0 fuel 0 (by omega) hfuel hist₃ ha₃
  simp only [Nat.zero_mul, Nat.cast_zero] at r1 r3
  rw [r1, r3]
  exact ⟨_, _, by rw [Nat.zero_add]; exact Nat.div_pos fit.enough fit.pos, rfl, rfl⟩

/-- **C94.** After any history of training, `train(false)`; the state of the model is saved and loaded in another process, and
validated there with the same data. It reports the accuracy the trained model has. -/
theorem trained_tested {θ₀ : L.Params} (B : Built topo e [xi] [yo] m real tensors L θ₀) {last : Option ((Nat → Env) × Vals e)}
    {w : World} (h : History e [xi] [yo] m real tensors L θ₀ θ last w)
    (hg : ∀ x ∈ dataOf m, ∀ c, e.callOf x = some c → GoodVar real (tensors (e.callInfo c)) (infoOf e (e.callInfo c)).op)
    (hdr : ∀ x ∈ dataOf m, ∀ c, e.callOf x = some c → DropOk real (infoOf e (e.callInfo c)).op (phShape e x)) :
    ∃ (tensors' : Nat → InfoTensors) (L' : Layers e) (θ' : L'.Params),
      Built topo e [xi] [yo] m real tensors' L' θ' ∧ History e [xi] [yo] m real tensors' L' θ' θ' none (trained false w) ∧
      (∀ x, List.ofFn (θ' x) = List.ofFn (θ x)) ∧
      (∀ x ∈ dataOf m, ∀ c, e.callOf x = some c → ∀ b l, w.backend = some b → layerAt e m b x = some l →
        l.Shows false (tensors' (e.callInfo c))) ∧
      ∀ d, Restorable lim topo e [xi] [yo] m e' d e₂ topo₂ fresh → StateHolds real m tensors' d →
        ∃ m' d' e₃, ∃ φ : Nat → Nat, load lim topo₂ fresh (e₂, ⟨(save m.cfg d []).2, false⟩) = (.ok (m', d'), (e₃, ⟨[], false⟩)) ∧
          (∃ tensors₃, StateHolds real m' tensors₃ d' ∧ InMode e₃ m' tensors₃ false) ∧
          ∀ tensors₃, StateHolds real m' tensors₃ d' → InMode e₃ m' tensors₃ false →
            ∃ (topo₃ : Graph → List Node) (L₃ : Layers e₃) (θ₃ : L₃.Params), Built topo₃ e₃ [φ xi] [φ yo] m' real tensors₃ L₃ θ₃ ∧
              ∀ {ld : Loader ℝ} {last₁ last₃ w₁ w₃ b b₃ x p y x₃ p₃ y₃} {fuel : Nat}, ValFits e xi yo N n ld → ld.dataset.size / N < fuel →
                History e [xi] [yo] m real tensors' L' θ' θ' last₁ w₁ →
                History e₃ [φ xi] [φ yo] m' real tensors₃ L₃ θ₃ θ₃ last₃ w₃ →
                ValArgs e m yo ld w₁ b x p y → ValArgs e₃ m' (φ yo) ld w₃ b₃ x₃ p₃ y₃ →
                SameValidation ld fuel m w₁ x p y m' w₃ x₃ p₃ y₃ := by
  obtain ⟨tensors', L', θ', B', h1, h2, h3⟩ := train_switches B h hg hdr false
  refine ⟨tensors', L', θ', B', h1, h2, fun x hx c hc => (h3 x hx c hc).1, fun d hS hd => ?_⟩
  exact validated_reloaded B' hS hd fun x hx c hc => (h3 x hx c hc).2.1

open Classical in
/-- **C94, the last line printed.** In the state `w`, after the training of an epoch, the model predicts `f` in evaluation mode: the
accuracy the program prints for the epoch is the fraction of the samples `f` classifies correctly (`Reports`). The state of the model
is saved and loaded in another process. The validation loop there, over any dataset, reports the fraction `f` classifies correctly: for
the dataset of the training program, exactly the number printed last. -/
theorem epoch_tested {w : World} {f : List ℝ → List ℝ} (h : EpochP.PredictsAt topo e xi yo m real θ N w f) :
    ∃ (tensors' : Nat → InfoTensors),
      (∀ x ∈ dataOf m, ∀ c, e.callOf x = some c → ∀ b l, w.backend = some b → layerAt e m b x = some l →
        l.Shows false (tensors' (e.callInfo c))) ∧
      ∀ d, Restorable lim topo e [xi] [yo] m e' d e₂ topo₂ fresh → StateHolds real m tensors' d →
        ∃ m' d' e₃, ∃ φ : Nat → Nat, load lim topo₂ fresh (e₂, ⟨(save m.cfg d []).2, false⟩) = (.ok (m', d'), (e₃, ⟨[], false⟩)) ∧
          (∃ tensors₃, StateHolds real m' tensors₃ d' ∧ InMode e₃ m' tensors₃ false) ∧
          ∀ tensors₃, StateHolds real m' tensors₃ d' → InMode e₃ m' tensors₃ false →
            ∃ (topo₃ : Graph → List Node) (L₃ : Layers e₃) (θ₃ : L₃.Params), Built topo₃ e₃ [φ xi] [φ yo] m' real tensors₃ L₃ θ₃ ∧
              ∀ {ld : Loader ℝ} {last₃ w₃ b₃ x₃ p₃ y₃} {fuel : Nat}, ValFits e xi yo N n ld → ld.dataset.size / N < fuel →
                History e₃ [φ xi] [φ yo] m' real tensors₃ L₃ θ₃ θ₃ last₃ w₃ → ValArgs e₃ m' (φ yo) ld w₃ b₃ x₃ p₃ y₃ →
                ∀ {env : Nat → Nat → Env}, (∀ k c, IsPick (env k c).pick) → ∀ (junk : Nat → ℝ) (rands : Nat → List Int),
                  ∃ (acc : ℝ) (iter : Nat), 0 < iter ∧
                    (validationLoop m' ld junk rands env x₃ p₃ y₃ 0 0 fuel (w₃, 0)).1 = .ok (some (acc, iter)) ∧
                    acc / iter = (Nat.count (Correct ld.dataset f) (ld.dataset.size / N * N) : ℝ) / (ld.dataset.size / N * N : Nat) := by
  obtain ⟨tensors', L', θ', B', -, -, h3, hf⟩ := h
  refine ⟨tensors', fun x hx c hc => (h3 x hx c hc).2, fun d hS hd => ?_⟩
  obtain ⟨m', d', e₃, φ, h1, h2, h4, h5⟩ := reloaded_computes B' hS hd (mode := false) fun x hx c hc => (h3 x hx c hc).1
  have hsh : ∀ x ∈ dataOf m, phShape e₃ (φ x) = phShape e x := fun x hx => by
    rw [h2.shape x ((mem_dataOf B'.reachable B'.sorts hS.ctor x).1 hx)]
    obtain ⟨-, -, -, -, he, -⟩ := ctor_maps B'.reachable hS.ctor
    rw [he]
    simp [phShape, (nameOps_frame e (sortedOps m.sorted)).1]
  have hxi : xi ∈ dataOf m := (plan B').ins_mem xi (by simp)
  have hyo : yo ∈ dataOf m := (plan B').outs_mem yo (by simp)
  refine ⟨m', d', e₃, φ, h1, h4, fun tensors₃ hd₃ hm₃ => ?_⟩
  obtain ⟨topo₃, L₃, θ₃, B₃, hsame⟩ := h5 tensors₃ hd₃ hm₃
  refine ⟨topo₃, L₃, θ₃, B₃, ?_⟩
  intro ld last₃ w₃ b₃ x₃ p₃ y₃ fuel fit hfuel hist₃ ha₃ env hp junk rands
  have hf₃ : Predicts e₃ (φ xi) (φ yo) m' real tensors₃ L₃ θ₃ θ₃ N f :=
    predicts_same B' B₃ (hsh xi hxi) (fun a1 a2 a3 a4 a5 a6 => hsame a1 a2 a3 a4 a5 a6 (.inl rfl)) hf
  obtain ⟨w', b', last', r1, -⟩ := rounds B₃ hf₃ fit.batch fit.pos ((hsh xi hxi).trans fit.sample) fit.label ((hsh yo hyo).trans fit.out)
    fit.classes fit.order fit.fits hp junk rands (ld.dataset.size / N) 0 fuel 0 (by omega) hfuel hist₃ ha₃
  simp only [Nat.zero_mul, Nat.cast_zero, Nat.zero_add, Nat.count_zero, sub_zero, zero_add] at r1
  refine ⟨_, _, Nat.div_pos fit.enough fit.pos, by rw [r1], ?_⟩
  rw [div_div, Nat.cast_mul, mul_comm (N : ℝ)]

/-! ### A classifier, saved and loaded -/

/-- The tensors of the classifier after `train(false)`. -/
def evalTensors : InfoTensors where
  params := [("weight", ⟨⟨[2, 3], [1, 0, 0, 0, 1, 0]⟩, ⟨[2, 3], [0, 0, 0, 0, 0, 0]⟩, false⟩), ("bias", ⟨⟨[2], [0, 0]⟩, ⟨[2], [0, 0]⟩, false⟩)]
  buffers := []

/-- The classifier with the weights 1, 0, 0, 0, 1, 0 in evaluation mode meets the assumptions of `validated_reloaded`, and there is a
program that can validate it. -/
example (ld : Loader ℝ) : ∃ (m : Model) (e' : Expr) (L : Layers TrainP.classE) (θ : L.Params) (w : World) (b : Backend) (x p y : Nat),
    Built (creationOrder TrainP.classE) TrainP.classE [0] [2] m (fun b => (b.toNat : ℝ)) (fun _ => evalTensors) L θ ∧
    Restorable 1000 (creationOrder TrainP.classE) TrainP.classE [0] [2] m e' classState {}
      (creationOrder (rebuiltE TrainP.classE [0] [2])) newState ∧
    StateHolds (fun b => (b.toNat : ℝ)) m (fun _ => evalTensors) classState ∧ Frozen evalTensors ∧
    History TrainP.classE [0] [2] m (fun b => (b.toNat : ℝ)) (fun _ => evalTensors) L θ θ none w ∧ ValArgs TrainP.classE m 2 ld w b x p y := by
  obtain ⟨m, L₀, θ₀, B₀, hd'⟩ := TrainP.class_built_of fun b => (b.toNat : ℝ)
  obtain ⟨e', hc⟩ := B₀.ctor
  rw [class_ctor] at hc
  obtain ⟨h1, rfl⟩ := Prod.mk.inj hc
  obtain rfl := Out.ok.inj h1
  have hfit : AllFit TrainP.classE (built TrainP.classE [0] [2]).1 (fun b => (b.toNat : ℝ)) (fun _ => evalTensors) := by
    refine ⟨fun x hx c hc => ?_, fun x hx c hc => ?_⟩ <;> rw [hd'] at hx <;> simp only [List.mem_cons, List.not_mem_nil, or_false] at hx <;>
      rw [TrainP.classE_eq] at hc ⊢ <;> rcases hx with rfl | rfl | rfl <;> first | (obtain rfl := Option.some.inj hc) | exact absurd hc (by simp [Expr.callOf])
    · exact ⟨by decide, 2, [3], rfl, by decide, by decide, fun k => by rcases k with _ | _ | k <;> simp⟩
    · exact ⟨2, 2, rfl, by decide⟩
    · refine ⟨false, fun ps bs hb => ?_⟩
      obtain ⟨rfl, rfl⟩ : [("weight", [2, 3]), ("bias", [2])] = ps ∧ [] = bs := Prod.mk.inj (Out.ok.inj hb)
      simp only [List.forall_mem_cons, List.not_mem_nil, false_imp_iff, implies_true, and_true]
      exact ⟨⟨[1, 0, 0, 0, 1, 0], ⟨_, rfl, rfl⟩, rfl⟩, ⟨[0, 0], ⟨_, rfl, rfl⟩, rfl⟩⟩
    · exact tensorsFit_nil rfl
  obtain ⟨L, θ, B⟩ := built_exists B₀.reachable B₀.sorts B₀.ctor B₀.orderly B₀.sound B₀.shapes hfit
  obtain ⟨w, b, x, p, y, hist, ha⟩ := val_session B ld
  refine ⟨_, _, L, θ, w, b, x, p, y, B, class_restorable, ?_, fun name p hp => ?_, hist, ha⟩
  · have hst : (built TrainP.classE [0] [2]).1.state = [("linear0.weight", .param 0 "weight"), ("linear0.bias", .param 0 "bias")] := by
      decide +kernel
    have h1 : classState.lookup "linear0.weight" = some ⟨[2, 3], [1, 0, 0, 0, 1, 0].flatMap intBytes⟩ := by decide +kernel
    have h2 : classState.lookup "linear0.bias" = some ⟨[2], List.replicate 8 0⟩ := by decide +kernel
    have f1 : floats 6 ([1, 0, 0, 0, 1, 0].flatMap intBytes) = [1, 0, 0, 0, 1, 0] := by decide +kernel
    have f2 : floats 2 (List.replicate 8 0) = [0, 0] := by decide +kernel
    have l1 : ([1, 0, 0, 0, 1, 0].flatMap intBytes).length / 4 = 6 := by decide +kernel
    intro k r hk
    rw [hst] at hk
    simp only [List.mem_cons, Prod.mk.injEq, List.not_mem_nil, or_false] at hk
    rcases hk with ⟨rfl, rfl⟩ | ⟨rfl, rfl⟩
    · refine ⟨_, h1, ?_⟩
      simp only [numbers, l1, f1]
      simp [tensorAt, evalTensors]
    · refine ⟨_, h2, ?_⟩
      simp only [numbers, List.length_replicate, f2]
      simp only [tensorAt, show evalTensors.params.lookup "bias" = some ⟨⟨[2], [0, 0]⟩, ⟨[2], [0, 0]⟩, false⟩ from rfl]
      simp [f2]
  · have := lookup_mem hp
    simp only [evalTensors, List.mem_cons, Prod.mk.injEq, List.not_mem_nil, or_false] at this
    rcases this with ⟨-, rfl⟩ | ⟨-, rfl⟩ <;> rfl

end

end DW.Props.TestModeP
