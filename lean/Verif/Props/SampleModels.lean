import Verif.Lemmas.SampleNet
import Verif.Props.Epochs
/-!
# The models of the samples (C91)

What `buildMNISTModel`, `buildIrisModel`, `buildCIFAR10Model` and `buildResnetModel` make, for every batch size.
-/

set_option autoImplicit false

namespace DW.Props.SampleModelsP

open DW DW.Spec DW.Samples DW.GraphL DW.SampleL DW.Props.GraphP DW.AgainL

noncomputable section

/-- A model can be made of the expressions with input 0 and output `out`, whatever correct topological sort is used; no layer
overwrites a gradient another layer contributes to; and with all tensors of the right names and shapes the model computes a network
of layers, to which the theorems about `forward`, `backward` and training apply. -/
def CanTrain (e : Expr) (real : F32 → ℝ) (out : Nat) (fit : (Nat → InfoTensors) → Prop) : Prop :=
  ∀ topo, SortsCorrectly topo e [0] [out] → ∃ m e', modelCtor topo [0] [out] e = (.ok m, e') ∧ (∀ x, x ∈ dataOf m ↔ x ≤ out) ∧
    SoleConsumer e m [out] ∧
    ∀ tensors, fit tensors → ∃ (L : Layers e) (θ : L.Params), Built topo e [0] [out] m real tensors L θ

variable {B : Nat} {input : List Nat} {l : List Step} {K : Nat} {real : F32 → ℝ}

theorem canTrain {e : Expr} (hr : Reachable e) (h : IsNet e B input l) (hc : Checked K input l) (hB : 0 < B) (hK : B * K ≤ 2147483647)
    (he : ∀ s ∈ l, EpsPos real s.op) : CanTrain e real l.length (NetTensors B input l) := by
  intro topo hs
  obtain ⟨m, e', hm⟩ := net_ctor hr h hc hs
  exact ⟨m, e', hm, net_data hr h hc hs hm, net_sole h hc, fun tensors ht => net_built hr h hc hs hm hB hK he ht⟩

theorem eps_dense (he : EpsPos real norm1D) (n : Nat) : ∀ s ∈ denseNet n, EpsPos real s.op := by
  intro s hs
  simp only [denseNet, List.mem_cons, List.not_mem_nil, or_false] at hs
  rcases hs with rfl | rfl | rfl | rfl | rfl <;> first | exact he | trivial

/-- The layers other than batch normalisation do not matter. -/
theorem eps_of {l : List Step} {op : Op} (he : EpsPos real op)
    (hl : l.all (fun s => match s.op with | .batchNorm1D _ _ | .batchNorm2D _ _ => decide (s.op = op) | _ => true) = true) :
    ∀ s ∈ l, EpsPos real s.op := by
  intro s hs
  have := List.all_eq_true.1 hl s hs
  cases hop : s.op <;> simp only [hop, decide_eq_true_eq] at this ⊢ <;> first | trivial | exact this ▸ he

/-- **C91**: `buildMNISTModel` makes the network Linear - ReLU - BatchNorm1D - Linear - Softmax of 784 inputs and 10 classes, for every
batch size up to the limit of `int`, and the model can be trained. -/
theorem mnist_model (hB : 0 < B) (hK : B * 784 ≤ 2147483647) (he : EpsPos real norm1D) :
    ∃ e, buildMNIST B {} = (.ok (0, 5), e) ∧ Reachable e ∧ IsNet e B [784] (denseNet 10) ∧
      CanTrain e real 5 (NetTensors B [784] (denseNet 10)) := by
  obtain ⟨e, h1, h2, h3⟩ := buildMNIST_net B
  exact ⟨e, h1, h2, h3, canTrain h2 h3 denseNet_checked hB hK (eps_dense he 10)⟩

/-- **C91** for `buildIrisModel`: 4 inputs and 3 classes. -/
theorem iris_model (hB : 0 < B) (hK : B * 100 ≤ 2147483647) (he : EpsPos real norm1D) :
    ∃ e, buildIris B {} = (.ok (0, 5), e) ∧ Reachable e ∧ IsNet e B [4] (denseNet 3) ∧
      CanTrain e real 5 (NetTensors B [4] (denseNet 3)) := by
  obtain ⟨e, h1, h2, h3⟩ := buildIris_net B
  exact ⟨e, h1, h2, h3, canTrain h2 h3 iris_checked hB hK (eps_dense he 3)⟩

/-- **C91** for `buildCIFAR10Model`: fourteen layers. -/
theorem cifar10_model (hB : 0 < B) (hK : B * 409600 ≤ 2147483647) (he : EpsPos real norm1D) :
    ∃ e, buildCIFAR10 B {} = (.ok (0, 14), e) ∧ Reachable e ∧ IsNet e B [3, 32, 32] cifar10Net ∧
      CanTrain e real 14 (NetTensors B [3, 32, 32] cifar10Net) := by
  obtain ⟨e, h1, h2, h3⟩ := buildCIFAR10_net B
  exact ⟨e, h1, h2, h3, canTrain h2 h3 cifar10_checked hB hK (eps_of he (by decide +kernel))⟩

/-- **C91** for `buildResnetModel`: fifty-two layers in six residual blocks. -/
theorem resnet_model (hB : 0 < B) (hK : B * 147456 ≤ 2147483647) (he : EpsPos real norm2D) :
    ∃ e, buildResnet B {} = (.ok (0, 52), e) ∧ Reachable e ∧ IsNet e B [3, 32, 32] resnet ∧
      CanTrain e real 52 (NetTensors B [3, 32, 32] resnet) := by
  obtain ⟨e, h1, h2, h3⟩ := buildResnet_net B
  exact ⟨e, h1, h2, h3, canTrain h2 h3 resnet_checked hB hK (eps_of he (by decide +kernel))⟩

/-! ### Such tensors exist, and such a sort -/

theorem initEntries_nodup {op : Op} {shs : List Shape} {ps bs : List (String × Shape)} (h : initEntries op shs = .ok (ps, bs)) :
    (ps.map Prod.fst).Nodup ∧ (bs.map Prod.fst).Nodup := by
  by_cases hl : shs.length = op.numIn
  · obtain ⟨h1, h2⟩ := initEntries_names hl h
    rw [h1, h2]
    cases op <;> simp [paramNames, bufferNames]
  · rcases shs with _ | ⟨s, _ | ⟨t, r⟩⟩ <;> cases op <;> simp [Op.numIn] at hl <;>
      (simp only [initEntries, Out.pure_def, Out.ok.injEq, Prod.mk.injEq] at h; obtain ⟨rfl, rfl⟩ := h; simp)

theorem lookup_map {α β : Type} (f : String → α → β) : ∀ {l : List (String × α)}, (l.map Prod.fst).Nodup → ∀ p ∈ l,
    (l.map fun q => (q.1, f q.1 q.2)).lookup p.1 = some (f p.1 p.2)
  | [], _, p, hp => by cases hp
  | q :: l, hn, p, hp => by
    simp only [List.map_cons, List.nodup_cons] at hn
    rw [List.map_cons, List.lookup_cons]
    rcases List.mem_cons.1 hp with rfl | hp
    · simp
    · have : (p.1 == q.1) = false := by
        simp only [beq_eq_false_iff_ne]
        exact fun h => hn.1 (h ▸ List.mem_map_of_mem hp)
      rw [this]
      exact lookup_map f hn.2 p hp

/-- A tensor with all elements the same, and such a trainable parameter. -/
def filled (v : ℝ) (s : Shape) : Buf := ⟨s, List.replicate (size s) v⟩
def filledParam (v : ℝ) (_ : String) (s : Shape) : Parameter := ⟨filled v s, filled v s, true⟩

theorem filledParam_lookup {v : ℝ} {name : String} {p : Parameter} : ∀ (ps : List (String × Shape)),
    (ps.map fun q => (q.1, filledParam v q.1 q.2)).lookup name = some p → p.trainable = true ∧ ∀ a ∈ p.data.vals, a = v
  | [], h => by cases h
  | q :: ps, h => by
    rw [List.map_cons, List.lookup_cons] at h
    cases hq : name == q.1 <;> rw [hq] at h
    · exact filledParam_lookup ps h
    · cases h; exact ⟨rfl, fun a ha => (List.mem_replicate.1 ha).2⟩

/-- All elements of the parameters are `v`. -/
def AllParams (v : ℝ) (t : InfoTensors) : Prop := ∀ name p, t.params.lookup name = some p → ∀ a ∈ p.data.vals, a = v

/-- The tensors a layer is made with. -/
theorem tensorsFit_exists (v : ℝ) (op : Op) (shs : List Shape) : ∃ t, TensorsFit t op shs ∧ Trainable t ∧ AllParams v t := by
  cases h : initEntries op shs with
  | throw x => exact ⟨⟨[], []⟩, ⟨true, fun ps bs h' => by rw [h] at h'; cases h'⟩, fun name p hp => (by cases hp), fun name p hp => (by cases hp)⟩
  | ub x => exact ⟨⟨[], []⟩, ⟨true, fun ps bs h' => by rw [h] at h'; cases h'⟩, fun name p hp => (by cases hp), fun name p hp => (by cases hp)⟩
  | ok q =>
    obtain ⟨ps, bs⟩ := q
    obtain ⟨hp, hb⟩ := initEntries_nodup h
    refine ⟨⟨ps.map fun q => (q.1, filledParam v q.1 q.2), bs.map fun q => (q.1, filled 0 q.2)⟩, ⟨true, fun ps' bs' h' => ?_⟩,
      fun name p hl => (filledParam_lookup ps hl).1, fun name p hl => (filledParam_lookup ps hl).2⟩
    rw [h] at h'
    cases h'
    refine ⟨fun p hm => ⟨_, ⟨_, lookup_map (filledParam v) hp p hm, rfl⟩, by simp⟩,
      fun b hm => ⟨_, lookup_map (fun _ => filled 0) hb b hm, by simp, fun _ v hv => ?_⟩⟩
    rw [(List.mem_replicate.1 hv).2]

theorem netTensors_filled (v : ℝ) (B : Nat) (input : List Nat) (l : List Step) :
    ∃ t, NetTensors B input l t ∧ (∀ i, Trainable (t i)) ∧ ∀ i, AllParams v (t i) := by
  have : ∀ i : Nat, ∃ t, (∀ s : Step, l[i]? = some s → TensorsFit t s.op (s.args.map fun a => batchOf B (restAt input l a))) ∧
      Trainable t ∧ AllParams v t := fun i => by
    cases h : l[i]? with
    | none => exact ⟨⟨[], []⟩, (fun s hs => by cases hs), fun name p hp => (by cases hp), fun name p hp => (by cases hp)⟩
    | some s =>
      obtain ⟨t, h1, h2⟩ := tensorsFit_exists v s.op (s.args.map fun a => batchOf B (restAt input l a))
      exact ⟨t, (fun s' hs' => by cases hs'; exact h1), h2⟩
  choose t ht using this
  exact ⟨t, fun i s hs => (ht i).1 s hs, fun i => (ht i).2.1, fun i => (ht i).2.2⟩

theorem netTensors_exist (B : Nat) (input : List Nat) (l : List Step) : ∃ t, NetTensors B input l t ∧ ∀ i, Trainable (t i) := by
  obtain ⟨t, h1, h2, -⟩ := netTensors_filled 0 B input l
  exact ⟨t, h1, h2⟩

/-- With the batch size 32, 784 inputs and trainable parameters: a model that computes a network. -/
example : ∃ e m t L θ, buildMNIST 32 {} = (.ok (0, 5), e) ∧ Built (creationOrder e) e [0] [5] m (fun _ => 1) t L θ ∧ ∀ i, Trainable (t i) := by
  obtain ⟨e, h1, h2, h3, h4⟩ := mnist_model (B := 32) (real := fun _ => 1) (by norm_num) (by norm_num) (by norm_num [EpsPos, norm1D])
  obtain ⟨m, e', hm, -, -, hb⟩ := h4 (creationOrder e) (topological_order_exists h2 (by
    intro x hx
    obtain rfl := List.mem_singleton.1 hx
    rw [net_phs_length h3]; simp [denseNet]))
  obtain ⟨t, ht, htr⟩ := netTensors_exist 32 [784] (denseNet 10)
  obtain ⟨L, θ, hL⟩ := hb t ht
  exact ⟨e, m, t, L, θ, h1, hL, htr⟩

end

end DW.Props.SampleModelsP
