import Verif.Lemmas.SampleSave
import Verif.Props.SampleModels
import Verif.Props.Reload
/-!
# The models of the samples can be saved and loaded (C95)
-/

set_option autoImplicit false

namespace DW.Props.SampleModelsP

open DW DW.Spec DW.Samples DW.GraphL DW.SampleL DW.RebuildL DW.Props.SaveLoadP DW.Props.GraphP

/-- The model made of the expressions with input 0 and output `out` can be saved at any time, with whatever is in its tensors, and
loaded in another process, whatever was done there before: `load` returns normally and has read the whole file, the loaded model is
the saved one up to the numbers of its placeholders (`SameModel`), and its state is the saved state. Strings and vectors in the file
have at most `lim` bytes, which is more than these models need. -/
def CanSave (e : Expr) (out : Nat) : Prop :=
  ∀ (lim : Nat) (topo : Graph → List Node), 1000 ≤ lim → lim < 2 ^ 63 → SortsCorrectly topo e [0] [out] →
    ∃ m e', modelCtor topo [0] [out] e = (.ok m, e') ∧ ∀ d, IsStateOf e' m d →
      ∀ (e₂ : Expr) (topo₂ : Graph → List Node) (fresh : Expr → Model → Dict), Reachable e₂ → SortsRebuilt topo₂ m.cfg e₂ →
        (∀ e m, IsStateOf e m (fresh e m)) →
        Restorable lim topo e [0] [out] m e' d e₂ topo₂ fresh ∧
        ∃ m' d' e₃ φ, load lim topo₂ fresh (e₂, ⟨(save m.cfg d []).2, false⟩) = (.ok (m', d'), (e₃, ⟨[], false⟩)) ∧
          SameModel e' m e₃ m' φ ∧ ∀ k, d'.lookup k = d.lookup k

variable {B K : Nat} {input : List Nat} {l : List Step}

theorem canSave {e : Expr} (hr : Reachable e) (h : IsNet e B input l) (hc : Checked K input l) (hv : Savable input l) (hd : Direct e)
    (hB : 0 < B) (hK : B * K ≤ 2147483647) : CanSave e l.length := by
  intro lim topo hlim hlim' hs
  obtain ⟨m, e', hm⟩ := net_ctor hr h hc hs
  refine ⟨m, e', hm, fun d hst e₂ topo₂ fresh hr₂ hs₂ hf => ?_⟩
  have hS := net_restorable hr h hc hv hd hs hm hB hK hlim hlim' hst hr₂ hs₂ hf
  obtain ⟨m', d', e₃, φ, ψ, h1, h2, h3, -⟩ := load_rebuilt hS.limit hr hs hS.ctor hS.state hS.cfg hS.dict hS.reachable
    hS.sorts hS.fresh hS.sources hS.apart hS.insOrder hS.outsOrder hS.own
  exact ⟨hS, m', d', e₃, φ, h1, h2, h3⟩

/-- **C95** for the MNIST sample. -/
theorem mnist_saved (hB : 0 < B) (hK : B * 784 ≤ 2147483647) : ∃ e, buildMNIST B {} = (.ok (0, 5), e) ∧ CanSave e 5 := by
  obtain ⟨e, h1, h2, h3⟩ := buildMNIST_net B
  have hd := direct_mnist B
  rw [h1] at hd
  exact ⟨e, h1, canSave h2 h3 denseNet_checked denseNet_savable hd hB hK⟩

/-- **C95** for the Iris sample. -/
theorem iris_saved (hB : 0 < B) (hK : B * 100 ≤ 2147483647) : ∃ e, buildIris B {} = (.ok (0, 5), e) ∧ CanSave e 5 := by
  obtain ⟨e, h1, h2, h3⟩ := buildIris_net B
  have hd := direct_iris B
  rw [h1] at hd
  exact ⟨e, h1, canSave h2 h3 iris_checked iris_savable hd hB hK⟩

/-- **C95** for the CIFAR-10 sample. -/
theorem cifar10_saved (hB : 0 < B) (hK : B * 409600 ≤ 2147483647) : ∃ e, buildCIFAR10 B {} = (.ok (0, 14), e) ∧ CanSave e 14 := by
  obtain ⟨e, h1, h2, h3⟩ := buildCIFAR10_net B
  have hd := direct_cifar10 B
  rw [h1] at hd
  exact ⟨e, h1, canSave h2 h3 cifar10_checked cifar10_savable hd hB hK⟩

/-- **C95** for the CIFAR-100 sample: a model whose 52 layers have generated names. -/
theorem resnet_saved (hB : 0 < B) (hK : B * 147456 ≤ 2147483647) : ∃ e, buildResnet B {} = (.ok (0, 52), e) ∧ CanSave e 52 := by
  obtain ⟨e, h1, h2, h3⟩ := buildResnet_net B
  have hd := direct_resnet B
  rw [h1] at hd
  exact ⟨e, h1, canSave h2 h3 resnet_checked resnet_savable hd hB hK⟩

/-! ### One of them, saved and loaded -/

/-- The expressions of the MNIST sample with batch size 32. -/
def mnistE : Expr := (buildMNIST 32 {}).2

theorem mnist_ctor : modelCtor (creationOrder mnistE) [0] [5] mnistE = (.ok (built mnistE [0] [5]).1, (built mnistE [0] [5]).2) := by
  have h : (modelCtor (creationOrder mnistE) [0] [5] mnistE).1.isOk = true := by decide +kernel
  unfold built
  rcases hm : modelCtor (creationOrder mnistE) [0] [5] mnistE with ⟨o, e'⟩
  rw [hm] at h
  cases o with
  | ok m => rfl
  | throw x => simp [Out.isOk] at h
  | ub x => simp [Out.isOk] at h

/-- A freshly made MNIST model with zeros in its tensors, saved and loaded in a new process. -/
example : ∃ m' d' e₃ φ, load 1000 (creationOrder (rebuiltE mnistE [0] [5])) newState
      ({}, ⟨(save (built mnistE [0] [5]).1.cfg (newState (built mnistE [0] [5]).2 (built mnistE [0] [5]).1) []).2, false⟩) =
        (.ok (m', d'), (e₃, ⟨[], false⟩)) ∧ SameModel (built mnistE [0] [5]).2 (built mnistE [0] [5]).1 e₃ m' φ := by
  obtain ⟨e, h1, h2⟩ := mnist_saved (B := 32) (by norm_num) (by norm_num)
  obtain rfl : mnistE = e := congrArg Prod.snd h1
  have hr : Reachable mnistE := by
    obtain ⟨e, h3, h4, -⟩ := buildMNIST_net 32
    obtain rfl : mnistE = e := congrArg Prod.snd h3
    exact h4
  obtain ⟨m, e', hm, h⟩ := h2 1000 (creationOrder mnistE) le_rfl (by norm_num) (topological_order_exists hr (by decide +kernel))
  rw [mnist_ctor] at hm
  obtain ⟨h3, rfl⟩ := Prod.mk.inj hm
  obtain rfl := Out.ok.inj h3
  obtain ⟨-, m', d', e₃, φ, h5, h6, -⟩ := h _ (newState_ok _ _) {} (creationOrder (rebuiltE mnistE [0] [5])) newState .empty
    (sorts_rebuilt .empty (ins := [0]) (outs := [5]) (by decide +kernel) (by decide +kernel)) newState_ok
  exact ⟨m', d', e₃, φ, h5, h6⟩

end DW.Props.SampleModelsP
