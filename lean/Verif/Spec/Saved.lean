import Verif.Model.Training
import Verif.Spec.Reload
import Verif.Props.Validation
/-! # A trained model in a file, and the program that tests it -/

set_option autoImplicit false

namespace DW.Spec

open DW DW.DL DW.Props.ValidationP

noncomputable section

/-- The tensor an entry of `state()` refers to, as the layer objects have it in the state `w` of the program. -/
def tensorIn (e : Expr) (m : Model) (w : World) : StateRef → Option Buf
  | .param i name => look i fun t => (t.params.lookup name).map Parameter.data
  | .buffer i name => look i fun t => t.buffers.lookup name
where
  /-- in the tensors of the layer with the `LayerInfo` number `i` -/
  look (i : Nat) (f : InfoTensors → Option Buf) : Option Buf :=
    w.backend.bind fun b => b.layers[(sortedOps m.sorted).findIdx fun c => e.callInfo c == i]?.bind fun l => f (tensorsOf false l)

/-- `d` is the state of the model in the state `w` of the program: the bytes of each tensor denote the numbers in it. -/
def Saves (real : F32 → ℝ) (e : Expr) (m : Model) (w : World) (d : Dict) : Prop :=
  ∀ k r, (k, r) ∈ m.state → ∃ s, d.lookup k = some s ∧ tensorIn e m w r = some ⟨s.shape, numbers real s.bytes⟩

/-- The test mode of the samples, with a file of these bytes and batches of `N` samples: `dw::load` reads the file to its end and
returns a model with one input and one output. There are tensors with what was read, in evaluation mode, as after `train(false)`. With
any such tensors the model can be compiled, and there are the tensors for the loop over the dataset. After any use of the model that
leaves its parameters, with any tensors of the program, all random numbers and previous contents, the loop ends, and the mean of the
accuracies of its rounds is `acc`. -/
def TestPrints (lim : Nat) (topo : Graph → List Node) (fresh : Expr → Model → Dict) (e : Expr) (bytes : List Byte) (real : F32 → ℝ)
    (ld : Loader ℝ) (fuel : Nat) (acc : ℝ) : Prop :=
  ∃ m' d' e' xi yo, load lim topo fresh (e, ⟨bytes, false⟩) = (.ok (m', d'), (e', ⟨[], false⟩)) ∧
    (∃ tensors, StateHolds real m' tensors d' ∧ InMode e' m' tensors false) ∧
    ∀ tensors, StateHolds real m' tensors d' → InMode e' m' tensors false →
      ∃ (topo' : Graph → List Node) (L : Layers e') (θ : L.Params), Built topo' e' [xi] [yo] m' real tensors L θ ∧
        (∃ w b x p y, History e' [xi] [yo] m' real tensors L θ θ none w ∧ ValArgs e' m' yo ld w b x p y) ∧
        ∀ {last w b x p y}, History e' [xi] [yo] m' real tensors L θ θ last w → ValArgs e' m' yo ld w b x p y →
          ∀ {env : Nat → Nat → Env}, (∀ k c, IsPick (env k c).pick) → ∀ (junk : Nat → ℝ) (rands : Nat → List Int),
            ∃ (sum : ℝ) (iter : Nat), 0 < iter ∧
              (validationLoop m' ld junk rands env x p y 0 0 fuel (w, 0)).1 = .ok (some (sum, iter)) ∧ sum / iter = acc

end

end DW.Spec
