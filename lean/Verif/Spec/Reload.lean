import Verif.Model.SaveLoad
import Verif.Spec.History
import Verif.Spec.SaveLoad
import Verif.Spec.Serialization
/-!
# The numbers in a saved state, and models that compute the same function
-/

set_option autoImplicit false

namespace DW.Spec

open DW

/-- The first `n` floats in memory. -/
def floats : Nat → List Byte → List F32
  | 0, _ => []
  | n + 1, bs => bytesFloat (bs.take 4) :: floats n (bs.drop 4)

/-- The numbers stored in the bytes of a tensor. -/
noncomputable def numbers (real : F32 → ℝ) (bytes : List Byte) : List ℝ := (floats (bytes.length / 4) bytes).map real

/-- The tensor an entry of `state()` refers to. -/
def tensorAt (tensors : Nat → InfoTensors) : StateRef → Option Buf
  | .param i name => ((tensors i).params.lookup name).map Parameter.data
  | .buffer i name => (tensors i).buffers.lookup name

/-- The tensors of `state()` of the model hold what `d` says. -/
def StateHolds (real : F32 → ℝ) (m : Model) (tensors : Nat → InfoTensors) (d : Dict) : Prop :=
  ∀ k r, (k, r) ∈ m.state → ∃ s, d.lookup k = some s ∧ tensorAt tensors r = some ⟨s.shape, numbers real s.bytes⟩

/-- All parameters of the model have `is_trainable() == mode`, as after `train(mode)`, and gradients of their own shapes. -/
def InMode (e : Expr) (m : Model) (tensors : Nat → InfoTensors) (mode : Bool) : Prop :=
  ∀ x ∈ dataOf m, ∀ c, e.callOf x = some c → ∀ name p, (tensors (e.callInfo c)).params.lookup name = some p →
    p.trainable = mode ∧ p.grad.shape = p.data.shape ∧ p.grad.vals.length = p.data.vals.length

/-- The models `save` and `load` restore, with the circumstances of saving and loading: the model is constructed in `e`, which
leads to `e'`; its sources are its inputs; inputs and outputs are listed in the order of their ids; its layers have the tensors
their applications ask for. The state `d` of the model is written, and read in a process with the expressions `e₂`. -/
structure Restorable (lim : Nat) (topo : Graph → List Node) (e : Expr) (ins outs : List Nat) (m : Model) (e' : Expr) (d : Dict)
    (e₂ : Expr) (topo₂ : Graph → List Node) (fresh : Expr → Model → Dict) : Prop where
  limit : lim < 2 ^ 63
  ctor : modelCtor topo ins outs e = (.ok m, e')
  state : IsStateOf e' m d
  cfg : OkCfg lim m.cfg
  dict : OkDict lim d
  reachable : Reachable e₂
  sorts : SortsRebuilt topo₂ m.cfg e₂
  fresh : ∀ e m, IsStateOf e m (fresh e m)
  sources : ∀ x, TakesPart e outs x → (e.callOf x = none ↔ x ∈ ins)
  apart : ∀ x ∈ ins, x ∉ outs
  insOrder : (ins.map (dataId m.sorted)).Pairwise (· < ·)
  outsOrder : (outs.map (dataId m.sorted)).Pairwise (· < ·)
  own : OwnTensors e' outs

end DW.Spec
