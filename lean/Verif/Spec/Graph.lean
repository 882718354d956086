import Verif.Model.Graph
/-!
# Specification vocabulary for expression graphs
-/

set_option autoImplicit false

namespace DW.Spec

open DW

/-- `Needs e y x`: placeholder `y` is `x`, or the layer application producing `y` has an argument
that needs `x`. -/
inductive Needs (e : Expr) : Nat → Nat → Prop
  | refl (x : Nat) : Needs e x x
  | step {y a x c : Nat} : e.callOf y = some c → a ∈ e.callArgs c → Needs e a x → Needs e y x

/-- Some output is computed from `x`. -/
def NeededBy (e : Expr) (outs : List Nat) (x : Nat) : Prop := ∃ o ∈ outs, Needs e o x

/-- Some output is computed from the result of application `c`. -/
def NeededCall (e : Expr) (outs : List Nat) (c : Nat) : Prop :=
  ∃ x, e.callOf x = some c ∧ NeededBy e outs x

/-- No list of arguments (and not the list of outputs) contains a produced placeholder together
with a *later* entry that equals it or is computed from it. -/
structure Orderly (e : Expr) (outs : List Nat) : Prop where
  outsOrd : outs.Pairwise fun a b => (e.callOf a).isSome → ¬ Needs e b a
  argsOrd : ∀ x, NeededBy e outs x →
    (e.argsOf x).Pairwise fun a b => (e.callOf a).isSome → ¬ Needs e b a

/-- What the constructors guarantee about expression objects: arguments exist before the result,
every application produces its own placeholder, and its layer object exists. -/
structure WF (e : Expr) : Prop where
  call_lt : ∀ x c, e.callOf x = some c → c < e.calls.length
  arg_lt : ∀ x c, e.callOf x = some c → ∀ a ∈ e.callArgs c, a < x
  call_inj : ∀ x y c, e.callOf x = some c → e.callOf y = some c → x = y
  info_lt : ∀ c, c < e.calls.length → e.callInfo c < e.infos.length

/-- Expression states reachable with the public API, including calls that throw. -/
inductive Reachable : Expr → Prop
  | empty : Reachable {}
  | placeholder {e} (s : Shape) : Reachable e → Reachable (Expr.placeholder s e).2
  | layer {e} (op : Op) (name : String) : Reachable e → Reachable (Expr.layer op name e).2
  | apply {e} (i : Nat) (ins : List Nat) : Reachable e → Reachable (Expr.apply i ins e).2
  | makeLayer {e} (t n : String) (as : Attrs) (ins : List Nat) :
      Reachable e → Reachable (Expr.makeLayer t n as ins e).2
  | model {e} (topo : Graph → List Node) (ins outs : List Nat) :
      Reachable e → Reachable (modelCtor topo ins outs e).2
  | train {e} (m : Model) (mode : Bool) : Reachable e → Reachable (m.train mode e).2
  | build {e} (topo : Graph → List Node) (cfg : Config) :
      Reachable e → Reachable (modelBuild topo cfg e).2

end DW.Spec

namespace DW.Spec

open DW

/-- Documented parameter names of each layer type (include/deepworks/nn.hpp). -/
def paramNames : Op → List String
  | .linear _ | .convolution _ _ _ _ => ["weight", "bias"]
  | .batchNorm1D _ _ | .batchNorm2D _ _ => ["gamma", "beta"]
  | .dropout _ => ["mask"]
  | _ => []

/-- Documented buffer names of each layer type. -/
def bufferNames : Op → List String
  | .batchNorm1D _ _ | .batchNorm2D _ _ => ["running_mean", "running_var"]
  | _ => []

/-- The name layer object `i` ends up with when `ops` are the applications of the model in sorted
order: the user's name, or lower(type) followed by the position of its first application. -/
def finalName (e : Expr) (ops : List Nat) (i : Nat) : String :=
  let inf := infoOf e i
  if inf.name = "" then generatedName inf.op.type ((ops.map e.callInfo).idxOf i) else inf.name

/-- The external topological sort returns a topological order of the model's graph. -/
def SortsCorrectly (topo : Graph → List Node) (e : Expr) (ins outs : List Nat) : Prop :=
  ∀ g, buildGraph e ins outs = .ok g → IsTopo g (topo g)

/-- Placeholder `x` is produced by, or an argument of, an application some output depends on. -/
def TakesPart (e : Expr) (outs : List Nat) (x : Nat) : Prop :=
  ∃ c, NeededCall e outs c ∧ (e.callOf x = some c ∨ x ∈ e.callArgs c)

end DW.Spec
