import Verif.Spec.Graph
/-! # Histories of calls of the API, starting anywhere -/

set_option autoImplicit false

namespace DW.Spec

open DW

/-- `Later e e'`: the calls of some history of API calls, including calls that throw, turn the expression objects `e` into `e'`. -/
inductive Later (e : Expr) : Expr → Prop
  | refl : Later e e
  | placeholder {e'} (s : Shape) : Later e e' → Later e (Expr.placeholder s e').2
  | layer {e'} (op : Op) (name : String) : Later e e' → Later e (Expr.layer op name e').2
  | apply {e'} (i : Nat) (ins : List Nat) : Later e e' → Later e (Expr.apply i ins e').2
  | makeLayer {e'} (t n : String) (as : Attrs) (ins : List Nat) : Later e e' → Later e (Expr.makeLayer t n as ins e').2
  | model {e'} (topo : Graph → List Node) (ins outs : List Nat) : Later e e' → Later e (modelCtor topo ins outs e').2
  | train {e'} (m : Model) (mode : Bool) : Later e e' → Later e (m.train mode e').2
  | build {e'} (topo : Graph → List Node) (cfg : Config) : Later e e' → Later e (modelBuild topo cfg e').2

end DW.Spec
