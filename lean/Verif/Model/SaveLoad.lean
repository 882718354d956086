import Verif.Model.Serialization
/-!
# `save` and `load` (src/serialization.cpp:299-312)

Opening the file is not modelled: `save` writes to a new file, `load` reads the given bytes.
-/

namespace DW

/-- Shape of a tensor of `state()`. -/
def tensorShape (e : Expr) : StateRef → Shape
  | .param i p => (((infoOf e i).params.lookup p).map Param.shape).getD []
  | .buffer i b => ((infoOf e i).buffers.lookup b).getD []

/-- `Model::state()` when `bytes r` are the elements of tensor `r`. -/
def stateDict (e : Expr) (m : Model) (bytes : StateRef → List Byte) : Dict :=
  m.state.map fun s => (s.1, ⟨tensorShape e s.2, bytes s.2⟩)

/-- `save` (src/serialization.cpp:299-303). `d` is the state dict in the order in which the hash map iterates. -/
def save (cfg : Config) (d : Dict) : W := do
  saveCfg cfg
  saveState d

/-- `load` (src/serialization.cpp:305-310). `state e m` is the state dict of the model just built, in the order in which
the hash map iterates. The result is the model and its state. -/
def load (lim : Nat) (topo : Graph → List Node) (state : Expr → Model → Dict) : M (Expr × IStream) (Model × Dict) :=
  fun s =>
    match loadCfg lim s.2 with
    | (.ub u, f) => (.ub u, (s.1, f))
    | (.throw x, f) => (.throw x, (s.1, f))
    | (.ok cfg, f) =>
      match modelBuild topo cfg s.1 with
      | (.ub u, e) => (.ub u, (e, f))
      | (.throw x, e) => (.throw x, (e, f))
      | (.ok m, e) =>
        match loadState lim ⟨state e m, f⟩ with
        | (.ub u, st) => (.ub u, (e, st.file))
        | (.throw x, st) => (.throw x, (e, st.file))
        | (.ok (), st) => (.ok (m, st.dict), (e, st.file))

end DW
