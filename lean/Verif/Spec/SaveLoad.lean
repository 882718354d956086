import Verif.Model.SaveLoad
import Verif.Spec.Graph
/-! # What it means that a loaded model is the saved one -/

namespace DW.Spec

/-- `d` holds the tensors of `state()` of the model, in any order, with any contents of the right size. -/
def IsStateOf (e : Expr) (m : Model) (d : Dict) : Prop :=
  ∃ bytes : StateRef → List Byte, (∀ r, (bytes r).length = 4 * (tensorShape e r).prod.toNat) ∧ d.Perm (stateDict e m bytes)

/-- What a user sees of a layer: name, type with attributes, inputs and outputs. -/
structure LayerView where
  name : String
  type : String
  attrs : Attrs
  inputs : List Nat
  outputs : List Nat

def viewLayer (e : Expr) (l : Layer) : LayerView :=
  ⟨(infoOf e l.info).name, (infoOf e l.info).op.type, (infoOf e l.info).op.attrs, l.inputs, l.outputs⟩

/-- The view with other placeholders. -/
def LayerView.rename (v : LayerView) (φ : Nat → Nat) : LayerView :=
  ⟨v.name, v.type, v.attrs, v.inputs.map φ, v.outputs.map φ⟩

/-- `m'` is `m` with placeholder `φ x` in place of `x`: the same inputs and outputs in the same order, the same layers. -/
structure SameModel (e : Expr) (m : Model) (e' : Expr) (m' : Model) (φ : Nat → Nat) : Prop where
  inj : ∀ x ∈ m.graph.dataNodes, ∀ y ∈ m.graph.dataNodes, φ x = φ y → x = y
  shape : ∀ x ∈ m.graph.dataNodes, phShape e' (φ x) = phShape e x
  ins : m'.graph.ins = m.graph.ins.map φ
  outs : m'.graph.outs = m.graph.outs.map φ
  layers : (m'.layers.map (viewLayer e')).Perm (m.layers.map fun l => (viewLayer e l).rename φ)

/-- Every layer of the network has tensors of the shapes its application in the network asks for. -/
def OwnTensors (e : Expr) (outs : List Nat) : Prop :=
  ∀ c, NeededCall e outs c → ∀ ps bs,
    initEntries (infoOf e (e.callInfo c)).op ((e.callArgs c).map (phShape e)) = .ok (ps, bs) →
    (infoOf e (e.callInfo c)).params.map (fun p => (p.1, p.2.shape)) = ps ∧ (infoOf e (e.callInfo c)).buffers = bs

/-- The topological sort used by the loading process sorts the graph of the rebuilt model. -/
def SortsRebuilt (topo : Graph → List Node) (cfg : Config) (e : Expr) : Prop :=
  ∀ io e', buildPlaceholders cfg e = (.ok io, e') → SortsCorrectly topo e' io.1 io.2

end DW.Spec
