import Verif.Model.NN
/-!
# Model construction

`GraphBuilder` (src/model/graphbuilder.cpp), the passes `initNodeId`, `checkNamesAreUnique`,
`createConfig` and the constructor of `Model::Impl` (src/model/model.cpp), and `Model::Build`.

Placeholders, calls and layer infos are indices into `Expr`. The ade topological sort is a
parameter `topo`; theorems assume it returns *some* topological order (`IsTopo`).
-/

namespace DW

namespace Expr

/-- `Placeholder::Impl::call`. -/
def callOf (e : Expr) (x : Nat) : Option Nat := (e.phs[x]?).bind PhImpl.call

/-- `Call::Impl::args`. -/
def callArgs (e : Expr) (c : Nat) : List Nat := ((e.calls[c]?).map CallImpl.args).getD []

/-- Arguments of the call producing `x` (empty for a source placeholder). -/
def argsOf (e : Expr) (x : Nat) : List Nat :=
  match e.callOf x with
  | some c => e.callArgs c
  | none => []

/-- Index of the layer info of a call. -/
def callInfo (e : Expr) (c : Nat) : Nat := ((e.calls[c]?).map CallImpl.info).getD 0

/-- Sizes of the expression trees rooted at each placeholder, used only as a bound on the number
of iterations of `unroll`. -/
def weights (e : Expr) : List Nat :=
  (List.range e.phs.length).foldl
    (fun ws x => ws ++ [1 + ((e.argsOf x).map fun a => ws.getD a 0).sum]) []

def weight (e : Expr) (x : Nat) : Nat := e.weights.getD x 0

end Expr

/-- Result of `GraphBuilder::unroll`. -/
structure Unrolled where
  data : List Nat
  ops : List Nat
  deriving DecidableEq, Repr

/-- The `while (!stack.empty())` loop of `unroll` (src/model/graphbuilder.cpp:90-113); the head of
`stack` is its top. A placeholder is marked as reached when it is popped, and arguments are pushed
if they are not marked. `none` only if the fuel is used up. -/
def unrollLoop (e : Expr) : Nat → List Nat → List Nat → Unrolled → Option Unrolled
  | _, [], _, acc => some acc
  | 0, _ :: _, _, _ => none
  | n + 1, x :: stack, reached, acc =>
    let reached := x :: reached
    let acc := { acc with data := acc.data ++ [x] }
    match e.callOf x with
    | none => unrollLoop e n stack reached acc
    | some c =>
      unrollLoop e n ((e.callArgs c).foldl (fun st a => if reached.contains a then st else a :: st) stack)
        reached { acc with ops := acc.ops ++ [c] }

/-- `GraphBuilder::unroll` (src/model/graphbuilder.cpp:77-117). `ins` is not used by the code. -/
def unroll (e : Expr) (outs : List Nat) : Option Unrolled :=
  unrollLoop e ((outs.map e.weight).sum + 1) (outs.foldl (fun st o => o :: st) []) [] ⟨[], []⟩

/-- A node of the ade graph: of a placeholder or of a call (one node per `Impl` object). -/
inductive Node
  | data (ph : Nat)
  | op (call : Nat)
  deriving DecidableEq, Repr

/-- `graph::Data::Storage` (src/model/graph.hpp). -/
inductive Storage
  | internal
  | input
  | output
  deriving DecidableEq, Repr

/-- The graph after `GraphBuilder::build`. `inLinks` are the edges placeholder → call with their
port, `outLinks` the edges call → placeholder (port 0), both in linking order. -/
structure Graph where
  dataNodes : List Nat
  opNodes : List Nat
  inLinks : List (Nat × Nat × Nat)
  outLinks : List (Nat × Nat)
  ins : List Nat
  outs : List Nat
  deriving DecidableEq, Repr

namespace Graph

/-- Storage class of a data node: marked INPUT for `ins`, then OUTPUT for `outs`
(src/model/graphbuilder.cpp:64-71), so OUTPUT wins. -/
def storage (g : Graph) (ph : Nat) : Storage :=
  if ph ∈ g.outs then .output else if ph ∈ g.ins then .input else .internal

end Graph

/-- Insert a key unless present (`getOpNode` / `getDataNode`, src/model/graphbuilder.cpp:119-150). -/
def insertNew (l : List Nat) (x : Nat) : List Nat := if x ∈ l then l else l ++ [x]

/-- Edges of one call: one per argument, with its position as port
(src/model/graphbuilder.cpp:24-32). -/
def argLinks (e : Expr) (c : Nat) : List (Nat × Nat × Nat) :=
  (e.callArgs c).zipIdx.map fun p => (p.1, c, p.2)

/-- `GraphBuilder::build` (src/model/graphbuilder.cpp:16-75). An input or output placeholder that
got no node has a null handle, whose metadata is then dereferenced. -/
def buildGraph (e : Expr) (ins outs : List Nat) : Out Graph :=
  match unroll e outs with
  | none => .ub .oob
  | some u =>
    let inLinks := u.ops.flatMap (argLinks e)
    let produced := u.data.filterMap fun x => (e.callOf x).map fun c => (c, x)
    let opNodes := u.ops.foldl insertNew []
    let dataNodes := (inLinks.map Prod.fst ++ produced.map Prod.snd).foldl insertNew []
    if (ins ++ outs).all (fun x => dataNodes.contains x) then
      .ok { dataNodes := dataNodes, opNodes := opNodes, inLinks := inLinks, outLinks := produced,
            ins := ins, outs := outs }
    else .ub .null

/-- `sorted` is a topological order of the nodes of `g`. -/
structure IsTopo (g : Graph) (sorted : List Node) : Prop where
  nodup : sorted.Nodup
  data : ∀ x, .data x ∈ sorted ↔ x ∈ g.dataNodes
  op : ∀ c, .op c ∈ sorted ↔ c ∈ g.opNodes
  inOrder : ∀ l ∈ g.inLinks, sorted.idxOf (.data l.1) < sorted.idxOf (.op l.2.1)
  outOrder : ∀ l ∈ g.outLinks, sorted.idxOf (.op l.1) < sorted.idxOf (.data l.2)

def Node.data? : Node → Option Nat
  | .data x => some x
  | .op _ => none

def Node.op? : Node → Option Nat
  | .op c => some c
  | .data _ => none

/-- `filter(sorted, is_data)` and `filter(sorted, is_op)` (src/model/model.cpp:23-37). -/
def sortedData (sorted : List Node) : List Nat := sorted.filterMap Node.data?
def sortedOps (sorted : List Node) : List Nat := sorted.filterMap Node.op?

/-- `Data::id`: position among the sorted data nodes (src/model/model.cpp:60-64). -/
def dataId (sorted : List Node) (ph : Nat) : Nat := (sortedData sorted).idxOf ph

/-- `lower(type) + to_string(idx)` (src/model/model.cpp:77-82). -/
def generatedName (type : String) (idx : Nat) : String :=
  String.ofList (type.toList.map Char.toLower) ++ toString idx

/-- Give layer `idx` of the sorted list a name if it has none (src/model/model.cpp:75-82). The name
is written to the shared layer info. -/
def nameOp (e : Expr) (c idx : Nat) : Expr :=
  let i := e.callInfo c
  match e.infos[i]? with
  | none => e
  | some inf =>
    if inf.name = "" then { e with infos := e.infos.set i { inf with name := generatedName inf.op.type idx } }
    else e

/-- `ids.resize(edges.size()); for (edge) ids[port] = id` (src/model/model.cpp:85-97). -/
def portIds (edges : List (Nat × Nat)) : List Nat :=
  edges.foldl (fun ids p => ids.set p.2 p.1) (List.replicate edges.length 0)

/-- `op.in_ids`. -/
def inIds (g : Graph) (sorted : List Node) (c : Nat) : List Nat :=
  portIds ((g.inLinks.filter fun l => l.2.1 == c).map fun l => (dataId sorted l.1, l.2.2))

/-- `op.out_ids` (every port is 0). -/
def outIds (g : Graph) (sorted : List Node) (c : Nat) : List Nat :=
  portIds ((g.outLinks.filter fun l => l.1 == c).map fun l => (dataId sorted l.2, 0))

/-- All names assigned by `initNodeId`, in sorted order. -/
def nameOps (e : Expr) (ops : List Nat) : Expr :=
  ops.zipIdx.foldl (fun e p => nameOp e p.1 p.2) e

/-- Name of the layer a call applies. -/
def opName (e : Expr) (c : Nat) : String := ((e.infos[e.callInfo c]?).map InfoImpl.name).getD ""

/-- `checkNamesAreUnique` (src/model/model.cpp:41-52). -/
def checkNames (e : Expr) : List Nat → List String → Out Unit
  | [], _ => .ok ()
  | c :: cs, seen =>
    if opName e c ∈ seen then .throw .dw else checkNames e cs (opName e c :: seen)

/-- A `Layer` handed to the user (src/model/layer.cpp). -/
structure Layer where
  info : Nat
  inputs : List Nat
  outputs : List Nat
  deriving DecidableEq, Repr

/-- Which tensor a state entry refers to: the data of a parameter or a buffer of a layer info. -/
inductive StateRef
  | param (info : Nat) (name : String)
  | buffer (info : Nat) (name : String)
  deriving DecidableEq, Repr

/-- `Model::Config::OperationInfo` (include/deepworks/model.hpp:73-80). -/
structure OpInfo where
  name : String
  type : String
  attrs : Attrs
  inIds : List Int
  outIds : List Int
  deriving DecidableEq, Repr

/-- `Model::Config` (include/deepworks/model.hpp:59-86). `ph_map` maps an id to shape and id; the
stored id always equals the key for configs made by `createConfig`. -/
structure Config where
  inputIds : List Int
  outputIds : List Int
  phMap : List (Int × (Shape × Int))
  sortedOps : List OpInfo
  deriving DecidableEq, Repr

/-- `Model::Impl` after construction. -/
structure Model where
  graph : Graph
  sorted : List Node
  layers : List Layer
  layersMap : List (String × Layer)
  params : List (String × Nat × String)
  state : List (String × StateRef)
  cfg : Config
  deriving DecidableEq, Repr

/-- The layer of a call: `inNodes()` / `outNodes()` in edge order (src/model/model.cpp:187-200). -/
def mkLayer (e : Expr) (g : Graph) (c : Nat) : Layer where
  info := e.callInfo c
  inputs := (g.inLinks.filter fun l => l.2.1 == c).map Prod.fst
  outputs := (g.outLinks.filter fun l => l.1 == c).map Prod.snd

/-- The maps filled while creating the layers (src/model/model.cpp:186-218). -/
structure Maps where
  layers : List Layer := []
  layersMap : List (String × Layer) := []
  params : List (String × Nat × String) := []
  state : List (String × StateRef) := []

def infoOf (e : Expr) (i : Nat) : InfoImpl := (e.infos[i]?).getD ⟨"", .relu, [], []⟩

/-- One iteration of the layer loop (src/model/model.cpp:186-218): `emplace` never overwrites. -/
def addLayer (e : Expr) (g : Graph) (m : Maps) (c : Nat) : Maps :=
  let l := mkLayer e g c
  let inf := infoOf e l.info
  let lm := emplace m.layersMap inf.name l
  let l' := (lm.lookup inf.name).getD l
  let inf' := infoOf e l'.info
  let m := { m with layersMap := lm, layers := m.layers ++ [l'] }
  let m := inf'.params.foldl (fun (m : Maps) p =>
    { m with
      params := emplace m.params (inf.name ++ "." ++ p.1) (l'.info, p.1)
      state := emplace m.state (inf.name ++ "." ++ p.1) (.param l'.info p.1) }) m
  inf'.buffers.foldl (fun (m : Maps) b =>
    { m with state := emplace m.state (inf.name ++ "." ++ b.1) (.buffer l'.info b.1) }) m

/-- Shape of a placeholder. -/
def phShape (e : Expr) (x : Nat) : Shape := ((e.phs[x]?).map PhImpl.shape).getD []

/-- `createConfig` (src/model/model.cpp:102-129). -/
def createConfig (e : Expr) (g : Graph) (sorted : List Node) : Config where
  inputIds := ((sortedData sorted).filter fun x => g.storage x == .input).map fun x => (dataId sorted x : Int)
  outputIds := ((sortedData sorted).filter fun x => g.storage x == .output).map fun x => (dataId sorted x : Int)
  phMap := (sortedData sorted).map fun x => ((dataId sorted x : Int), (phShape e x, (dataId sorted x : Int)))
  sortedOps := (DW.sortedOps sorted).map fun c =>
    let inf := infoOf e (e.callInfo c)
    { name := inf.name, type := inf.op.type, attrs := inf.op.attrs,
      inIds := (inIds g sorted c).map fun n : Nat => (n : Int),
      outIds := (outIds g sorted c).map fun n : Nat => (n : Int) }

/-- `Model::Impl::Impl` (src/model/model.cpp:172-222): build, sort, name, check, collect. Generated
names stay in the shared layer infos even if the check throws. -/
def modelCtor (topo : Graph → List Node) (ins outs : List Nat) : M Expr Model := fun e =>
  match buildGraph e ins outs with
  | .throw x => (.throw x, e)
  | .ub u => (.ub u, e)
  | .ok g =>
    let sorted := topo g
    let ops := sortedOps sorted
    let e := nameOps e ops
    match checkNames e ops [] with
    | .throw x => (.throw x, e)
    | .ub u => (.ub u, e)
    | .ok () =>
      let m := ops.foldl (addLayer e g) {}
      (.ok { graph := g, sorted := sorted, layers := m.layers, layersMap := m.layersMap,
             params := m.params, state := m.state, cfg := createConfig e g sorted }, e)

/-- `Model::getLayer` (src/model/model.cpp:156-160). -/
def Model.getLayer (m : Model) (name : String) : Out Layer :=
  match m.layersMap.lookup name with
  | some l => .ok l
  | none => .throw .dw

/-- `Model::train` (src/model/model.cpp:166-170): set the flag of every entry of `params()`. -/
def Model.train (m : Model) (mode : Bool) : M Expr Unit := M.modify fun e =>
  m.params.foldl (fun e p =>
    match e.infos[p.2.1]? with
    | none => e
    | some inf => { e with infos := e.infos.set p.2.1 { inf with
        params := inf.params.map fun q => if q.1 = p.2.2 then (q.1, { q.2 with trainable := mode }) else q } }) e

/-! ### Building a model from a config -/

/-- Inputs of `Model::Build` (src/model/model.cpp:268-272): one placeholder per input id;
`emplace` keeps an existing entry. -/
def buildInputs (cfg : Config) : List Int → List (Int × Nat) → M Expr (List (Int × Nat))
  | [], m => pure m
  | id :: ids, m => do
    let info ← M.lift (Out.at? (cfg.phMap.lookup id))
    let ph ← Expr.placeholder info.1
    buildInputs cfg ids (if (m.lookup id).isSome then m else m ++ [(id, ph)])

/-- Operations of `Model::Build` (src/model/model.cpp:276-284). -/
def buildOps : List OpInfo → List (Int × Nat) → M Expr (List (Int × Nat))
  | [], m => pure m
  | op :: ops, m => do
    let inps ← M.lift (op.inIds.mapM fun id => Out.at? (m.lookup id))
    let out ← M.lift (Out.idx op.outIds 0)
    let ph ← Expr.makeLayer op.type op.name op.attrs inps
    buildOps ops (if (m.lookup out).isSome then m else m ++ [(out, ph)])

/-- `Model::Build` (src/model/model.cpp:267-296): the placeholders, then the model. -/
def buildPlaceholders (cfg : Config) : M Expr (List Nat × List Nat) := do
  let m ← buildInputs cfg cfg.inputIds []
  let m ← buildOps cfg.sortedOps m
  let inputs ← M.lift (cfg.inputIds.mapM fun id => Out.at? (m.lookup id))
  let outputs ← M.lift (cfg.outputIds.mapM fun id => Out.at? (m.lookup id))
  pure (inputs, outputs)

def modelBuild (topo : Graph → List Node) (cfg : Config) : M Expr Model := do
  let io ← buildPlaceholders cfg
  modelCtor topo io.1 io.2

end DW
