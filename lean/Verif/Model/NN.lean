import Verif.Model.Tensor
import Verif.Model.Initializers
/-!
# Layers and expressions

* `Op` – the thirteen layer classes with their constructor arguments
  (include/deepworks/nn.hpp, src/expression/nn.cpp).
* `Expr` – placeholders, calls and layer infos created so far. Each C++ object with identity
  (`Placeholder::Impl`, `Call::Impl`, `LayerInfo::Impl`) is an index into a table.
-/

namespace DW

/-- A `float` value as an opaque 32-bit pattern. -/
abbrev F32 := BitVec 32

/-- `deepworks::Attribute` (include/deepworks/layer_info.hpp:54-81) with the four supported
value types; anything else has `AttrType::UNSUPPORTED`. -/
inductive AttrVal
  | int (v : Int)
  | float (v : F32)
  | ints (a b : Int)
  | floats (a b : F32)
  | unsupported
  deriving DecidableEq, Repr

/-- `deepworks::Attributes`: an `unordered_map<string, Attribute>` as a list of entries. -/
abbrev Attrs := List (String × AttrVal)

/-- The layer classes with their constructor arguments (include/deepworks/nn.hpp:13-115). -/
inductive Op
  | linear (units : Int)
  | relu
  | softmax
  | batchNorm1D (eps alpha : F32)
  | elu (alpha : F32)
  | maxPooling (kernel padding stride : Int × Int)
  | convolution (outChannels : Int) (kernel padding stride : Int × Int)
  | leakyReLU (alpha : F32)
  | sigmoid
  | dropout (p : F32)
  | globalAvgPooling
  | batchNorm2D (eps alpha : F32)
  | add
  deriving DecidableEq, Repr

namespace Op

/-- The `type` string each constructor passes to `LayerInfo` (src/expression/nn.cpp:16-334). -/
def type : Op → String
  | linear _ => "Linear"
  | relu => "ReLU"
  | softmax => "Softmax"
  | batchNorm1D _ _ => "BatchNorm1D"
  | elu _ => "ELU"
  | maxPooling _ _ _ => "MaxPooling"
  | convolution _ _ _ _ => "Convolution"
  | leakyReLU _ => "LeakyReLU"
  | sigmoid => "Sigmoid"
  | dropout _ => "Dropout"
  | globalAvgPooling => "GlobalAvgPooling"
  | batchNorm2D _ _ => "BatchNorm2D"
  | add => "Add"

/-- The attributes each constructor stores (src/expression/nn.cpp:16-334). -/
def attrs : Op → Attrs
  | linear u => [("units", .int u)]
  | relu => []
  | softmax => []
  | batchNorm1D e a => [("eps", .float e), ("alpha", .float a)]
  | elu a => [("alpha", .float a)]
  | maxPooling k p s => [("kernel", .ints k.1 k.2), ("padding", .ints p.1 p.2), ("stride", .ints s.1 s.2)]
  | convolution c k p s => [("out_channels", .int c), ("kernel", .ints k.1 k.2),
      ("padding", .ints p.1 p.2), ("stride", .ints s.1 s.2)]
  | leakyReLU a => [("alpha", .float a)]
  | sigmoid => []
  | dropout p => [("p", .float p)]
  | globalAvgPooling => []
  | batchNorm2D e a => [("eps", .float e), ("alpha", .float a)]
  | add => []

/-- Number of `outShape` arguments = number of inputs (include/deepworks/base_op.hpp:19). -/
def numIn : Op → Nat
  | add => 2
  | _ => 1

end Op

/-- `attrs.at(key)`. -/
def attrAt (attrs : Attrs) (key : String) : Out AttrVal := Out.at? (attrs.lookup key)

/-- `Attribute::get<int>()`: `*std::any_cast<int>(&m_value)`, a null dereference on a type
mismatch (include/deepworks/layer_info.hpp:65-67). -/
def getInt : AttrVal → Out Int
  | .int v => .ok v
  | _ => .ub .null

def getFloat : AttrVal → Out F32
  | .float v => .ok v
  | _ => .ub .null

def getInts : AttrVal → Out (Int × Int)
  | .ints a b => .ok (a, b)
  | _ => .ub .null

/-- The layer object `make_layer` constructs from a type string and attributes
(src/expression/nn.cpp:53-141 with `make_typed_layer`, `get_in` :22-51). -/
def makeOp (type : String) (attrs : Attrs) : Out Op :=
  if type = "Linear" then do
    let u ← getInt (← attrAt attrs "units")
    pure (.linear u)
  else if type = "ReLU" then pure .relu
  else if type = "BatchNorm1D" then do
    let e ← getFloat (← attrAt attrs "eps")
    let a ← getFloat (← attrAt attrs "alpha")
    pure (.batchNorm1D e a)
  else if type = "Softmax" then pure .softmax
  else if type = "MaxPooling" then do
    let k ← getInts (← attrAt attrs "kernel")
    let p ← getInts (← attrAt attrs "padding")
    let s ← getInts (← attrAt attrs "stride")
    pure (.maxPooling k p s)
  else if type = "Convolution" then do
    let c ← getInt (← attrAt attrs "out_channels")
    let k ← getInts (← attrAt attrs "kernel")
    let p ← getInts (← attrAt attrs "padding")
    let s ← getInts (← attrAt attrs "stride")
    pure (.convolution c k p s)
  else if type = "ELU" then do
    let a ← getFloat (← attrAt attrs "alpha")
    pure (.elu a)
  else if type = "LeakyReLU" then do
    let a ← getFloat (← attrAt attrs "alpha")
    pure (.leakyReLU a)
  else if type = "Sigmoid" then pure .sigmoid
  else if type = "Dropout" then do
    let p ← getFloat (← attrAt attrs "p")
    pure (.dropout p)
  else if type = "BatchNorm2D" then do
    let e ← getFloat (← attrAt attrs "eps")
    let a ← getFloat (← attrAt attrs "alpha")
    pure (.batchNorm2D e a)
  else if type = "GlobalAvgPooling" then pure .globalAvgPooling
  else if type = "Add" then pure .add
  else .throw .dw

/-! ### Shape inference -/

/-- C++ `int` division: truncating, undefined for a zero divisor. -/
def cdiv (a b : Int) : Out Int := if b = 0 then .ub .divZero else .ok (a.tdiv b)

/-- `(in + 2*padding - kernel) / stride + 1` (src/expression/nn.cpp:221-222, :258-259). -/
def windowOut (size kernel padding stride : Int) : Out Int := do
  let q ← cdiv (size + 2 * padding - kernel) stride
  pure (q + 1)

/-- `outShape` of every layer class (src/expression/nn.cpp:156-334). The argument list has
`numIn` shapes. -/
def outShape (op : Op) (ins : List Shape) : Out Shape :=
  match op, ins with
  | .linear units, [s] => do
    Out.check (s.length != 1)
    let n ← Out.idx s 0
    pure [n, units]
  | .maxPooling k p st, [s] => do
    Out.check (s.length == 4)
    let h ← windowOut (← Out.idx s 2) k.1 p.1 st.1
    let w ← windowOut (← Out.idx s 3) k.2 p.2 st.2
    pure [← Out.idx s 0, ← Out.idx s 1, h, w]
  | .convolution c k p st, [s] => do
    Out.check (s.length == 4)
    let h ← windowOut (← Out.idx s 2) k.1 p.1 st.1
    let w ← windowOut (← Out.idx s 3) k.2 p.2 st.2
    pure [← Out.idx s 0, c, h, w]
  | .globalAvgPooling, [s] => do
    Out.check (s.length == 4)
    pure [← Out.idx s 0, ← Out.idx s 1, 1, 1]
  | .batchNorm2D _ _, [s] => do
    Out.check (s.length == 4)
    pure s
  | .add, [a, b] => if a = b then pure a else .throw .dw
  | .relu, [s] | .softmax, [s] | .batchNorm1D _ _, [s] | .elu _, [s] | .leakyReLU _, [s]
  | .sigmoid, [s] | .dropout _, [s] => pure s
  | _, _ => .ub .oob

/-- Constructing a tensor of this shape (`Tensor::zeros/constant`): throws on a negative dimension,
overflow of the element count is undefined. -/
def tensorShapeOk (s : Shape) : Out Unit := do
  Out.check (!Tensor.hasNegative s)
  let _ ← Tensor.accProd s
  pure ()

/-- `Tensor::xavierUniform(shape)`: as above, then the feature counts are computed. -/
def xavierShapeOk (s : Shape) : Out Unit := do
  Out.check (!Tensor.hasNegative s)
  let n ← Tensor.accProd s
  let _ ← Initializer.features s n.toNat
  pure ()

/-- A `Parameter` inside `LayerInfo::Impl::params`: shape of its data (and gradient) tensor and the
trainable flag (src/model/parameter.cpp:4-15, default `true`). -/
structure Param where
  shape : Shape
  trainable : Bool := true
  deriving DecidableEq, Repr

/-- Parameters and buffers `init` wants to emplace, in order (src/expression/nn.cpp:143-154,
:184-190, :238-249, :285-287, :308-314). `in_shape.begin() + 1` of an empty shape and `in_shape[1]`
of a short one are undefined. -/
def initEntries (op : Op) (ins : List Shape) : Out (List (String × Shape) × List (String × Shape)) :=
  match op, ins with
  | .linear units, [s] => do
    let second ← match s with
      | [] => .ub .oob
      | _ :: rest => Tensor.accProd rest
    xavierShapeOk [units, second]
    tensorShapeOk [units]
    pure ([("weight", [units, second]), ("bias", [units])], [])
  | .batchNorm1D _ _, [s] | .batchNorm2D _ _, [s] => do
    let c ← Out.idx s 1
    tensorShapeOk [c]
    pure ([("gamma", [c]), ("beta", [c])], [("running_mean", [c]), ("running_var", [c])])
  | .convolution oc k _ _, [s] => do
    let c ← Out.idx s 1
    xavierShapeOk [oc, c, k.1, k.2]
    tensorShapeOk [oc]
    pure ([("weight", [oc, c, k.1, k.2]), ("bias", [oc])], [])
  | .dropout _, [s] => do
    tensorShapeOk s
    pure ([("mask", s)], [])
  | _, _ => pure ([], [])

/-! ### Expressions -/

/-- `Placeholder::Impl` (src/expression/placeholder_impl.hpp): its shape and the call producing it.
`port` is always 0 (src/expression/call.cpp:15-17) and omitted. -/
structure PhImpl where
  shape : Shape
  call : Option Nat
  deriving DecidableEq, Repr

/-- `Call::Impl` (src/expression/call_impl.hpp). -/
structure CallImpl where
  info : Nat
  args : List Nat
  deriving DecidableEq, Repr

/-- `LayerInfo::Impl` (include/deepworks/layer_info.hpp:90-96); `op` stands for `type` and `attrs`. -/
structure InfoImpl where
  name : String
  op : Op
  params : List (String × Param) := []
  buffers : List (String × Shape) := []
  deriving DecidableEq, Repr

/-- Every expression object created so far. -/
structure Expr where
  phs : List PhImpl := []
  calls : List CallImpl := []
  infos : List InfoImpl := []
  deriving DecidableEq, Repr

/-- `map.emplace(key, value)`: keeps an existing entry. -/
def emplace {β : Type} (m : List (String × β)) (k : String) (v : β) : List (String × β) :=
  if (m.lookup k).isSome then m else m ++ [(k, v)]

namespace Expr

/-- `Placeholder(shape)` (src/expression/placeholder.cpp:12-14). -/
def placeholder (shape : Shape) : M Expr Nat := fun e =>
  (.ok e.phs.length, { e with phs := e.phs ++ [⟨shape, none⟩] })

/-- A layer constructor, e.g. `Linear(units, name)` (src/expression/nn.cpp:16-19 etc.). -/
def layer (op : Op) (name : String) : M Expr Nat := fun e =>
  (.ok e.infos.length, { e with infos := e.infos ++ [{ name := name, op := op }] })

/-- `D::init(shapes...)` on the shared layer info. -/
def initLayer (i : Nat) (shapes : List Shape) : M Expr Unit := fun e =>
  match e.infos[i]? with
  | none => (.ub .null, e)
  | some inf =>
    match initEntries inf.op shapes with
    | .throw x => (.throw x, e)
    | .ub u => (.ub u, e)
    | .ok (ps, bs) =>
      let inf' := { inf with
        params := ps.foldl (fun m p => emplace m p.1 ({ shape := p.2 } : Param)) inf.params
        buffers := bs.foldl (fun m b => emplace m b.1 b.2) inf.buffers }
      (.ok (), { e with infos := e.infos.set i inf' })

/-- Shapes of placeholders. -/
def shapes (e : Expr) (phs : List Nat) : Out (List Shape) :=
  phs.mapM fun p => do pure (← Out.idx e.phs p).shape

/-- `BaseOp::operator()` (include/deepworks/base_op.hpp:34-41, vector form :44-50): run `init`, then
`outShape`, then create the call and its placeholder. Only the first `numIn` inputs are used;
too few are undefined. -/
def apply (i : Nat) (ins : List Nat) : M Expr Nat := do
  let e ← M.get
  let inf ← M.lift (Out.idx e.infos i)
  let args ← M.lift ((List.range inf.op.numIn).mapM fun k => Out.idx ins k)
  let shs ← M.lift (e.shapes args)
  initLayer i shs
  let out ← M.lift (outShape inf.op shs)
  let e ← M.get
  M.set { e with
    calls := e.calls ++ [⟨i, args⟩]
    phs := e.phs ++ [⟨out, some e.calls.length⟩] }
  pure e.phs.length

/-- `make_layer(type, name, attrs, inputs)` (src/expression/nn.cpp:53-141). -/
def makeLayer (type name : String) (attrs : Attrs) (ins : List Nat) : M Expr Nat := do
  let op ← M.lift (makeOp type attrs)
  let i ← layer op name
  apply i ins

end Expr

end DW
