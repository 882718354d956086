import Verif.Spec.Contract
/-!
# Compiled models and the tensors handed to them
-/

set_option autoImplicit false

namespace DW.Spec

open DW

/-- The tensor the backend uses for a placeholder, and the one for its gradient. -/
def memOf (m : Model) (b : Backend) (y : Nat) : Nat := b.mem.getD (dataId m.sorted y) 0
def gradOf (m : Model) (b : Backend) (y : Nat) : Nat := b.grad.getD (dataId m.sorted y) 0

/-- The placeholders of the model. -/
def dataOf (m : Model) : List Nat := sortedData m.sorted

/-- The placeholders that are neither inputs nor outputs, and those that are no outputs. -/
def internals (m : Model) : List Nat := (dataOf m).filter fun y => m.graph.storage y == .internal
def nonOutputs (m : Model) : List Nat := (dataOf m).filter fun y => m.graph.storage y != .output

/-- The tensors the backend allocated for itself. -/
def privates (m : Model) (b : Backend) : List Nat := (internals m).map (memOf m b) ++ (nonOutputs m).map (gradOf m b)

/-- The tensor `h` has shape `s`. -/
def Room (store : List Buf) (s : Shape) (h : Nat) : Prop := ∃ vals, store[h]? = some ⟨s, vals⟩ ∧ vals.length = size s

/-- The tensor `h` has shape `s` and elements `u`. -/
def Holds (store : List Buf) {s : Shape} (u : Elems s) (h : Nat) : Prop := store[h]? = some ⟨s, List.ofFn u⟩

/-- The backend has its own tensor for each internal placeholder and for each gradient of a placeholder that is no
output, and one object for each layer. -/
structure Compiled (e : Expr) (m : Model) (w : World) (b : Backend) : Prop where
  backend : w.backend = some b
  mem_len : b.mem.length = (dataOf m).length
  grad_len : b.grad.length = (dataOf m).length
  layers_len : b.layers.length = (sortedOps m.sorted).length
  mem : ∀ y ∈ internals m, Room w.store (phShape e y) (memOf m b y)
  grad : ∀ y ∈ nonOutputs m, Room w.store (phShape e y) (gradOf m b y)
  distinct : (privates m b).Nodup

/-- Tensors `hs` of the caller, one for each placeholder of `phs`, of the right shapes. -/
structure Given (e : Expr) (m : Model) (w : World) (b : Backend) (phs hs : List Nat) : Prop where
  length : hs.length = phs.length
  room : ∀ (i y h : Nat), phs[i]? = some y → hs[i]? = some h → Room w.store (phShape e y) h
  outside : ∀ h ∈ hs, h ∉ privates m b

/-- They hold the values `v`. -/
def Carry (e : Expr) (w : World) (phs hs : List Nat) (v : (x : Nat) → Elems (phShape e x)) : Prop :=
  ∀ (i y h : Nat), phs[i]? = some y → hs[i]? = some h → Holds w.store (v y) h

/-- What the caller can still look at is unchanged, except for the tensors `hs`. -/
def Untouched (m : Model) (b : Backend) (w w' : World) (hs : List Nat) : Prop :=
  ∀ h, h ∉ privates m b → h ∉ hs → w'.store[h]? = w.store[h]?

/-- The same tensors are private. -/
def SameOwner (m : Model) (b b' : Backend) : Prop := privates m b' = privates m b

/-- A model whose forward pass is meaningful: the inputs are placeholders no layer computes, all of these are
listed as inputs, outputs are computed by layers, and nothing is listed twice. -/
structure Sound (e : Expr) (m : Model) (ins outs : List Nat) : Prop where
  given : ∀ y ∈ ins, e.callOf y = none
  listed : ∀ y ∈ dataOf m, e.callOf y = none → y ∈ ins
  outputs : ∀ y ∈ outs, (e.callOf y).isSome
  nodup : outs.Nodup
  nodupIns : ins.Nodup

/-- The layer objects of a compiled model, by the placeholder they compute. -/
def layerAt (e : Expr) (m : Model) (b : Backend) (x : Nat) : Option Cpu :=
  (e.callOf x).bind fun c => b.layers[(sortedOps m.sorted).idxOf c]?

/-- Position of the layer that computes a placeholder; `backward` runs the layers from the last to the first. -/
def rankOf (e : Expr) (m : Model) (x : Nat) : Nat := (e.callOf x).elim 0 fun c => (sortedOps m.sorted).idxOf c

/-- The layer that computes `x` replaces the gradient of its argument `y`. -/
def Replaces (ov : Nat → Prop) (e : Expr) (m : Model) (x y : Nat) : Prop :=
  x ∈ dataOf m ∧ (e.callOf x).isSome ∧ ov x ∧ y ∈ e.argsOf x

/-- What the layer that computes `x` passes back to `y` is not lost: no layer that runs later in `backward` replaces the
gradient of `y`. -/
def Survives (ov : Nat → Prop) (e : Expr) (m : Model) (x y : Nat) : Prop :=
  ∀ x', Replaces ov e m x' y → rankOf e m x ≤ rankOf e m x'

open Classical in
/-- What layers pass back, without what is lost. -/
noncomputable def kept (ov : Nat → Prop) (e : Expr) (m : Model)
    (bk : (x : Nat) → Elems (phShape e x) → Args (fun j : Fin (e.argsOf x).length => phShape e (e.argsOf x)[j]))
    (x : Nat) (g : Elems (phShape e x)) : Args (fun j : Fin (e.argsOf x).length => phShape e (e.argsOf x)[j]) :=
  fun j => if Survives ov e m x (e.argsOf x)[j] then bk x g j else 0

open Classical in
/-- The placeholders' own gradients, without those that are lost. -/
noncomputable def keptBase (ov : Nat → Prop) (e : Expr) (m : Model) (base : (x : Nat) → Elems (phShape e x)) (y : Nat) :
    Elems (phShape e y) :=
  if ∃ x, Replaces ov e m x y then 0 else base y

end DW.Spec

namespace DW.Spec

open DW

section

variable {e : Expr} {params : Nat → Nat}
  {fn : (x : Nat) → (Fin (params x) → ℝ) → Args (fun j : Fin (e.argsOf x).length => phShape e (e.argsOf x)[j]) →
      Elems (phShape e x)}
  {θ : (x : Nat) → Fin (params x) → ℝ}
  (K : (x : Nat) → Contract (fun j : Fin (e.argsOf x).length => phShape e (e.argsOf x)[j]) (phShape e x) (params x) (fn x) (θ x))

/-- Every layer object of the model fulfils its contract and may run forward. -/
def LayersReady (m : Model) (b : Backend) : Prop :=
  ∀ x ∈ dataOf m, (e.callOf x).isSome → ∃ l, layerAt e m b x = some l ∧ (K x).Ready l

/-- The model has run forward with the values `v`: its own tensors hold them, and its layers remember them. `bk` and `pk`
are what the layers will pass back and store. -/
structure AfterForward (m : Model) (w : World) (b : Backend) (v : (x : Nat) → Elems (phShape e x))
    (bk : (x : Nat) → Elems (phShape e x) → Args (fun j : Fin (e.argsOf x).length => phShape e (e.argsOf x)[j]))
    (pk : (x : Nat) → Elems (phShape e x) → Fin (params x) → ℝ) : Prop where
  mem : ∀ y ∈ internals m, Holds w.store (v y) (memOf m b y)
  layers : ∀ x ∈ dataOf m, (e.callOf x).isSome → ∃ l, layerAt e m b x = some l ∧
    (K x).After (fun j => v (e.argsOf x)[j]) (bk x) (pk x) l

/-- The gradient tensors of the model hold `G`. -/
def Gradients (m : Model) (w : World) (b : Backend) (G : (x : Nat) → Elems (phShape e x)) : Prop :=
  ∀ y ∈ nonOutputs m, Holds w.store (G y) (gradOf m b y)

variable (e) in
/-- The parameters' gradients are those of layers whose results have gradients `G`. -/
def ParamGradients (m : Model) (b : Backend) (pk : (x : Nat) → Elems (phShape e x) → Fin (params x) → ℝ)
    (G : (x : Nat) → Elems (phShape e x)) : Prop :=
  ∀ x ∈ dataOf m, (e.callOf x).isSome → ∃ l, layerAt e m b x = some l ∧ l.grads = List.ofFn (pk x (G x))

end

end DW.Spec
