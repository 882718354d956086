import Verif.Spec.Backend
import Verif.Spec.LayerSpec
/-!
# Using a compiled model

A model made with the public API, the functions its layers stand for, and the histories of calls a program can make
on it after `compile`: allocating and changing tensors of its own, `forward`, `backward`, switching between training
and evaluation, changing parameters, their gradients and buffers.
-/

set_option autoImplicit false

namespace DW.Spec

open DW

/-- The functions of the layers, by the placeholder they compute: number of parameters, function, and whether the
layer computes exact gradients. The first argument of the function are the random numbers it draws. -/
structure Layers (e : Expr) where
  params : Nat → Nat
  fn : (x : Nat) → (Nat → ℝ) → (Fin (params x) → ℝ) → Args (fun j : Fin (e.argsOf x).length => phShape e (e.argsOf x)[j]) →
    Elems (phShape e x)
  exact : Nat → Prop

/-- A value for each placeholder. -/
abbrev Vals (e : Expr) := (x : Nat) → Elems (phShape e x)

/-- Values of all parameters. -/
abbrev Layers.Params {e : Expr} (L : Layers e) := (x : Nat) → Fin (L.params x) → ℝ

/-- For each layer, what it passes back to its arguments, given the gradient of its result. -/
abbrev Backs (e : Expr) := (x : Nat) → Elems (phShape e x) →
  Args (fun j : Fin (e.argsOf x).length => phShape e (e.argsOf x)[j])

/-- For each layer, the gradient of its parameters, given the gradient of its result. -/
abbrev Layers.ParamBacks {e : Expr} (L : Layers e) := (x : Nat) → Elems (phShape e x) → Fin (L.params x) → ℝ

/-- The random numbers of the layer that computes `x`. -/
def rngOf (e : Expr) (env : Nat → Env) (x : Nat) : Nat → ℝ :=
  match e.callOf x with
  | some c => (env c).rng
  | none => fun _ => 0

/-- The network. -/
abbrev Layers.net {e : Expr} (L : Layers e) (m : Model) (env : Nat → Env) : Net :=
  netOf e m L.params fun x => L.fn x (rngOf e env x)

/-- `m` is the model constructed from the expressions `e` with inputs `ins` and outputs `outs`, `tensors` are the
parameters and buffers of its layers, and its layers compute `L` with parameters `θ`. -/
structure Built (topo : Graph → List Node) (e : Expr) (ins outs : List Nat) (m : Model) (real : F32 → ℝ)
    (tensors : Nat → InfoTensors) (L : Layers e) (θ : L.Params) : Prop where
  reachable : Reachable e
  sorts : SortsCorrectly topo e ins outs
  ctor : ∃ e', modelCtor topo ins outs e = (.ok m, e')
  orderly : Orderly e outs
  sound : Sound e m ins outs
  shapes : ∀ y ∈ dataOf m, y ∉ outs → Static (phShape e y) ∧ CountFits (phShape e y)
  layers : ∀ x ∈ dataOf m, ∀ c, e.callOf x = some c →
    Computes real (tensors (e.callInfo c)) (infoOf e (e.callInfo c)).op
      (fun j : Fin (e.argsOf x).length => phShape e (e.argsOf x)[j]) (phShape e x) (L.params x) (L.fn x) (θ x) (L.exact x)

/-- Tensors that may be passed to `forward`: of the right shapes, the caller's own, and the outputs distinct from each
other and from the inputs. -/
structure FwdArgs (e : Expr) (m : Model) (ins outs : List Nat) (w : World) (b : Backend) (it ot : List Nat) : Prop where
  backend : w.backend = some b
  givenIns : Given e m w b ins it
  givenOuts : Given e m w b outs ot
  nodup : ot.Nodup
  disjoint : ∀ h ∈ ot, h ∉ it

/-- Tensors that may be passed to `backward` after a `forward` with values `v`: inputs and outputs as they were then,
and distinct tensors with the gradients `gout` of the outputs. -/
structure BwdArgs (e : Expr) (m : Model) (ins outs : List Nat) (w : World) (b : Backend) (it ot gt : List Nat)
    (v gout : Vals e) : Prop where
  backend : w.backend = some b
  givenIns : Given e m w b ins it
  insHold : Carry e w ins it v
  givenOuts : Given e m w b outs ot
  outsHold : Carry e w outs ot v
  givenGrads : Given e m w b outs gt
  gradsHold : Carry e w outs gt gout
  nodup : gt.Nodup
  disjoint : ∀ h ∈ gt, h ∉ it ∧ h ∉ ot

/-- The layers that write the gradient of their input instead of adding to it (`BatchNorm2D`). -/
def writesOver (e : Expr) (x : Nat) : Prop :=
  ∃ c, e.callOf x = some c ∧ (infoOf e (e.callInfo c)).op.overwrites = true

/-- The input of a layer that writes the gradient of its input instead of adding to it is not used elsewhere. -/
def SoleConsumer (e : Expr) (m : Model) (outs : List Nat) : Prop :=
  ∀ x y, Replaces (writesOver e) e m x y → y ∉ outs ∧ ∀ x' ∈ dataOf m, y ∈ e.argsOf x' → x' = x

/-- `b'` differs from `b` in the layer objects only, `f x` having been done to the one that computes `x`. -/
structure ChangedLayers (e : Expr) (m : Model) (b b' : Backend) (f : Nat → Cpu → Cpu) : Prop where
  mem : b'.mem = b.mem
  grad : b'.grad = b.grad
  length : b'.layers.length = b.layers.length
  layer : ∀ x ∈ dataOf m, ∀ l, layerAt e m b x = some l → layerAt e m b' x = some (f x l)

/-- Let the layer object that computes `x` have the tensors `tensors` says. -/
noncomputable def giveAt (e : Expr) (tensors : Nat → InfoTensors) (x : Nat) (l : Cpu) : Cpu :=
  match e.callOf x with
  | some c => l.give (tensors (e.callInfo c))
  | none => l

/-- What can have happened since `compile`: `History … tensors L θ₀ θ last w` says that in state `w` the layers compute `L`,
the parameters are `θ`, and `last` is the last `forward` that is still the basis for `backward`: the circumstances, and the
values of all placeholders. When `compile` was called, or at the last `change` since, the tensors of the layers were
`tensors`, with parameters `θ₀`. The calls need not return normally here, that they do is a theorem.

`change` is any change of the tensors of the layers: of `is_trainable()`, as by `train`, of parameters, or of buffers, as by
loading them. The layers may then compute other functions. -/
inductive History (e : Expr) (ins outs : List Nat) (m : Model) (real : F32 → ℝ) : (tensors : Nat → InfoTensors) → (L : Layers e) →
    L.Params → L.Params → Option ((Nat → Env) × Vals e) → World → Prop
  | compile {tensors L θ₀} (junk : Nat → ℝ) (w : World) :
    History e ins outs m real tensors L θ₀ θ₀ none (m.compile e real junk tensors w).2
  | alloc {tensors L θ₀ θ last w} (t : Buf) : History e ins outs m real tensors L θ₀ θ last w →
    History e ins outs m real tensors L θ₀ θ last { w with store := w.store ++ [t] }
  | write {tensors L θ₀ θ last w b} (h : Nat) (t : Buf) : History e ins outs m real tensors L θ₀ θ last w → w.backend = some b →
    h ∉ privates m b → History e ins outs m real tensors L θ₀ θ last { w with store := w.store.set h t }
  | setGrads {tensors L θ₀ θ last w b b'} (g : Nat → Cpu → List ℝ) : History e ins outs m real tensors L θ₀ θ last w →
    w.backend = some b → (∀ x l, (g x l).length = l.grads.length) → ChangedLayers e m b b' (fun x l => l.setGrads (g x l)) →
    History e ins outs m real tensors L θ₀ θ last { w with backend := some b' }
  | setParams {tensors L θ₀ θ last w b b'} (θ' : L.Params) : History e ins outs m real tensors L θ₀ θ last w →
    w.backend = some b → ChangedLayers e m b b' (fun x l => l.setParams (List.ofFn (θ' x))) →
    History e ins outs m real tensors L θ₀ θ' none { w with backend := some b' }
  | change {tensors L θ₀ θ last w b b' tensors' L' θ' topo} : Built topo e ins outs m real tensors L θ₀ →
    History e ins outs m real tensors L θ₀ θ last w → w.backend = some b → ChangedLayers e m b b' (giveAt e tensors') →
    History e ins outs m real tensors' L' θ' θ' none { w with backend := some b' }
  | forward {tensors L θ₀ θ last w b} (env : Nat → Env) (it ot : List Nat) (v : Vals e) :
    History e ins outs m real tensors L θ₀ θ last w →
    FwdArgs e m ins outs w b it ot → (∀ c, IsPick (env c).pick) → (L.net m env).Evaluates θ v → Carry e w ins it v →
    History e ins outs m real tensors L θ₀ θ (some (env, v)) (m.forward env it ot w).2
  | backward {tensors L θ₀ θ env v w b} (env' : Nat → Env) (it ot gt : List Nat) (gout : Vals e) :
    History e ins outs m real tensors L θ₀ θ (some (env, v)) w → BwdArgs e m ins outs w b it ot gt v gout →
    History e ins outs m real tensors L θ₀ θ (some (env, v)) (m.backward env' it ot gt w).2

/-- After `Model::train(mode)`. -/
noncomputable def trained (mode : Bool) (w : World) : World :=
  { w with backend := w.backend.map fun b => { b with layers := b.layers.map (Cpu.train mode) } }

/-- Run alone, the layer object passes back `bk g`. -/
def PassesBack {n : Nat} {ishape : Fin n → Shape} {o : Shape} (l : Cpu) (X : Args ishape) (y : Elems o)
    (bk : Elems o → Args ishape) : Prop :=
  ∀ (env : Env) (g : Elems o), ∃ l', l.backward env (bufs X) [⟨o, List.ofFn y⟩] [⟨o, List.ofFn g⟩] (List.range n)
    (bufs (0 : Args ishape)) = .ok (l', bufs (bk g))

/-- Run alone, the layer object stores `pk g` in the `grad()` tensors of its parameters. -/
def StoresGrads {n : Nat} {ishape : Fin n → Shape} {o : Shape} {P : Nat} (l : Cpu) (X : Args ishape)
    (pk : Elems o → Fin P → ℝ) : Prop :=
  ∀ g : Elems o, ∃ l', l.updateGradients (bufs X) [⟨o, List.ofFn g⟩] = .ok l' ∧ l'.grads = List.ofFn (pk g)

end DW.Spec
