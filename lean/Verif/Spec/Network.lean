import Mathlib.Algebra.BigOperators.Fin
import Verif.Spec.Tensor
import Verif.Spec.Graph
import Verif.Spec.Deriv
/-!
# Networks as functions

A network is a set of placeholders, some of which are made by applying a function to others. Tensors are vectors with
one entry for each element.
-/

set_option autoImplicit false

namespace DW.Spec

open DW

/-- Number of elements of a tensor of this shape. -/
def size (s : Shape) : Nat := (count s).toNat

/-- The elements of a tensor of this shape. -/
abbrev Elems (s : Shape) := Fin (size s) → ℝ

/-- Element number `k`, 0 beyond the end. -/
def entry {s : Shape} (u : Elems s) (k : Nat) : ℝ := if h : k < size s then u ⟨k, h⟩ else 0

/-- Arguments of a function of several tensors. -/
abbrev Args {n : Nat} (ishape : Fin n → Shape) := (j : Fin n) → Elems (ishape j)

/-- `bk` back-propagates through the function `f` of several tensors at `X`: `f` is differentiable there, and `bk g` is the
gradient of `sum_k g_k f_k`, for each argument. -/
def BackpropN {n : Nat} {ishape : Fin n → Shape} {oshape : Shape} (f : Args ishape → Elems oshape) (X : Args ishape)
    (bk : Elems oshape → Args ishape) : Prop :=
  ∃ J : Args ishape →L[ℝ] Elems oshape, HasFDerivAt f J X ∧
    ∀ (g : Elems oshape) (V : Args ishape), ∑ k, g k * J V k = ∑ j, ∑ i, bk g j i * V j i

/-- `g` is the gradient of `f` at `x`. -/
def IsGradient {ι : Type} [Fintype ι] (f : (ι → ℝ) → ℝ) (x g : ι → ℝ) : Prop :=
  ∃ J : (ι → ℝ) →L[ℝ] ℝ, HasFDerivAt f J x ∧ ∀ v, J v = ∑ i, g i * v i

/-- A network. Placeholder `x` of `made` is the result of a function of the placeholders `args x`; the function has
`params x` numbers as parameters. -/
structure Net where
  shape : Nat → Shape
  made : Finset Nat
  args : Nat → List Nat
  params : Nat → Nat
  fn : (x : Nat) → (Fin (params x) → ℝ) → Args (fun j : Fin (args x).length => shape (args x)[j]) → Elems (shape x)

namespace Net

/-- A value for each placeholder. -/
abbrev Val (N : Net) := (x : Nat) → Elems (N.shape x)

/-- Parameters for each made placeholder. -/
abbrev Params (N : Net) := (x : Nat) → Fin (N.params x) → ℝ

/-- The values of the arguments of `x`. -/
def inputs (N : Net) (v : N.Val) (x : Nat) : Args (fun j : Fin (N.args x).length => N.shape (N.args x)[j]) :=
  fun j => v (N.args x)[j]

/-- `v` evaluates the network: every made placeholder is its function applied to the values of its arguments. -/
def Evaluates (N : Net) (θ : N.Params) (v : N.Val) : Prop :=
  ∀ x ∈ N.made, v x = N.fn x (θ x) (N.inputs v x)

/-- The sum, over all uses of placeholder `y` as argument `j` of a made placeholder `x`, of the gradient that the
function of `x` passes back to argument `j` when its result has gradient `G x`. -/
def received (N : Net)
    (bk : (x : Nat) → Elems (N.shape x) → Args (fun j : Fin (N.args x).length => N.shape (N.args x)[j]))
    (G : N.Val) (y : Nat) (i : Nat) : ℝ :=
  ∑ x ∈ N.made, ∑ j : Fin (N.args x).length, if (N.args x)[j] = y then entry (bk x (G x) j) i else 0

/-- `G` gives every placeholder its own gradient `base` plus what it receives from its uses. -/
def Accumulates (N : Net)
    (bk : (x : Nat) → Elems (N.shape x) → Args (fun j : Fin (N.args x).length => N.shape (N.args x)[j]))
    (base G : N.Val) (y : Nat) : Prop :=
  ∀ i, G y i = base y i + N.received bk G y i

/-- What the placeholders are worth when placeholder `x` is given the value `p t`: the equations of the other made
placeholders hold, and the other given placeholders keep the values `v`. -/
structure Varies (N : Net) (θ : N.Params) (v : N.Val) (x : Nat) {T : Type} (p : T → Elems (N.shape x)) (W : T → N.Val) :
    Prop where
  at_x : ∀ t, W t x = p t
  made : ∀ t, ∀ y ∈ N.made, y ≠ x → W t y = N.fn y (θ y) (N.inputs (W t) y)
  given : ∀ t y, y ∉ N.made → y ≠ x → W t y = v y

/-- `<gout, outputs>`. -/
def loss (N : Net) (outs : Finset Nat) (gout v : N.Val) : ℝ := ∑ o ∈ outs, ∑ i, gout o i * v o i

end Net

/-- The network of the model `m` built from the expressions `e`: its placeholders are those taking part in the model,
and each result of an application is made from the arguments of the application. -/
abbrev netOf (e : Expr) (m : Model) (params : Nat → Nat)
    (fn : (x : Nat) → (Fin (params x) → ℝ) → Args (fun j : Fin (e.argsOf x).length => phShape e (e.argsOf x)[j]) →
      Elems (phShape e x)) : Net where
  shape := phShape e
  made := ((sortedData m.sorted).filter fun x => (e.callOf x).isSome).toFinset
  args := e.argsOf
  params := params
  fn := fn

end DW.Spec
