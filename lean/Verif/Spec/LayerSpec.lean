import Verif.Spec.LayerFn
import Verif.Spec.Contract
/-!
# Which function a layer stands for

`Computes real t op ishape o P fn θ exact`: the layer `op` with the tensors `t`, applied to tensors of the shapes
`ishape`, computes `fn r θ` into a tensor of shape `o`. Here `θ` are the numbers in its `P` parameters and `r` the
random numbers it draws. `exact` tells whether the gradients it computes are those of `fn`; where they are not is shown
in `Verif.Props.Elementwise` (dropout) and `Verif.Props.BatchNorm` (evaluation mode).

The conditions are those the layer needs: tensors of the shapes `init` creates (C12), an input of the rank the
layer is for, divisors that are not 0, and element counts that fit into `int`.
-/

set_option autoImplicit false

namespace DW

/-- The layers that write the gradient of their input instead of adding to it. -/
def Op.overwrites : Op → Bool
  | .batchNorm2D _ _ => true
  | _ => false

end DW

namespace DW.Spec

open DW DW.MatL DW.FlatL

/-- Parameter `name` is a tensor of shape `s` with elements `vals`, and its gradient is of the same size. -/
def HasParam (t : InfoTensors) (name : String) (s : Shape) (vals : List ℝ) (train : Bool) : Prop :=
  ∃ g, t.params.lookup name = some ⟨⟨s, vals⟩, ⟨s, g⟩, train⟩ ∧ g.length = vals.length

/-- Buffer `name` is a tensor of shape `s` with elements `vals`. -/
def HasBuffer (t : InfoTensors) (name : String) (s : Shape) (vals : List ℝ) : Prop :=
  t.buffers.lookup name = some ⟨s, vals⟩

/-- A direction of a window operation as the layers use it. -/
structure Axis.Plain (a : Axis) : Prop where
  valid : a.Valid
  dil : a.dil = 1
  kernel : 0 < a.kernel

theorem size_pooled (N C : Nat) : size [(N : Int), C, 1, 1] = N * C := by
  have := size_img N C 1 1
  simpa using this

noncomputable section

/-- Layers with one argument. -/
inductive Computes1 (real : F32 → ℝ) (t : InfoTensors) : Op → (s o : Shape) → (P : Nat) →
    ((Nat → ℝ) → (Fin P → ℝ) → Elems s → Elems o) → (Fin P → ℝ) → Prop → Prop
  | relu (s : Shape) (θ : Fin 0 → ℝ) : Computes1 real t .relu s s 0 (fun _ => mapFn s Spec.relu) θ True
  | leakyReLU (alpha : F32) (s : Shape) (θ : Fin 0 → ℝ) :
    Computes1 real t (.leakyReLU alpha) s s 0 (fun _ => mapFn s (leakyRelu (real alpha))) θ True
  | elu (alpha : F32) (s : Shape) (θ : Fin 0 → ℝ) :
    Computes1 real t (.elu alpha) s s 0 (fun _ => mapFn s (Spec.elu (real alpha))) θ True
  | sigmoid (s : Shape) (θ : Fin 0 → ℝ) : Computes1 real t .sigmoid s s 0 (fun _ => mapFn s Spec.sigmoid) θ True
  | softmax {B n : Nat} (hn : 0 < n) (θ : Fin 0 → ℝ) :
    Computes1 real t .softmax [(B : Int), n] [(B : Int), n] 0 (fun _ => softmaxFn (size_mat B n)) θ True
  | linear {B n u : Nat} {rest : Shape} (hne : rest ≠ []) (hs : Static rest) (hf : CountFits rest) (hc : count rest = n)
      (θ : Fin (u * n + u) → ℝ) {tw tb : Bool} (hw : HasParam t "weight" [u, n] (rowMajor (weightOf θ)) tw)
      (hb : HasParam t "bias" [u] (List.ofFn (biasOf θ)) tb) :
    Computes1 real t (.linear u) ((B : Int) :: rest) [(B : Int), u] (u * n + u)
      (fun _ => linearFn (size_cons hc) (size_mat B u)) θ True
  | batchNorm1D {B n : Nat} (eps alpha : F32) (heps : 0 < real eps) (hn : CountFits [(n : Int)])
      (hf : CountFits [(B : Int), n]) (θ : Fin (n + n) → ℝ) (mu var : Fin n → ℝ)
      (hg : HasParam t "gamma" [n] (List.ofFn (gammaOf θ)) true) (hb : HasParam t "beta" [n] (List.ofFn (betaOf θ)) true)
      (hm : HasBuffer t "running_mean" [n] (List.ofFn mu)) (hv : HasBuffer t "running_var" [n] (List.ofFn var)) :
    Computes1 real t (.batchNorm1D eps alpha) [(B : Int), n] [(B : Int), n] (n + n)
      (fun _ => batchNormFn (size_mat B n) (real eps)) θ True
  | batchNorm1DEval {B n : Nat} (eps alpha : F32) (heps : 0 < real eps) (hn : CountFits [(n : Int)])
      (hf : CountFits [(B : Int), n]) (θ : Fin (n + n) → ℝ) (mu var : Fin n → ℝ) (hpos : ∀ j, 0 ≤ var j)
      (hg : HasParam t "gamma" [n] (List.ofFn (gammaOf θ)) false) (hb : HasParam t "beta" [n] (List.ofFn (betaOf θ)) false)
      (hm : HasBuffer t "running_mean" [n] (List.ofFn mu)) (hv : HasBuffer t "running_var" [n] (List.ofFn var)) :
    Computes1 real t (.batchNorm1D eps alpha) [(B : Int), n] [(B : Int), n] (n + n)
      (fun _ => normaliseFn (size_mat B n) (real eps) mu var) θ False
  | batchNorm2D {N C H W : Nat} (eps alpha : F32) (heps : 0 < real eps) (hC : C ≠ 0) (hn : CountFits [(C : Int)])
      (hf : CountFits [(N : Int), H, W, C]) (θ : Fin (C + C) → ℝ) (mu var : Fin C → ℝ)
      (hg : HasParam t "gamma" [C] (List.ofFn (gammaOf θ)) true) (hb : HasParam t "beta" [C] (List.ofFn (betaOf θ)) true)
      (hm : HasBuffer t "running_mean" [C] (List.ofFn mu)) (hv : HasBuffer t "running_var" [C] (List.ofFn var)) :
    Computes1 real t (.batchNorm2D eps alpha) [(N : Int), C, H, W] [(N : Int), C, H, W] (C + C)
      (fun _ => batchNorm2dFn (size_img N C H W) (real eps)) θ True
  | batchNorm2DEval {N C H W : Nat} (eps alpha : F32) (heps : 0 < real eps) (hC : C ≠ 0) (hn : CountFits [(C : Int)])
      (hf : CountFits [(N : Int), H, W, C]) (θ : Fin (C + C) → ℝ) (mu var : Fin C → ℝ) (hpos : ∀ j, 0 ≤ var j)
      (hg : HasParam t "gamma" [C] (List.ofFn (gammaOf θ)) false) (hb : HasParam t "beta" [C] (List.ofFn (betaOf θ)) false)
      (hm : HasBuffer t "running_mean" [C] (List.ofFn mu)) (hv : HasBuffer t "running_var" [C] (List.ofFn var)) :
    Computes1 real t (.batchNorm2D eps alpha) [(N : Int), C, H, W] [(N : Int), C, H, W] (C + C)
      (fun _ => normalise2dFn (size_img N C H W) (real eps) mu var) θ False
  | globalAvgPooling {N C H W : Nat} (hH : 0 < H) (hW : 0 < W) (θ : Fin 0 → ℝ) :
    Computes1 real t .globalAvgPooling [(N : Int), C, H, W] [(N : Int), C, 1, 1] 0
      (fun _ => gapFn (size_img N C H W) (size_pooled N C)) θ True
  | dropout (p : F32) (hp : real p < 1) (s : Shape) {sm : Shape} (m : Elems s) (hm : HasParam t "mask" sm (List.ofFn m) true)
      (θ : Fin 0 → ℝ) :
    Computes1 real t (.dropout p) s s 0 (fun r => dropFn s (real p) r) θ (real p = 0)
  | dropoutEval (p : F32) (s : Shape) (hs : size s ≠ 0) {sm : Shape} (m : Elems s)
      (hm : HasParam t "mask" sm (List.ofFn m) false) (θ : Fin 0 → ℝ) :
    Computes1 real t (.dropout p) s s 0 (fun _ => idFn s) θ (∀ i, real p ≤ m i)
  | convolution {N C O : Nat} {a b : Axis} (ha : a.Plain) (hb : b.Plain)
      (hf : N * (C * a.kernel * b.kernel * (a.out * b.out)) ≤ 2147483647)
      (hpos : 0 < N * (C * a.kernel * b.kernel * (a.out * b.out))) (θ : Fin (O * (C * (a.kernel * b.kernel)) + O) → ℝ)
      {tw tb : Bool} (hw : HasParam t "weight" [O, C, a.kernel, b.kernel] (flat4 (kernelOf θ)) tw)
      (hbias : HasParam t "bias" [O] (List.ofFn (shiftOf θ)) tb) :
    Computes1 real t (.convolution O (a.kernel, b.kernel) (a.pad, b.pad) (a.stride, b.stride))
      [(N : Int), C, a.size, b.size] [(N : Int), O, a.out, b.out] (O * (C * (a.kernel * b.kernel)) + O)
      (fun _ => convFn a b (size_img N C a.size b.size) (size_img N O a.out b.out)) θ True
  | maxPooling {N C : Nat} {a b : Axis} (ha : a.Plain) (hb : b.Plain) (hf : CountFits [(N : Int), C, a.out, b.out])
      (hf' : a.kernel * b.kernel * (a.out * b.out) ≤ 2147483647) (θ : Fin 0 → ℝ) :
    Computes1 real t (.maxPooling (a.kernel, b.kernel) (a.pad, b.pad) (a.stride, b.stride))
      [(N : Int), C, a.size, b.size] [(N : Int), C, a.out, b.out] 0
      (fun _ => poolFn a b (size_img N C a.size b.size) (size_img N C a.out b.out)) θ True

/-- The elements of a tensor, whose shape is also `s'`. -/
def recast {s s' : Shape} (h : s = s') (u : Elems s) : Elems s' := fun i => u (Fin.cast (by rw [h]) i)

/-- All layers. `n` is the number of arguments. -/
inductive Computes (real : F32 → ℝ) (t : InfoTensors) : Op → {n : Nat} → (ishape : Fin n → Shape) → (o : Shape) → (P : Nat) →
    ((Nat → ℝ) → (Fin P → ℝ) → Args ishape → Elems o) → (Fin P → ℝ) → Prop → Prop
  | one {op : Op} {n : Nat} {ishape : Fin n → Shape} {s o o' : Shape} {P : Nat}
      {f : (Nat → ℝ) → (Fin P → ℝ) → Elems s → Elems o'} {θ : Fin P → ℝ} {exact : Prop} (hn : n = 1)
      (hs : ishape ⟨0, by omega⟩ = s) (ho : o' = o) (h : Computes1 real t op s o' P f θ exact) :
    Computes real t op ishape o P (fun r θ X => recast ho (f r θ (recast hs (X ⟨0, by omega⟩)))) θ exact
  | add {n : Nat} {ishape : Fin n → Shape} {o : Shape} (hn : n = 2) (h0 : ishape ⟨0, by omega⟩ = o)
      (h1 : ishape ⟨1, by omega⟩ = o) (θ : Fin 0 → ℝ) :
    Computes real t .add ishape o 0 (fun _ _ X i => recast h0 (X ⟨0, by omega⟩) i + recast h1 (X ⟨1, by omega⟩) i) θ True

/-- No parameter is trainable. -/
def Frozen (t : InfoTensors) : Prop := ∀ name p, t.params.lookup name = some p → p.trainable = false

/-- The running variances start non-negative, and a convex combination updates them. -/
def GoodVar (real : F32 → ℝ) (t : InfoTensors) : Op → Prop
  | .batchNorm1D _ alpha | .batchNorm2D _ alpha => 0 ≤ real alpha ∧ real alpha ≤ 1 ∧
    ∀ b, t.buffers.lookup "running_var" = some b → ∀ v ∈ b.vals, 0 ≤ v
  | _ => True

/-- The conditions under which dropout works in both modes. -/
def DropOk (real : F32 → ℝ) (op : Op) (o : Shape) : Prop := ∀ p, op = .dropout p → real p < 1 ∧ size o ≠ 0

end

end DW.Spec
