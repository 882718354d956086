import Verif.Spec.LayerSpec
import Verif.Spec.History
/-!
# Models whose layers fit their inputs

Conditions on shapes and constructor arguments under which a layer of the public API computes what it should.
-/

set_option autoImplicit false

namespace DW.Spec

open DW

/-- A window operation in one direction: the kernel and the stride are positive, the padding is not negative. -/
def WindowFits (kernel padding stride : Int) : Prop := 0 < kernel ∧ 0 ≤ padding ∧ 0 < stride

/-- The shapes `shs` of the arguments, and the shape `o` of the result, are such that the layer works. -/
def Fits (real : F32 → ℝ) (op : Op) (shs : List Shape) (o : Shape) : Prop :=
  match op, shs with
  | .softmax, [s] => ∃ B n : Nat, s = [(B : Int), n] ∧ 0 < n
  | .linear u, [s] => 0 ≤ u ∧ ∃ (B : Nat) (rest : Shape), s = (B : Int) :: rest ∧ rest ≠ [] ∧ Static rest ∧ CountFits rest
  | .batchNorm1D eps _, [s] => 0 < real eps ∧ ∃ B n : Nat, s = [(B : Int), n] ∧ CountFits [(n : Int)] ∧ CountFits s
  | .batchNorm2D eps _, [s] => 0 < real eps ∧ ∃ N C H W : Nat, s = [(N : Int), C, H, W] ∧ C ≠ 0 ∧ CountFits [(C : Int)] ∧
      CountFits [(N : Int), H, W, C]
  | .globalAvgPooling, [s] => ∃ N C H W : Nat, s = [(N : Int), C, H, W] ∧ 0 < H ∧ 0 < W
  | .dropout p, [s] => real p < 1 ∧ size s ≠ 0
  | .convolution c k p st, [s] => 0 ≤ c ∧ WindowFits k.1 p.1 st.1 ∧ WindowFits k.2 p.2 st.2 ∧
      ∃ N C H W oh ow : Nat, s = [(N : Int), C, H, W] ∧ o = [(N : Int), c, oh, ow] ∧
        0 < N * (C * k.1.toNat * k.2.toNat * (oh * ow)) ∧ N * (C * k.1.toNat * k.2.toNat * (oh * ow)) ≤ 2147483647
  | .maxPooling k p st, [s] => WindowFits k.1 p.1 st.1 ∧ WindowFits k.2 p.2 st.2 ∧
      ∃ N C H W oh ow : Nat, s = [(N : Int), C, H, W] ∧ o = [(N : Int), C, oh, ow] ∧ CountFits o ∧
        k.1.toNat * k.2.toNat * (oh * ow) ≤ 2147483647
  | _, _ => True

/-- The tensors of the layer have the names and shapes that applying the layer to arguments of shapes `shs` gives them; all
parameters are trainable or none is, and variances are not negative. -/
def TensorsFit (t : InfoTensors) (op : Op) (shs : List Shape) : Prop :=
  ∃ train : Bool, ∀ ps bs, initEntries op shs = .ok (ps, bs) →
    (∀ p ∈ ps, ∃ vals, HasParam t p.1 p.2 vals train ∧ vals.length = size p.2) ∧
    ∀ b ∈ bs, ∃ vals, HasBuffer t b.1 b.2 vals ∧ vals.length = size b.2 ∧ (b.1 = "running_var" → ∀ v ∈ vals, 0 ≤ v)

/-- All layers of the model fit. -/
structure AllFit (e : Expr) (m : Model) (real : F32 → ℝ) (tensors : Nat → InfoTensors) : Prop where
  shapes : ∀ x ∈ dataOf m, ∀ c, e.callOf x = some c →
    Fits real (infoOf e (e.callInfo c)).op ((e.argsOf x).map (phShape e)) (phShape e x)
  tensors : ∀ x ∈ dataOf m, ∀ c, e.callOf x = some c →
    TensorsFit (tensors (e.callInfo c)) (infoOf e (e.callInfo c)).op ((e.argsOf x).map (phShape e))

end DW.Spec
