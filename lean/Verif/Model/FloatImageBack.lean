import Verif.Model.FloatBack
import Mathlib.Data.Fintype.Prod
import Mathlib.Data.Fintype.Basic
/-!
# Backpropagation through networks on images in `float`, with branches

As `Verif.Model.FloatBack`, for convolutions, pooling and branches joined by `Add`, for a batch of `N` images. Every layer adds to the gradient of its
input, and a tensor with several consumers gets contributions from all of them, in an order that depends on the order of the layers. So the backward
pass of a layer is described by the numbers that it adds to each element.
-/

set_option autoImplicit false

namespace DW.Float

open DW.Spec (Axis)

noncomputable section

/-- The shape of a tensor without the batch. -/
inductive Sh
  | vec (n : ℕ)
  | img (C H W : ℕ)

/-- The indices of a tensor of the shape. -/
@[reducible] def Sh.Ix : Sh → Type
  | .vec n => Fin n
  | .img C H W => Fin C × Fin H × Fin W

/-- A network without batch normalization. -/
inductive ImgNet : Sh → Sh → Type
  | skip {s : Sh} : ImgNet s s
  | act {s : Sh} (a : Act) : ImgNet s s
  | linear {n k : ℕ} (W : Fin k → Fin n → Flt) (b : Fin k → Flt) : ImgNet (.vec n) (.vec k)
  | conv {C O : ℕ} (a b : Axis) (W : Fin O → Fin (C * (a.kernel * b.kernel)) → Flt) (bias : Fin O → Flt) :
    ImgNet (.img C a.size b.size) (.img O a.out b.out)
  | maxPool {C : ℕ} (a b : Axis) : ImgNet (.img C a.size b.size) (.img C a.out b.out)
  | avgPool {C H W : ℕ} : ImgNet (.img C H W) (.vec C)
  | flat {C H W : ℕ} : ImgNet (.img C H W) (.vec (C * (H * W)))
  | seq {s t w : Sh} (f : ImgNet s t) (g : ImgNet t w) : ImgNet s w
  /-- Two branches, joined by `Add`. -/
  | join {s t : Sh} (f g : ImgNet s t) : ImgNet s t

/-- The network of `Verif.Model.FloatImage`, whose forward pass it has. -/
def ImgNet.net : {s t : Sh} → ImgNet s t → Net s.Ix t.Ix
  | _, _, .skip => .skip
  | _, _, .act a => .act a
  | _, _, .linear W b => .linear W b
  | _, _, .conv a b W bias => .conv a b W bias
  | _, _, .maxPool a b => .maxPool a b
  | _, _, .avgPool => .avgPool
  | _, _, .flat => .flat
  | _, _, .seq f g => .seq f.net g.net
  | _, _, .join f g => .join f.net g.net

/-- A tensor for every parameter: the parameters, or their gradients. -/
def Params (K : Type) : {s t : Sh} → ImgNet s t → Type
  | _, _, .skip => Unit
  | _, _, .act _ => Unit
  | _, _, .linear (n := n) (k := k) _ _ => (Fin k → Fin n → K) × (Fin k → K)
  | _, _, .conv (C := C) (O := O) a b _ _ => (Fin O → Fin (C * (a.kernel * b.kernel)) → K) × (Fin O → K)
  | _, _, .maxPool _ _ => Unit
  | _, _, .avgPool => Unit
  | _, _, .flat => Unit
  | _, _, .seq f g => Params K f × Params K g
  | _, _, .join f g => Params K f × Params K g

variable (R : Rounding) (F : Libm R) {N : ℕ}

/-- `s` is what an element holds that was 0 (src/runtime/cpu/cpubackend.cpp:113) after the numbers in `m` have been added to it one after another. -/
def Piled (m : Multiset Flt) (s : Flt) : Prop := ∃ l : List Flt, (l : Multiset Flt) = m ∧ s = l.foldl (add R) 0

/-- Element `t` of the window at position `p` lies at `i` of the image. -/
def Over {C : ℕ} (a b : Axis) (t : Fin (C * (a.kernel * b.kernel))) (p : Fin (a.out * b.out)) (i : Fin C × Fin a.size × Fin b.size) : Prop :=
  t.divNat = i.1 ∧ a.pos p.divNat t.modNat.divNat = i.2.1.val ∧ b.pos p.modNat t.modNat.modNat = i.2.2.val

instance {C : ℕ} (a b : Axis) (t : Fin (C * (a.kernel * b.kernel))) (p : Fin (a.out * b.out)) (i : Fin C × Fin a.size × Fin b.size) :
    Decidable (Over a b t p i) := inferInstanceAs (Decidable (_ ∧ _))

/-- What `col2im` adds to the element `i` of the image (src/runtime/cpu/kernels/kernels.cpp:479-500): the elements of the buffer `S` whose places
in the image are `i`. -/
def col2imFloat {C : ℕ} (a b : Axis) (S : Fin (C * (a.kernel * b.kernel)) → Fin (a.out * b.out) → Flt) (i : Fin C × Fin a.size × Fin b.size) :
    Multiset Flt :=
  (Finset.univ.filter fun z : Fin (C * (a.kernel * b.kernel)) × Fin (a.out * b.out) => Over a b z.1 z.2 i).val.map fun z => S z.1 z.2

/-- `CPUConvolutionalWeightsGrad` and `CPUConvolutionalBiasGrad` (kernels.cpp:155-195): for each image a sum of products, or a sum; these are added up. -/
def ConvGrads {C O : ℕ} (a b : Axis) (X : Fin N → Fin C × Fin a.size × Fin b.size → Flt) (G : Fin N → Fin O × Fin a.out × Fin b.out → Flt)
    (dW : Fin O → Fin (C * (a.kernel * b.kernel)) → Flt) (db : Fin O → Flt) : Prop :=
  (∀ o t, ∃ s : Fin N → Flt, (∀ n, DotOf R (List.ofFn fun p : Fin (a.out * b.out) => (G n (o, p.divNat, p.modNat), patch a b (fun c y x => X n (c, y, x)) 0 p t)) (s n)) ∧
    dW o t = (List.ofFn s).foldl (add R) 0) ∧
  ∀ o, ∃ s : Fin N → Flt, (∀ n, SumOf R (List.ofFn fun p : Fin (a.out * b.out) => G n (o, p.divNat, p.modNat)) (s n)) ∧ db o = (List.ofFn s).foldl (add R) 0

/-- The element that `CPUMaxPoolingForward` sees at row `t` of the column of position `p` of a plane (kernels.cpp:222-226). -/
def poolPixel {C : ℕ} (a b : Axis) (X : Fin C × Fin a.size × Fin b.size → Flt) (c : Fin C) (p : Fin (a.out * b.out)) (t : Fin (a.kernel * b.kernel)) : Flt :=
  pixel (fun y x => X (c, y, x)) fltMin (a.pos p.divNat t.divNat) (b.pos p.modNat t.modNat)

/-- A forward and a backward pass (src/runtime/cpu/cpubackend.cpp:72-99, 102-147) for the inputs `X` and the gradient `G` of the outputs: the outputs may
be `Y`, the gradients of the parameters `g`, and the numbers `K n i` are added to the gradient of input `n`, `i`.

`CPUMaxPoolingInputGrad` (kernels.cpp:233-269) runs `col2im` on a buffer that holds the gradients at the remembered rows and zeros elsewhere. The
products of a matrix that `CPULinearInputGrad` adds (kernels.cpp:20-24) are evaluated before. `Add` (src/runtime/cpu/layers/cpuadd.cpp:13-26) adds its
gradient to those of its inputs: one of them is the input of the network if the branch is empty, and a tensor that was 0 otherwise. -/
def ImgNet.Backward : {s t : Sh} → (f : ImgNet s t) → (X : Fin N → s.Ix → Flt) → (Y G : Fin N → t.Ix → Flt) → (K : Fin N → s.Ix → Multiset Flt) →
    Params Flt f → Prop
  | _, _, .skip, X, Y, G, K, _ => Y = X ∧ ∀ n i, K n i = {G n i}
  | _, _, .act a, X, Y, G, K, _ => (∀ n i, Y n i = a.fn R F (X n i)) ∧ ∀ n i, K n i = {a.back R F (X n i) (Y n i) (G n i)}
  | _, _, .linear W b, X, Y, G, K, g => LinearForward R X W b Y ∧ LinearGrads R X G g.1 g.2 ∧
    ∀ n r, ∃ s, DotOf R (List.ofFn fun j => (G n j, W j r)) s ∧ K n r = {s}
  | _, _, .conv a b W bias, X, Y, G, K, g => (∀ n, ConvForward R a b W bias (X n) (Y n)) ∧ ConvGrads R a b X G g.1 g.2 ∧
    ∀ n, ∃ S, (∀ t p, DotOf R (List.ofFn fun o => (G n (o, p.divNat, p.modNat), W o t)) (S t p)) ∧ ∀ i, K n i = col2imFloat a b S i
  | _, _, .maxPool (C := C) a b, X, Y, G, K, _ => ∃ row : Fin N → Fin C → Fin (a.out * b.out) → Fin (a.kernel * b.kernel),
    (∀ n c p, (∀ t, ¬(poolPixel a b (X n) c p (row n c p)).lt (poolPixel a b (X n) c p t)) ∧
      Y n (c, p.divNat, p.modNat) = poolPixel a b (X n) c p (row n c p)) ∧
    ∀ n i, K n i = col2imFloat a b (fun t p => if t.modNat = row n t.divNat p then G n (t.divNat, p.divNat, p.modNat) else 0) i
  | _, _, .avgPool (H := H) (W := W), X, Y, G, K, _ => (∀ n, AvgPoolForward R (X n) (Y n)) ∧ ∀ n i, K n i = {div R (G n i.1) (ofNat R (H * W))}
  | _, _, .flat, X, Y, G, K, _ => (∀ n k, Y n k = X n (place k)) ∧ ∀ n k, K n (place k) = {G n k}
  | _, _, .seq f h, X, Y, G, K, g => ∃ Z E L, f.Backward X Z E K g.1 ∧ h.Backward Z Y G L g.2 ∧ ∀ n i, Piled R (L n i) (E n i)
  | _, _, .join f h, X, Y, G, K, g => ∃ Z Z' E E' L L', f.Backward X Z E L g.1 ∧ h.Backward X Z' E' L' g.2 ∧ (∀ n i, Y n i = add R (Z n i) (Z' n i)) ∧
    (∀ n i, E n i = G n i ∨ E n i = add R 0 (G n i)) ∧ (∀ n i, E' n i = G n i ∨ E' n i = add R 0 (G n i)) ∧ ∀ n i, K n i = L n i + L' n i

/-- A forward and a backward pass with the gradient `D` of the inputs. -/
def ImgNet.Gradients {s t : Sh} (f : ImgNet s t) (X : Fin N → s.Ix → Flt) (Y G : Fin N → t.Ix → Flt) (D : Fin N → s.Ix → Flt) (g : Params Flt f) : Prop :=
  ∃ K, f.Backward R F X Y G K g ∧ ∀ n i, Piled R (K n i) (D n i)

end

end DW.Float
