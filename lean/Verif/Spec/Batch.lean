import Verif.Spec.History
import Verif.Spec.Loss
import Verif.Model.DataLoader
/-!
# The samples of a batch

The first dimension of the tensors of a model counts the samples of a batch. The elements of one sample are stored next to
each other.
-/

set_option autoImplicit false

namespace DW.Spec

open DW

/-- The elements of sample `i` of a batch of `N`. -/
def sampleOf (N i : Nat) (vals : List ℝ) : List ℝ := (vals.drop (i * (vals.length / N))).take (vals.length / N)

/-- Sample `i` of each of the tensors `hs` is sample `i'` of the corresponding one of the tensors `hs'`. -/
def SamplesMatch (N i i' : Nat) (w w' : World) (hs hs' : List Nat) : Prop :=
  ∀ k h h' : Nat, hs[k]? = some h → hs'[k]? = some h' → ∃ b b' : Buf, w.store[h]? = some b ∧ w'.store[h']? = some b' ∧
    sampleOf N i b.vals = sampleOf N i' b'.vals

/-- The shape of a batch of `N` samples. -/
def IsBatchOf (N : Nat) (s : Shape) : Prop := ∃ rest, s = (N : Int) :: rest

/-- `f` is what the model with input `x` and output `y` makes of a sample, at the parameters `θ`: every `forward` leaves for
each sample of the batch what `f` says. -/
def Predicts (e : Expr) (x y : Nat) (m : Model) (real : F32 → ℝ) (tensors : Nat → InfoTensors) (L : Layers e) (θ₀ θ : L.Params)
    (N : Nat) (f : List ℝ → List ℝ) : Prop :=
  ∀ (last : Option ((Nat → Env) × Vals e)) (w w' : World) (b : Backend) (env : Nat → Env) (h p : Nat) (t t' : Buf),
    History e [x] [y] m real tensors L θ₀ θ last w → FwdArgs e m [x] [y] w b [h] [p] → (∀ c, IsPick (env c).pick) →
    m.forward env [h] [p] w = (.ok (), w') → w.store[h]? = some t → w'.store[p]? = some t' →
    ∀ i < N, sampleOf N i t'.vals = f (sampleOf N i t.vals)

/-- Sample `k` of the dataset. -/
def sampleList (ds : Dataset ℝ) (k : Nat) : List ℝ := (List.range ds.shapeX.prod.toNat).map (ds.x k)

/-- With predictions `f`, sample `k` of the dataset is classified correctly: the first largest element of the prediction is at the
position the label says. -/
def Correct (ds : Dataset ℝ) (f : List ℝ → List ℝ) (k : Nat) : Prop :=
  Hit (fun j : Fin (f (sampleList ds k)).length => (f (sampleList ds k))[j]) (ds.y k 0)

end DW.Spec
