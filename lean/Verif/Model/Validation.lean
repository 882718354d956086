import Verif.Model.DataLoader
import Verif.Model.Training
/-!
# A validation loop

`DataLoader::pull`, `model.forward` and `metric::accuracy` on the same tensors, as in the validation loops of the samples
(samples/mnist/main.cpp:105-117, samples/iris/main.cpp:105-117, samples/cifar10/main.cpp:127-139,
samples/cifar100/main.cpp:141-153).

`pull` itself, with its slices of tensors and pointers into them, is in `Verif.Model.DataLoader`. Here it runs on the tensors of a
program with a compiled model, which have no slices; that it does the same is `DW.Props.ValidationP.pullInto_pull`.
-/

namespace DW

noncomputable section

/-- The batch of the samples `idxs`, one after the other. -/
def batchBuf (batch : Int) (sample : Shape) (f : Int → Nat → ℝ) (idxs : List Int) : Buf :=
  ⟨batch :: sample, idxs.flatMap fun i => (List.range sample.prod.toNat).map (f i)⟩

/-- The filling loop of `pull` (src/dataloader.cpp:69-73). -/
def putBatch (ld : Loader ℝ) (idxs : List Int) (x y : Nat) (w : World) : World :=
  { w with store := (w.store.set x (batchBuf ld.batch ld.dataset.shapeX ld.dataset.x idxs)).set y (batchBuf ld.batch ld.dataset.shapeY ld.dataset.y idxs) }

/-- `if (X.empty()) X.allocate(shape)` (src/dataloader.cpp:46-52). -/
def allocIfNone (junk : Nat → ℝ) (t : Nat) (shape : Shape) : M World Unit := fun w =>
  match w.store[t]? with
  | none => (.ub .freed, w)
  | some b => (.ok (), if b.vals = [] then { w with store := w.store.set t ⟨shape, (List.range shape.prod.toNat).map junk⟩ } else w)

/-- `X.shape()`. -/
def shapeAt (t : Nat) : M World Shape := fun w => (Out.idx (w.store.map Buf.shape) t, w)

/-- `DataLoader::pull` (src/dataloader.cpp:42-77) with the tensors `x` and `y`; the second part of the state is `m_pos`. `rand` is what
`randomIndices` returned, `junk` the contents of a new tensor. -/
def pullInto (ld : Loader ℝ) (junk : Nat → ℝ) (rand : List Int) (x y : Nat) : M (World × Int) Bool := do
  let ds := ld.dataset
  onWorld (allocIfNone junk x (DL.makeShape ld.batch ds.shapeX))
  onWorld (allocIfNone junk y (DL.makeShape ld.batch ds.shapeY))
  let sx ← onWorld (shapeAt x)
  M.check (sx == DL.makeShape ld.batch ds.shapeX)
  let sy ← onWorld (shapeAt y)
  M.check (sy == DL.makeShape ld.batch ds.shapeY)
  let s ← M.get
  if Tensor.fitsInt (s.2 + ld.batch) then
    if ds.size < DL.toSizeT (s.2 + ld.batch) then do
      M.modify fun s => (s.1, 0)
      pure false
    else do
      let indices ← M.lift (DL.pickIndices ld rand s.2)
      if (indices.length : Int) = ld.batch ∧ ∀ i ∈ indices, 0 ≤ i ∧ i < ds.size then do
        M.modify fun s => (putBatch ld indices x y s.1, s.2 + ld.batch)
        pure true
      else M.lift (.ub .oob)
  else M.lift (.ub .overflow)

/-- `metric::accuracy` on the tensors `p` and `y`. -/
def accuracyOf (p y : Nat) : M World ℝ := fun w =>
  (do let pred ← Out.idx w.store p
      let labels ← Out.idx w.store y
      Metric.accuracy pred labels, w)

/-- The validation loop, from round `iter` with the sum `acc` on (samples/mnist/main.cpp:110-114). It is run for a number of rounds:
`none` if it is still running then. The results are `acc` and `val_iter`. -/
def validationLoop (m : Model) (ld : Loader ℝ) (junk : Nat → ℝ) (rands : Nat → List Int) (env : Nat → Nat → Env) (x p y : Nat)
    (acc : ℝ) (iter : Nat) : Nat → M (World × Int) (Option (ℝ × Nat))
  | 0 => pure none
  | fuel + 1 => do
    let more ← pullInto ld junk (rands iter) x y
    if more then do
      onWorld (m.forward (env iter) [x] [p])
      let a ← onWorld (accuracyOf p y)
      validationLoop m ld junk rands env x p y (acc + a) (iter + 1) fuel
    else pure (some (acc, iter))

end

end DW
