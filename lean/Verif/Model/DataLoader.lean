import Verif.Model.Tensor
/-!
# `DataLoader` (src/dataloader.cpp, include/deepworks/dataloader.hpp)

The dataset is the user's class behind `IDataset`; it is modelled by what its `pull` writes into
the two tensors it is given. The random generator is a parameter.
-/

namespace DW

variable {α : Type}

/-- An `IDataset` (include/deepworks/dataloader.hpp:9-17): `x idx j` is element `j` of the sample
`idx`, `y idx j` that of its label. -/
structure Dataset (α : Type) where
  size : Nat
  shapeX : Shape
  shapeY : Shape
  x : Int → Nat → α
  y : Int → Nat → α

/-- `IDataset::pull`: fills both tensors. A sample number outside `[0, size)` is undefined. -/
def Dataset.pull (ds : Dataset α) (idx : Int) (X y : Handle) : M (Heap α) Unit :=
  if 0 ≤ idx ∧ idx < ds.size then do
    Tensor.fill X (ds.x idx)
    Tensor.fill y (ds.y idx)
  else M.lift (.ub .oob)

/-- What the `DataLoader` constructor stores (src/dataloader.cpp:34-40). -/
structure Loader (α : Type) where
  dataset : Dataset α
  batch : Int
  shuffle : Bool

/-- The heap and the loader's `m_pos`, which starts at 0 (include/deepworks/dataloader.hpp:30). -/
structure DL (α : Type) where
  heap : Heap α
  pos : Int

namespace DL

/-- Run a tensor operation on the heap. -/
def onHeap {β : Type} (x : M (Heap α) β) : M (DL α) β := fun s =>
  ((x s.heap).1, { s with heap := (x s.heap).2 })

/-- `makeShape` (src/dataloader.cpp:9-14). -/
def makeShape (batch : Int) (shape : Shape) : Shape := batch :: shape

/-- The `while` loop of `randomIndices` (src/dataloader.cpp:21-23) run on a finite prefix of the
generator's draws: `none` if it is still running when the prefix is used up. `acc` is the set
`unique`. -/
def drawUnique (num : Nat) (acc : List Int) (draws : List Int) : Option (List Int) :=
  if acc.length = num then some acc
  else match draws with
    | [] => none
    | d :: ds => drawUnique num (if d ∈ acc then acc else d :: acc) ds

/-- The possible results of `randomIndices(num, upper_bound)` (src/dataloader.cpp:16-26): some
draws in `[0, upper_bound]`, then the set in any iteration order. -/
def RandomIndices (num : Nat) (upper : Int) (l : List Int) : Prop :=
  ∃ draws acc, (∀ d ∈ draws, 0 ≤ d ∧ d ≤ upper) ∧ drawUnique num [] draws = some acc ∧ l.Perm acc

/-- `seqIndices` (src/dataloader.cpp:28-32). A negative count makes the vector constructor throw. -/
def seqIndices (num start : Int) : Out (List Int) :=
  if num < 0 then .throw .alloc else .ok ((List.range num.toNat).map fun i : Nat => start + i)

/-- The choice between the two (src/dataloader.cpp:66-67); `rand` is what `randomIndices` returned. -/
def pickIndices (ld : Loader α) (rand : List Int) (pos : Int) : Out (List Int) :=
  if ld.shuffle then .ok rand else seqIndices ld.batch pos

/-- `if (X.empty()) X.allocate(shape)` (src/dataloader.cpp:46-52). -/
def allocIfEmpty (t : Handle) (shape : Shape) : M (Heap α) Unit := do
  let d ← Tensor.desc t
  if d.total = 0 then Tensor.allocate t shape else pure ()

/-- `Tensor slice(shape, X.data() + off)` (src/dataloader.cpp:70-71). -/
def slice (shape : Shape) (t : Handle) (off : Nat) : M (Heap α) Handle := do
  let p ← Tensor.elemPtr t off
  Tensor.ofData shape p

/-- One iteration of the filling loop (src/dataloader.cpp:69-73). At its end both slices are
destroyed; they own no memory. -/
def fillOne (ds : Dataset α) (X y : Handle) (sx sy i : Nat) (idx : Int) : M (Heap α) Unit := do
  let h0 ← M.get
  let xs ← slice ds.shapeX X (i * sx)
  let ys ← slice ds.shapeY y (i * sy)
  ds.pull idx xs ys
  M.modify fun h => { h with descs := h.descs.take h0.descs.length }

/-- The filling loop from iteration `i` on, `n` iterations. -/
def fillBatch (ds : Dataset α) (X y : Handle) (sx sy : Nat) (indices : List Int) (i : Nat) :
    Nat → M (Heap α) Unit
  | 0 => pure ()
  | n + 1 => do
    let idx ← M.lift (Out.idx indices i)
    fillOne ds X y sx sy i idx
    fillBatch ds X y sx sy indices (i + 1) n

/-- `X.strides()[0]`, a `size_t`. -/
def stride0 (t : Handle) : M (Heap α) Nat := do
  let d ← Tensor.desc t
  let s ← M.lift (Out.idx d.strides 0)
  pure s.toNat

/-- `int` converted to `size_t`. -/
def toSizeT (v : Int) : Nat := (v % 2 ^ 64).toNat

/-- `DataLoader::pull` (src/dataloader.cpp:42-77) and `reset` (:79-81). `rand` is the result of
`randomIndices`, used only with shuffling. -/
def pull (ld : Loader α) (rand : List Int) (X y : Handle) : M (DL α) Bool := do
  let ds := ld.dataset
  let xShape := makeShape ld.batch ds.shapeX
  let yShape := makeShape ld.batch ds.shapeY
  onHeap (allocIfEmpty X xShape)
  onHeap (allocIfEmpty y yShape)
  let dX ← onHeap (Tensor.desc X)
  M.check (dX.shape == xShape)
  let dY ← onHeap (Tensor.desc y)
  M.check (dY.shape == yShape)
  let s ← M.get
  if Tensor.fitsInt (s.pos + ld.batch) then
    if ds.size < toSizeT (s.pos + ld.batch) then do
      M.modify fun s => { s with pos := 0 }
      pure false
    else do
      let sx ← onHeap (stride0 X)
      let sy ← onHeap (stride0 y)
      let indices ← M.lift (pickIndices ld rand s.pos)
      onHeap (fillBatch ds X y sx sy indices 0 ld.batch.toNat)
      M.modify fun s => { s with pos := s.pos + ld.batch }
      pure true
  else M.lift (.ub .overflow)

/-- `k` calls of `pull` with the same two tensors; `rands i` is what the generator gives call `i`. -/
def pulls (ld : Loader α) (rands : Nat → List Int) (X y : Handle) : Nat → M (DL α) Unit
  | 0 => pure ()
  | k + 1 => do
    pulls ld rands X y k
    let _ ← pull ld (rands k) X y
    pure ()

end DL

end DW
