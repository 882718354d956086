import Verif.Base.Outcome
/-!
# `deepworks::Tensor` (src/runtime/tensor.cpp, include/deepworks/tensor.hpp)

A `Tensor` object is a `shared_ptr<Descriptor>`; copies share the descriptor. The model
keeps descriptors in a table and a tensor object is the index of its descriptor (`Handle`).
Float buffers are blocks of cells; a released block is `none`, an uninitialised cell `none`.
The element type `α` is arbitrary: nothing in tensor.cpp computes with elements.
-/

namespace DW

/-- `deepworks::Shape` = `std::vector<int>` (include/deepworks/shape.hpp:9). -/
abbrev Shape := List Int

/-- A `float*` into a block. -/
structure Ptr where
  block : Nat
  off : Nat
  deriving DecidableEq, Repr

/-- `Tensor::Descriptor` (src/runtime/tensor.cpp:35-41). `memory` is the owned block,
`data` the element pointer (`none` = null). Strides are `size_t` in the code; they are kept
as integers, which agree with `size_t` as long as no dimension is negative. -/
structure Desc where
  strides : List Int := []
  shape : Shape := []
  memory : Option Nat := none
  data : Option Ptr := none
  total : Nat := 0
  deriving DecidableEq, Repr

/-- Identity of a descriptor: what a `Tensor` object holds. -/
abbrev Handle := Nat

/-- All descriptors and float buffers of a program. -/
structure Heap (α : Type) where
  descs : List Desc
  blocks : List (Option (List (Option α)))
  deriving DecidableEq, Repr

namespace Tensor

variable {α : Type}

/-- `calculateStrides` (src/runtime/tensor.cpp:43-52): walks both vectors from the back. -/
def calculateStrides (shape : Shape) : List Int :=
  (shape.foldr (fun d (acc : List Int × Int) => (acc.2 :: acc.1, acc.2 * d)) ([], 1)).1

/-- `int` range. -/
def fitsInt (n : Int) : Bool := -2147483648 ≤ n && n ≤ 2147483647

/-- `std::accumulate(shape.begin(), shape.end(), 1, std::multiplies<>())` on `int`
(src/runtime/tensor.cpp:73-76 and :98): overflow of any partial product is undefined. -/
def accProd (shape : Shape) (init : Int := 1) : Out Int :=
  match shape with
  | [] => .ok init
  | d :: ds => if fitsInt (init * d) then accProd ds (init * d) else .ub .overflow

/-- `any_of(shape, dim < 0)` (src/runtime/tensor.cpp:67-68). -/
def hasNegative (shape : Shape) : Bool := shape.any (· < 0)

/-- Descriptor of a tensor object. The handle always exists in C++; a dangling handle in the
model is `ub null`. -/
def desc (t : Handle) : M (Heap α) Desc := fun h =>
  match h.descs[t]? with
  | some d => (.ok d, h)
  | none => (.ub .null, h)

def setDesc (t : Handle) (d : Desc) : M (Heap α) Unit :=
  M.modify fun h => { h with descs := h.descs.set t d }

/-- `Tensor::Tensor()` (src/runtime/tensor.cpp:54-55). -/
def new : M (Heap α) Handle := fun h =>
  (.ok h.descs.length, { h with descs := h.descs ++ [{}] })

/-- `Tensor::init` (src/runtime/tensor.cpp:66-77). -/
def init (t : Handle) (shape : Shape) : M (Heap α) Unit := do
  M.check (!hasNegative shape)
  let d ← desc t
  setDesc t { d with shape := shape, strides := calculateStrides shape }
  let n ← M.lift (accProd shape)
  let d ← desc t
  setDesc t { d with total := n.toNat }

/-- Release the block a descriptor owns (`shared_ptr::reset` with the deleter,
src/runtime/tensor.cpp:92-93); only the descriptor owns it. -/
def free (b : Option Nat) : M (Heap α) Unit :=
  match b with
  | none => pure ()
  | some b => M.modify fun h => { h with blocks := h.blocks.set b none }

/-- `new Type[n]`: uninitialised cells. -/
def newBlock (n : Nat) : M (Heap α) Nat := fun h =>
  (.ok h.blocks.length, { h with blocks := h.blocks ++ [some (List.replicate n none)] })

/-- `Tensor::allocate` (src/runtime/tensor.cpp:89-95). -/
def allocate (t : Handle) (shape : Shape) : M (Heap α) Unit := do
  init t shape
  let d ← desc t
  let b ← newBlock d.total
  free d.memory
  setDesc t { d with memory := some b, data := some ⟨b, 0⟩ }

/-- `Tensor::Tensor(const Shape&)` (src/runtime/tensor.cpp:57-59). -/
def ofShape (shape : Shape) : M (Heap α) Handle := do
  let t ← new
  allocate t shape
  pure t

/-- `Tensor::Tensor(const Shape&, float*)` (src/runtime/tensor.cpp:61-64): a view. -/
def ofData (shape : Shape) (p : Ptr) : M (Heap α) Handle := do
  let t ← new
  init t shape
  let d ← desc t
  setDesc t { d with data := some p }
  pure t

/-- Load a cell (its content, which may be uninitialised). -/
def loadCell (p : Ptr) : M (Heap α) (Option α) := fun h =>
  match h.blocks[p.block]? with
  | none => (.ub .oob, h)
  | some none => (.ub .freed, h)
  | some (some cells) =>
    match cells[p.off]? with
    | none => (.ub .oob, h)
    | some c => (.ok c, h)

/-- Store a cell. -/
def storeCell (p : Ptr) (c : Option α) : M (Heap α) Unit := fun h =>
  match h.blocks[p.block]? with
  | none => (.ub .oob, h)
  | some none => (.ub .freed, h)
  | some (some cells) =>
    if p.off < cells.length then
      (.ok (), { h with blocks := h.blocks.set p.block (some (cells.set p.off c)) })
    else (.ub .oob, h)

/-- `t.data() + i`. -/
def elemPtr (t : Handle) (i : Nat) : M (Heap α) Ptr := do
  let d ← desc t
  match d.data with
  | none => M.lift (.ub .null)
  | some p => pure ⟨p.block, p.off + i⟩

/-- `t.data()[i]` as an rvalue. -/
def read (t : Handle) (i : Nat) : M (Heap α) α := do
  let p ← elemPtr t i
  match ← loadCell p with
  | some a => pure a
  | none => M.lift (.ub .uninit)

/-- `t.data()[i] = v`. -/
def write (t : Handle) (i : Nat) (v : α) : M (Heap α) Unit := do
  let p ← elemPtr t i
  storeCell p (some v)

/-- `std::copy_n(src, n, dst)` as a forward loop over cells, from element `i` on. Copying an
uninitialised cell leaves the destination uninitialised (memmove semantics). -/
def copyLoop (src dst : Ptr) (i : Nat) : Nat → M (Heap α) Unit
  | 0 => pure ()
  | n + 1 => do
    let c ← loadCell ⟨src.block, src.off + i⟩
    storeCell ⟨dst.block, dst.off + i⟩ c
    copyLoop src dst (i + 1) n

/-- Partially overlapping source and destination ranges. -/
def overlaps (src dst : Ptr) (n : Nat) : Bool :=
  src.block == dst.block && src.off != dst.off && src.off < dst.off + n && dst.off < src.off + n

def copyN (src dst : Option Ptr) (n : Nat) : M (Heap α) Unit :=
  match n, src, dst with
  | 0, _, _ => pure ()
  | n + 1, some s, some d =>
    if overlaps s d (n + 1) then M.lift (.ub .overlap) else copyLoop s d 0 (n + 1)
  | _, _, _ => M.lift (.ub .null)

/-- `Tensor::copyTo` (src/runtime/tensor.cpp:79-87); `empty()` is `total == 0` (:113-115). -/
def copyTo (t rhs : Handle) : M (Heap α) Unit := do
  let a ← desc t
  let b ← desc rhs
  M.check (a.shape == b.shape && a.strides == b.strides)
  M.check (b.total != 0)
  copyN a.data b.data a.total

/-- `Tensor::reshape` (src/runtime/tensor.cpp:97-103). The comparison is `int == size_t`; for a
negative product the `int` converts to a huge `size_t`, never equal to an `int`-sized total. -/
def reshape (t : Handle) (shape : Shape) : M (Heap α) Unit := do
  let n ← M.lift (accProd shape)
  let d ← desc t
  M.check (n == (d.total : Int))
  setDesc t { d with shape := shape, strides := calculateStrides shape }

/-- Element loop `for (i = 0; i < total; ++i) data[i] = vs i` used by every initializer
(src/initializers.cpp:8-31: `std::fill_n`, `std::generate`). -/
def fillLoop (p : Ptr) (vs : Nat → α) (i : Nat) : Nat → M (Heap α) Unit
  | 0 => pure ()
  | n + 1 => do
    storeCell ⟨p.block, p.off + i⟩ (some (vs i))
    fillLoop p vs (i + 1) n

/-- Fill all elements of `t` with `vs 0, vs 1, ...`. -/
def fill (t : Handle) (vs : Nat → α) : M (Heap α) Unit := do
  let d ← desc t
  match d.total, d.data with
  | 0, _ => pure ()
  | n + 1, some p => fillLoop p vs 0 (n + 1)
  | _, none => M.lift (.ub .null)

end Tensor

end DW
