import Verif.Model.Bench
import Mathlib.Logic.Function.Basic
/-!
# Exceptions

`DeepWorksException` (include/deepworks/utils/assert.hpp, src/utils/assert.cpp). Copies of an exception share a block with the stream and
the message that `what` fills. A buffer of a message is freed when another one takes its place, as `m_impl->message` is assigned from a
temporary, and with the block. The texts are taken to have no null character. `none` is undefined behaviour: use of an object or a buffer that is gone.
-/

set_option autoImplicit false

namespace DW.Exc

open DW.Bench (Text decInt)

noncomputable section

/-- `DeepWorksException::Impl` (assert.hpp:26-32): what is in the stream, and the buffer of the message. -/
structure Impl where
  stream : Text
  buffer : Option ℕ

/-- The memory: blocks, the exceptions with the block that each points to, and buffers. The numbers of those to come are kept. -/
structure State where
  impls : ℕ → Impl
  objs : ℕ → Option ℕ
  bufs : ℕ → Option Text
  nextImpl : ℕ
  nextObj : ℕ
  nextBuf : ℕ

/-- Nothing has been allocated. -/
def empty : State := ⟨fun _ => ⟨[], none⟩, fun _ => none, fun _ => none, 0, 0, 0⟩

/-- What the constructor writes (src/utils/assert.cpp:10-12). -/
def header (line : ℤ) (file func : Text) : Text :=
  "Failed: ".toList ++ file ++ " in function: ".toList ++ func ++ " in line: ".toList ++ decInt line ++ ['\n']

/-- The constructor (src/utils/assert.cpp:3-13). -/
def create (line : ℤ) (file func : Text) (s : State) : State × ℕ :=
  ({ s with impls := Function.update s.impls s.nextImpl ⟨header line file func, none⟩, objs := Function.update s.objs s.nextObj (some s.nextImpl),
            nextImpl := s.nextImpl + 1, nextObj := s.nextObj + 1 }, s.nextObj)

/-- The copy constructor (assert.hpp:13). -/
def copy (o : ℕ) (s : State) : Option (State × ℕ) :=
  (s.objs o).map fun i => ({ s with objs := Function.update s.objs s.nextObj (some i), nextObj := s.nextObj + 1 }, s.nextObj)

/-- `operator<<` (assert.hpp:17-21), for a text. -/
def append (o : ℕ) (t : Text) (s : State) : Option State :=
  (s.objs o).map fun i => { s with impls := Function.update s.impls i { s.impls i with stream := (s.impls i).stream ++ t } }

/-- Freeing a buffer. -/
def free (bufs : ℕ → Option Text) : Option ℕ → ℕ → Option Text
  | none => bufs
  | some b => Function.update bufs b none

/-- `what` (src/utils/assert.cpp:15-18): the result points to the buffer. -/
def what (o : ℕ) (s : State) : Option (State × ℕ) :=
  (s.objs o).map fun i =>
    ({ s with impls := Function.update s.impls i { s.impls i with buffer := some s.nextBuf },
              bufs := Function.update (free s.bufs (s.impls i).buffer) s.nextBuf (some (s.impls i).stream), nextBuf := s.nextBuf + 1 }, s.nextBuf)

/-- The destructor (assert.hpp:23); the last one frees the block. -/
def destroy (o : ℕ) (s : State) : Option State :=
  (s.objs o).map fun i =>
    let objs := Function.update s.objs o none
    open Classical in
    if ∃ o', objs o' = some i then { s with objs := objs }
    else { s with objs := objs, impls := Function.update s.impls i { s.impls i with buffer := none }, bufs := free s.bufs (s.impls i).buffer }

/-- `DeepWorks_Assert(expr)` for an expression that is false (assert.hpp:40-44): what is thrown is a copy of a temporary. -/
def failed (line : ℤ) (file func expr : Text) (s : State) : Option (State × ℕ) := do
  let (s, o) := create line file func s
  let s ← append o "Assertion failed: ".toList s
  let s ← append o expr s
  let (s, e) ← copy o s
  let s ← destroy o s
  pure (s, e)

/-- What can be done with exceptions. -/
inductive Op
  | create (line : ℤ) (file func : Text)
  | copy (o : ℕ)
  | append (o : ℕ) (t : Text)
  | what (o : ℕ)
  | destroy (o : ℕ)

def step (s : State) : Op → Option State
  | .create line file func => some (create line file func s).1
  | .copy o => (copy o s).map Prod.fst
  | .append o t => append o t s
  | .what o => (what o s).map Prod.fst
  | .destroy o => destroy o s

end

end DW.Exc
