import Verif.Model.Graph
/-!
# Saving and loading

Models src/serialization.cpp except `save_dot`. A file is a list of bytes. Integers are stored as
the machine stores them: little-endian, `int` 4 bytes in two's complement, `size_t` 8 bytes,
`float` 4 bytes. A `std::string` is a `String` all of whose characters are below 256, one per byte.

Simplifications: a growing container throws `alloc` iff it needs more than `lim` bytes (`lim` is a
parameter, `lim < 2^63`); writing never fails; each tensor of a state dict has its own storage.
-/

namespace DW

abbrev Byte := BitVec 8

/-! ### Values as bytes -/

/-- The `k` low bytes of `n`, least significant first. -/
def leBytes : Nat → Nat → List Byte
  | 0, _ => []
  | k + 1, n => BitVec.ofNat 8 n :: leBytes k (n / 256)

/-- The number stored in little-endian bytes. -/
def leNat : List Byte → Nat
  | [] => 0
  | b :: bs => b.toNat + 256 * leNat bs

/-- An `int` in memory. -/
def intBytes (v : Int) : List Byte := leBytes 4 (v % 2 ^ 32).toNat

/-- The `int` stored in 4 bytes. -/
def bytesInt (bs : List Byte) : Int :=
  if leNat bs < 2 ^ 31 then (leNat bs : Int) else (leNat bs : Int) - 2 ^ 32

def floatBytes (v : F32) : List Byte := leBytes 4 v.toNat

def bytesFloat (bs : List Byte) : F32 := BitVec.ofNat 32 (leNat bs)

def charByte (c : Char) : Byte := BitVec.ofNat 8 c.toNat

def byteChar (b : Byte) : Char := Char.ofNat b.toNat

def stringBytes (s : String) : List Byte := s.toList.map charByte

def bytesString (bs : List Byte) : String := String.ofList (bs.map byteChar)

/-- Consecutive groups of 4 bytes as `int`s. -/
def chunkInts : Nat → List Byte → List Int
  | 0, _ => []
  | n + 1, bs => bytesInt (bs.take 4) :: chunkInts n (bs.drop 4)

/-! ### Writing -/

/-- The file written so far. -/
abbrev W := M (List Byte) Unit

/-- `ofstream::write`. -/
def put (bs : List Byte) : W := M.modify (· ++ bs)

/-- `write_value<size_t>` (src/serialization.cpp:11-14). -/
def writeSize (n : Nat) : W := put (leBytes 8 n)

/-- `write_value<int>` (src/serialization.cpp:11-14). -/
def writeInt (v : Int) : W := put (intBytes v)

def writeFloat (v : F32) : W := put (floatBytes v)

/-- `write_sequence<std::string>` (src/serialization.cpp:23-28). -/
def writeString (s : String) : W := do
  writeSize s.length
  put (stringBytes s)

/-- `write_sequence` of a `vector<int>` or `array<int, 2>` (src/serialization.cpp:23-28). -/
def writeInts (l : List Int) : W := do
  writeSize l.length
  put (l.flatMap intBytes)

/-- `write_sequence` of an `array<float, 2>`. -/
def writeFloats (l : List F32) : W := do
  writeSize l.length
  put (l.flatMap floatBytes)

/-- `SerializationKind` (src/serialization.cpp:50-53). -/
def kindState : Int := 0
def kindConfig : Int := 1

/-- A tensor of a state dict: its shape and the bytes of its elements. -/
structure SavedTensor where
  shape : Shape
  bytes : List Byte
  deriving DecidableEq, Repr

/-- `Model::StateDict` in iteration order. -/
abbrev Dict := List (String × SavedTensor)

/-- The loop body of `save_state` (src/serialization.cpp:64-69). -/
def saveEntry (en : String × SavedTensor) : W := do
  writeString en.1
  writeInts en.2.shape
  put en.2.bytes

/-- `save_state` (src/serialization.cpp:60-70). -/
def saveState (d : Dict) : W := do
  writeInt kindState
  writeSize d.length
  d.forM saveEntry

/-- `write_attribute` (src/serialization.cpp:151-180). `AttrShape`: VALUE 0, ARRAY2 1. `AttrType`:
UNSUPPORTED 0, INT 1, FLOAT 2 (include/deepworks/layer_info.hpp:14-23). Shape and type are written
before the assertion on an unsupported value fails. -/
def writeAttribute : AttrVal → W
  | .int v => do writeInt 0; writeInt 1; writeInt v
  | .float v => do writeInt 0; writeInt 2; writeFloat v
  | .ints a b => do writeInt 1; writeInt 1; writeInts [a, b]
  | .floats a b => do writeInt 1; writeInt 2; writeFloats [a, b]
  | .unsupported => do writeInt 0; writeInt 0; M.check false

/-- `write_attributes` (src/serialization.cpp:213-219). -/
def writeAttributes (attrs : Attrs) : W := do
  writeSize attrs.length
  attrs.forM fun a => do
    writeString a.1
    writeAttribute a.2

/-- One `ph_map` entry in `save_cfg` (src/serialization.cpp:245-249): the key and the shape. -/
def savePh (p : Int × (Shape × Int)) : W := do
  writeInt p.1
  writeInts p.2.1

/-- One operation in `save_cfg` (src/serialization.cpp:253-259). -/
def saveOp (o : OpInfo) : W := do
  writeString o.name
  writeString o.type
  writeInts o.inIds
  writeInts o.outIds
  writeAttributes o.attrs

/-- `save_cfg` (src/serialization.cpp:237-260). -/
def saveCfg (cfg : Config) : W := do
  writeInt kindConfig
  writeInts cfg.inputIds
  writeInts cfg.outputIds
  writeSize cfg.phMap.length
  cfg.phMap.forM savePh
  writeSize cfg.sortedOps.length
  cfg.sortedOps.forM saveOp

/-! ### Reading -/

/-- An `ifstream`: the bytes not read yet and whether a read has failed. -/
structure IStream where
  data : List Byte
  failed : Bool := false
  deriving DecidableEq, Repr

abbrev R := M IStream

/-- `ifstream::read` of `n` bytes: the bytes delivered. A short read delivers what is left and
puts the stream into the failed state, in which nothing is delivered any more. A count of 2^63 or
more is negative as `std::streamsize`: nothing is delivered and the stream fails. -/
def readBytes (n : Nat) : R (List Byte) := fun s =>
  if s.failed then (.ok [], s)
  else if 2 ^ 63 ≤ n then (.ok [], ⟨[], true⟩)
  else if n ≤ s.data.length then (.ok (s.data.take n), ⟨s.data.drop n, false⟩)
  else (.ok s.data, ⟨[], true⟩)

/-- Read into zero-initialised storage of `n` bytes. -/
def readZeroed (n : Nat) : R (List Byte) := do
  let bs ← readBytes n
  pure (bs ++ List.replicate (n - bs.length) 0)

/-- `read_value<int>` (src/serialization.cpp:16-21): the value starts as 0. -/
def readInt : R Int := do
  let bs ← readZeroed 4
  pure (bytesInt bs)

/-- `read_value<size_t>`. -/
def readSize : R Nat := do
  let bs ← readZeroed 8
  pure (leNat bs)

def readFloat : R F32 := do
  let bs ← readZeroed 4
  pure (bytesFloat bs)

/-- `seq.resize(size)`. -/
def resize (lim size elem : Nat) : R Unit :=
  M.lift (if size * elem ≤ lim then .ok () else .throw .alloc)

/-- `read_sequence<std::string>` (src/serialization.cpp:30-38). -/
def readString (lim : Nat) : R String := do
  let size ← readSize
  resize lim size 1
  let bs ← readZeroed size
  pure (bytesString bs)

/-- `read_sequence<std::vector<int>>`. -/
def readInts (lim : Nat) : R (List Int) := do
  let size ← readSize
  resize lim size 4
  let bs ← readZeroed (size * 4)
  pure (chunkInts size bs)

/-- `read_array<T, 2>` (src/serialization.cpp:40-48): the count comes from the file and is not
checked against the 8 bytes of the uninitialised array. -/
def readArray : R (List Byte) := do
  let size ← readSize
  let bs ← readBytes (size * 4 % 2 ^ 64)
  M.lift (if bs.length = 8 then .ok bs else if bs.length < 8 then .ub .uninit else .ub .oob)

/-- What `load_state` works on: the dict and the file. -/
structure LoadSt where
  dict : Dict
  file : IStream
  deriving DecidableEq, Repr

/-- Run a reader on the file of a loading state. -/
def onFile {α : Type} (r : R α) : M LoadSt α := fun s =>
  ((r s.file).1, { s with file := (r s.file).2 })

/-- Overwrite the first bytes of the tensor stored under `name`. -/
def pokeTensor (name : String) (bs : List Byte) (d : Dict) : Dict :=
  d.map fun en => if en.1 = name then (en.1, { en.2 with bytes := bs ++ en.2.bytes.drop bs.length }) else en

/-- The loop body of `load_state` (src/serialization.cpp:88-104). -/
def loadEntry (lim : Nat) : M LoadSt Unit := do
  let name ← onFile (readString lim)
  let s ← M.get
  match s.dict.lookup name with
  | none => M.lift (.throw .dw)
  | some t => do
    let shape ← onFile (readInts lim)
    M.check (t.shape == shape)
    let bs ← onFile (readBytes t.bytes.length)
    M.modify fun s => { s with dict := pokeTensor name bs s.dict }

/-- `for (int i = 0; i < size; ++i) body` with a `size_t` bound: `i` overflows after `2^31`
iterations. `n` is the number of iterations left. -/
def intLoop {σ : Type} (body : M σ Unit) : (i n : Nat) → M σ Unit
  | _, 0 => pure ()
  | i, n + 1 => do
    body
    if i + 1 = 2 ^ 31 then M.lift (.ub .overflow) else intLoop body (i + 1) n

/-- `load_state` (src/serialization.cpp:80-105). -/
def loadState (lim : Nat) : M LoadSt Unit := do
  let kind ← onFile readInt
  M.check (kind == kindState)
  let size ← onFile readSize
  intLoop (loadEntry lim) 0 size

/-- `read_attribute` (src/serialization.cpp:182-211). -/
def readAttribute : R AttrVal := do
  let shape ← readInt
  let type ← readInt
  if shape = 0 then
    if type = 1 then do
      let v ← readInt
      pure (.int v)
    else if type = 2 then do
      let v ← readFloat
      pure (.float v)
    else M.lift (.throw .dw)
  else if shape = 1 then
    if type = 1 then do
      let bs ← readArray
      pure (.ints (bytesInt (bs.take 4)) (bytesInt (bs.drop 4)))
    else if type = 2 then do
      let bs ← readArray
      pure (.floats (bytesFloat (bs.take 4)) (bytesFloat (bs.drop 4)))
    else M.lift (.throw .dw)
  else M.lift (.throw .dw)

/-- `for (int i = 0; i < size; ++i)` collecting into an accumulator. -/
def intLoopAcc {σ α : Type} (body : α → M σ α) : (i n : Nat) → α → M σ α
  | _, 0, a => pure a
  | i, n + 1, a => do
    let a' ← body a
    if i + 1 = 2 ^ 31 then M.lift (.ub .overflow) else intLoopAcc body (i + 1) n a'

/-- `unordered_map::emplace` with an `int` key. -/
def emplaceInt {β : Type} (m : List (Int × β)) (k : Int) (v : β) : List (Int × β) :=
  if (m.lookup k).isSome then m else m ++ [(k, v)]

/-- `read_attributes` (src/serialization.cpp:221-230). -/
def readAttributes (lim : Nat) : R Attrs := do
  let n ← readSize
  intLoopAcc (fun acc => do
    let name ← readString lim
    let attr ← readAttribute
    pure (emplace acc name attr)) 0 n []

/-- One `ph_map` entry of `load_cfg` (src/serialization.cpp:277-282). -/
def loadPh (lim : Nat) (acc : List (Int × (Shape × Int))) : R (List (Int × (Shape × Int))) := do
  let id ← readInt
  let shape ← readInts lim
  pure (emplaceInt acc id (shape, id))

/-- One operation of `load_cfg` (src/serialization.cpp:285-293). -/
def loadOp (lim : Nat) (acc : List OpInfo) : R (List OpInfo) := do
  let name ← readString lim
  let type ← readString lim
  let inIds ← readInts lim
  let outIds ← readInts lim
  let attrs ← readAttributes lim
  pure (acc ++ [⟨name, type, attrs, inIds, outIds⟩])

/-- `load_cfg` (src/serialization.cpp:267-297). -/
def loadCfg (lim : Nat) : R Config := do
  let kind ← readInt
  M.check (kind == kindConfig)
  let inputIds ← readInts lim
  let outputIds ← readInts lim
  let mapSize ← readSize
  let phMap ← intLoopAcc (loadPh lim) 0 mapSize []
  let numOps ← readSize
  let sortedOps ← intLoopAcc (loadOp lim) 0 numOps []
  pure ⟨inputIds, outputIds, phMap, sortedOps⟩

end DW
