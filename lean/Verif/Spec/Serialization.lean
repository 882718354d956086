import Verif.Model.Serialization
/-!
# File formats and well-formed contents

The formats are written down here independently of the writers and readers: `Props/Serialization`
proves that the writers produce exactly these bytes and what the readers make of them.
-/

namespace DW.Spec

/-- A C++ `std::string`: every character is one byte. -/
def IsStr (s : String) : Prop := ∀ c ∈ s.toList, c.toNat < 256

/-- An `int`. -/
def IsInt (v : Int) : Prop := -2 ^ 31 ≤ v ∧ v < 2 ^ 31

/-- A string that fits the allocation limit. -/
def OkStr (lim : Nat) (s : String) : Prop := IsStr s ∧ s.length ≤ lim

def OkInts (lim : Nat) (l : List Int) : Prop := (∀ v ∈ l, IsInt v) ∧ l.length * 4 ≤ lim

def fmtSize (n : Nat) : List Byte := leBytes 8 n
def fmtString (s : String) : List Byte := fmtSize s.length ++ stringBytes s
def fmtInts (l : List Int) : List Byte := fmtSize l.length ++ l.flatMap intBytes
def fmtFloats (l : List F32) : List Byte := fmtSize l.length ++ l.flatMap floatBytes

/-- Name, shape, elements. -/
def fmtEntry (en : String × SavedTensor) : List Byte :=
  fmtString en.1 ++ fmtInts en.2.shape ++ en.2.bytes

/-- Kind 0, number of entries, entries. -/
def fmtState (d : Dict) : List Byte := intBytes 0 ++ fmtSize d.length ++ d.flatMap fmtEntry

def fmtAttr : AttrVal → List Byte
  | .int v => intBytes 0 ++ intBytes 1 ++ intBytes v
  | .float v => intBytes 0 ++ intBytes 2 ++ floatBytes v
  | .ints a b => intBytes 1 ++ intBytes 1 ++ fmtInts [a, b]
  | .floats a b => intBytes 1 ++ intBytes 2 ++ fmtFloats [a, b]
  | .unsupported => []

def fmtAttrs (l : Attrs) : List Byte :=
  fmtSize l.length ++ l.flatMap fun a => fmtString a.1 ++ fmtAttr a.2

def fmtPh (p : Int × (Shape × Int)) : List Byte := intBytes p.1 ++ fmtInts p.2.1

def fmtOp (o : OpInfo) : List Byte :=
  fmtString o.name ++ fmtString o.type ++ fmtInts o.inIds ++ fmtInts o.outIds ++ fmtAttrs o.attrs

/-- Kind 1, input ids, output ids, placeholders, operations. -/
def fmtCfg (c : Config) : List Byte :=
  intBytes 1 ++ fmtInts c.inputIds ++ fmtInts c.outputIds ++
  (fmtSize c.phMap.length ++ c.phMap.flatMap fmtPh) ++
  (fmtSize c.sortedOps.length ++ c.sortedOps.flatMap fmtOp)

/-- A dict that can exist: distinct keys, real strings and ints, sizes that fit. -/
structure OkDict (lim : Nat) (d : Dict) : Prop where
  nodup : (d.map Prod.fst).Nodup
  name : ∀ en ∈ d, OkStr lim en.1
  shape : ∀ en ∈ d, OkInts lim en.2.shape
  bytes : ∀ en ∈ d, en.2.bytes.length < 2 ^ 63
  count : d.length < 2 ^ 31

/-- The same keys with the same shapes and sizes, in any order and with any contents. -/
def SameLayout (d d' : Dict) : Prop :=
  ∀ k, (d.lookup k).map (fun t => (t.shape, t.bytes.length)) =
    (d'.lookup k).map fun t => (t.shape, t.bytes.length)

/-- An attribute the file format supports. -/
def OkAttr : AttrVal → Prop
  | .int v => IsInt v
  | .float _ => True
  | .ints a b => IsInt a ∧ IsInt b
  | .floats _ _ => True
  | .unsupported => False

structure OkOp (lim : Nat) (o : OpInfo) : Prop where
  name : OkStr lim o.name
  type : OkStr lim o.type
  inIds : OkInts lim o.inIds
  outIds : OkInts lim o.outIds
  keys : (o.attrs.map Prod.fst).Nodup
  attr : ∀ a ∈ o.attrs, OkStr lim a.1 ∧ OkAttr a.2
  count : o.attrs.length < 2 ^ 31

/-- A config that can exist and uses supported attributes only. -/
structure OkCfg (lim : Nat) (c : Config) : Prop where
  inputs : OkInts lim c.inputIds
  outputs : OkInts lim c.outputIds
  keys : (c.phMap.map Prod.fst).Nodup
  ph : ∀ p ∈ c.phMap, IsInt p.1 ∧ OkInts lim p.2.1 ∧ p.2.2 = p.1
  phCount : c.phMap.length < 2 ^ 31
  op : ∀ o ∈ c.sortedOps, OkOp lim o
  opCount : c.sortedOps.length < 2 ^ 31

end DW.Spec
