import Verif.Model.DataLoader
import Verif.Model.Image
/-!
# The datasets of the samples

`samples/iris/utility.cpp`, `samples/mnist/utility.cpp`, `samples/cifar10/utility.cpp` and `samples/cifar100/utility.cpp`. A text file
is its characters; a directory is what `fs::directory_iterator` lists, in the order in which it does, which the standard leaves open.
How `atof` reads a number, and the arithmetic on elements, are parameters. Memory that is not used any more is not given back.
-/

set_option autoImplicit false

namespace DW.Samples

open DW.Tensor DW.Image

variable {α : Type}

/-! ## Iris -/

/-- `line.find(',', start_pos)`. -/
def findComma (line : List Char) (start : Nat) : Option Nat := ((line.drop start).findIdx? (· == ',')).map (start + ·)

theorem findComma_some {line : List Char} {start k : Nat} (h : findComma line start = some k) : start ≤ k ∧ k < line.length := by
  obtain ⟨j, hj, rfl⟩ := Option.map_eq_some_iff.1 h
  have := (List.findIdx?_eq_some_iff_getElem.1 hj).1
  rw [List.length_drop] at this
  omega

/-- The loop of `SplitLineByComma` and what follows it, from `start_pos` on (samples/iris/utility.cpp:10-17). -/
def splitFrom (line : List Char) (start : Nat) : List (List Char) :=
  match h : findComma line start with
  | some k => (line.drop start).take (k - start) :: splitFrom line (k + 1)
  | none => [line.drop start]
termination_by line.length - start
decreasing_by have := findComma_some h; omega

/-- `SplitLineByComma` (samples/iris/utility.cpp:7-20). -/
def splitLineByComma (line : List Char) : List (List Char) := splitFrom line 0

/-- `std::getline`: the line and what is left of the file; `none` if the stream was at its end. -/
def getline (cs : List Char) : Option (List Char × List Char) :=
  if cs = [] then none else some (cs.takeWhile (· != '\n'), (cs.dropWhile (· != '\n')).drop 1)

theorem getline_length {cs line rest : List Char} (h : getline cs = some (line, rest)) : rest.length < cs.length := by
  unfold getline at h
  split at h
  · cases h
  · rename_i hne
    obtain ⟨-, rfl⟩ := Prod.mk.inj (Option.some.inj h)
    rw [List.length_drop]
    have h1 := (List.dropWhile_suffix (l := cs) (· != '\n')).length_le
    have h2 := List.length_pos_iff.2 hne
    omega

/-- `IrisInfo` (samples/iris/utility.hpp:10-16). -/
structure IrisInfo (α : Type) where
  sepalLength : α
  sepalWidth : α
  petalLength : α
  petalWidth : α
  label : Int
  deriving DecidableEq, Repr

/-- The static `m_iris2label`. -/
abbrev Labels := List (List Char × Int)

/-- Its initial contents (samples/iris/utility.cpp:24-28). -/
def iris2label : Labels := [("setosa".toList, 0), ("versicolor".toList, 1), ("virginica".toList, 2)]

/-- `map[key]` of a `std::unordered_map<std::string, int>`: inserts 0 if the key is new. -/
def mapAt (key : List Char) : M Labels Int := fun m =>
  match m.lookup key with
  | some v => (.ok v, m)
  | none => (.ok 0, m ++ [(key, 0)])

/-- What a function that takes a C string sees of a `std::string`. -/
def cstr (s : List Char) : List Char := s.takeWhile (· ≠ Char.ofNat 0)

/-- The body of the reading loop (samples/iris/utility.cpp:40-49). -/
def irisRow (atof : List Char → α) (line : List Char) : M Labels (IrisInfo α) := do
  let features := splitLineByComma line
  let a ← M.lift (Out.idx features 0)
  let b ← M.lift (Out.idx features 1)
  let c ← M.lift (Out.idx features 2)
  let d ← M.lift (Out.idx features 3)
  let s ← M.lift (Out.idx features 4)
  let label ← mapAt s
  pure ⟨atof (cstr a), atof (cstr b), atof (cstr c), atof (cstr d), label⟩

/-- The reading loop, on what is left of the file (samples/iris/utility.cpp:39-50). -/
def irisRows (atof : List Char → α) (cs : List Char) : M Labels (List (IrisInfo α)) :=
  match h : getline cs with
  | none => pure []
  | some (line, rest) => do
    let r ← irisRow atof line
    let more ← irisRows atof rest
    pure (r :: more)
termination_by cs.length
decreasing_by exact getline_length h

/-- The constructor of `IrisCSVDataset` (samples/iris/utility.cpp:30-51); `none` is a file that cannot be opened. The result is `m_info`. -/
def irisDataset (atof : List Char → α) (file : Option (List Char)) : M Labels (List (IrisInfo α)) :=
  let cs := file.getD []
  match getline cs with
  | none => irisRows atof cs
  | some (_, rest) => irisRows atof rest

/-- `m_info[idx]`. -/
def infoAt {β : Type} (info : List β) (idx : Int) : Out β := if 0 ≤ idx then Out.idx info idx.toNat else .ub .oob

/-- `IrisCSVDataset::pull` (samples/iris/utility.cpp:61-68). `ofInt` converts the label to `float`. -/
def irisPull (ofInt : Int → α) (info : List (IrisInfo α)) (idx : Int) (X y : Handle) : M (Heap α) Unit := do
  let r ← M.lift (infoAt info idx)
  Tensor.write X 0 r.sepalLength
  Tensor.write X 1 r.sepalWidth
  Tensor.write X 2 r.petalLength
  Tensor.write X 3 r.petalWidth
  Tensor.write y 0 (ofInt r.label)

/-! ## Directories of images -/

/-- What iterating over the root lists: names, and the paths in them, `none` for what is not a directory. -/
abbrev Listing := List (List Char × Option (List (List Char)))

/-- `DataInfo` (samples/mnist/utility.hpp:9-12, samples/cifar10/utility.hpp:9-12, samples/cifar100/utility.hpp:12-15). -/
structure DataInfo where
  path : List Char
  label : Int
  deriving DecidableEq, Repr

/-- The loops of the three constructors (samples/mnist/utility.cpp:15-20, samples/cifar10/utility.cpp:28-33,
samples/cifar100/utility.cpp:18-37). Iterating over something that is not a directory throws. -/
def folder {σ : Type} (labelOf : List Char → M σ Int) : Listing → M σ (List DataInfo)
  | [] => pure []
  | (name, files) :: rest => do
    let label ← labelOf name
    match files with
    | none => M.lift (.throw .std)
    | some files => do
      let more ← folder labelOf rest
      pure (files.map (⟨·, label⟩) ++ more)

/-- The constructors; `none` is a root that is not a directory. -/
def folderDataset {σ : Type} (labelOf : List Char → M σ Int) (root : Option Listing) : M σ (List DataInfo) :=
  match root with
  | none => M.lift (.throw .std)
  | some l => folder labelOf l

/-- `isspace` in the C locale. -/
def isSpace (c : Char) : Bool := c == ' ' || (9 ≤ c.toNat && c.toNat ≤ 13)

/-- The value of decimal digits. -/
def digits (l : List Char) : Nat := l.foldl (fun n c => 10 * n + (c.toNat - '0'.toNat)) 0

/-- `std::stoi(s)`: white space, a sign, digits; what follows is ignored. -/
def stoi (s : List Char) : Out Int :=
  let s := s.dropWhile isSpace
  let neg := s.head? == some '-'
  let s := if s.head? == some '-' || s.head? == some '+' then s.drop 1 else s
  let ds := s.takeWhile Char.isDigit
  if ds = [] then .throw .std
  else
    let v : Int := if neg then -(digits ds : Int) else digits ds
    if fitsInt v then .ok v else .throw .outOfRange

/-- MNIST: the label is the number of the directory (samples/mnist/utility.cpp:16). -/
def mnistLabel (name : List Char) : M Unit Int := M.lift (stoi name)

/-- The global `label2digit` (samples/cifar10/utility.cpp:9-20). -/
def label2digit : Labels :=
  [("airplane".toList, 0), ("automobile".toList, 1), ("bird".toList, 2), ("cat".toList, 3), ("deer".toList, 4), ("dog".toList, 5),
    ("frog".toList, 6), ("horse".toList, 7), ("ship".toList, 8), ("truck".toList, 9)]

/-- CIFAR-10: the label of the name (samples/cifar10/utility.cpp:29). -/
def cifar10Label (name : List Char) : M Labels Int := mapAt name

/-- The static `label_counter_` and `dir2label_`. -/
structure Dirs where
  counter : Int
  map : Labels

/-- Their initial values (samples/cifar100/utility.cpp:9-10). -/
def Dirs.initial : Dirs := ⟨0, []⟩

/-- CIFAR-100: a new name gets the next number (samples/cifar100/utility.cpp:19-32). -/
def cifar100Label (name : List Char) : M Dirs Int := fun d =>
  match d.map.lookup name with
  | some label => if label = -1 then (.throw .std, d) else (.ok label, d)
  | none =>
    if fitsInt (d.counter + 1) then
      if d.counter = -1 then (.throw .std, ⟨d.counter + 1, d.map ++ [(name, d.counter)]⟩)
      else (.ok d.counter, ⟨d.counter + 1, d.map ++ [(name, d.counter)]⟩)
    else (.ub .overflow, ⟨d.counter, d.map ++ [(name, d.counter)]⟩)

/-! ## Images -/

/-- The loop of `std::transform` over elements `i`, `i + 1`, …: each is replaced by `f` of it. -/
def mapLoop (p : Ptr) (f : α → α) (i : Nat) : Nat → M (Heap α) Unit
  | 0 => pure ()
  | n + 1 => do
    match ← loadCell ⟨p.block, p.off + i⟩ with
    | none => M.lift (.ub .uninit)
    | some a => do
      storeCell ⟨p.block, p.off + i⟩ (some (f a))
      mapLoop p f (i + 1) n

/-- `normalize(t, 255)` (samples/mnist/utility.cpp:9-12 and the same in the other two); `div` divides by 255. -/
def normalize (div : α → α) (t : Handle) : M (Heap α) Unit := do
  let d ← desc t
  match d.total, d.data with
  | 0, _ => pure ()
  | n + 1, some p => mapLoop p div 0 (n + 1)
  | _, none => M.lift (.ub .null)

/-- `Dataset::pull` of MNIST (samples/mnist/utility.cpp:31-36). -/
def mnistPull (ofByte : Nat → α) (div : α → α) (ofInt : Int → α) (fs : Files) (info : List DataInfo) (idx : Int) (X y : Handle) :
    M (Heap α) Ended := do
  let r ← M.lift (infoAt info idx)
  match ← readImage ofByte fs (.ofString r.path) X with
  | .exited => pure .exited
  | .returned => do
    normalize div X
    Tensor.write y 0 (ofInt r.label)
    pure .returned

/-- The tensors of the program, and the member `m_image` of the dataset. -/
structure Cifar (α : Type) where
  heap : Heap α
  image : Handle

/-- Run a tensor operation. -/
def onTensors {β : Type} (x : M (Heap α) β) : M (Cifar α) β := fun s => ((x s.heap).1, { s with heap := (x s.heap).2 })

/-- `dst[i] = src[j]` for elements of two tensors. -/
def moveElem (src dst : Ptr) (i j : Nat) : M (Heap α) Unit := do
  match ← loadCell ⟨src.block, src.off + j⟩ with
  | none => M.lift (.ub .uninit)
  | some a => storeCell ⟨dst.block, dst.off + i⟩ (some a)

/-- The loop of `HWC2CHW` (samples/cifar10/utility.cpp:66-81, samples/cifar100/utility.cpp:69-84). -/
def chwLoop (src dst : Ptr) (total s t : Nat) : M (Heap α) Unit :=
  if s < total then do
    moveElem src dst t s
    moveElem src dst (t + 32 * 32) (s + 1)
    moveElem src dst (t + 2 * (32 * 32)) (s + 2)
    chwLoop src dst total (s + 3) (t + 1)
  else pure ()
termination_by total - s

/-- `HWC2CHW` (samples/cifar10/utility.cpp:52-82, samples/cifar100/utility.cpp:55-85). -/
def hwc2chw (t : Handle) : M (Cifar α) Unit := do
  let d ← onTensors (desc t)
  let s ← M.get
  let di ← onTensors (desc s.image)
  if di.shape ≠ d.shape then do
    let u ← onTensors (ofShape d.shape)
    M.modify fun s => { s with image := u }
  else pure ()
  let s ← M.get
  onTensors (copyTo t s.image)
  let src ← onTensors (elemPtr s.image 0)
  let dst ← onTensors (elemPtr t 0)
  onTensors (chwLoop src dst d.total 0 0)

/-- `CIFAR10Dataset::pull` (samples/cifar10/utility.cpp:44-50), `CIFAR100Dataset::pull` (samples/cifar100/utility.cpp:47-53). -/
def cifarPull (ofByte : Nat → α) (div : α → α) (ofInt : Int → α) (fs : Files) (info : List DataInfo) (idx : Int) (X y : Handle) :
    M (Cifar α) Ended := do
  let r ← M.lift (infoAt info idx)
  match ← onTensors (readImage ofByte fs (.ofString r.path) X) with
  | .exited => pure .exited
  | .returned => do
    hwc2chw X
    onTensors (normalize div X)
    onTensors (Tensor.write y 0 (ofInt r.label))
    pure .returned

end DW.Samples
