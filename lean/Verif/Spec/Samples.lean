import Verif.Model.Samples
import Verif.Lemmas.Tensor
/-! # Specification vocabulary for the datasets of the samples -/

set_option autoImplicit false

namespace DW.Spec

open DW DW.Samples DW.Image DW.Tensor

variable {α : Type}

/-- A row of a table as a line of text: its fields with commas between them. -/
def csvLine (row : List (List Char)) : List Char := [','].intercalate row

/-- A table as a text: a line with the header, and a line for each row. -/
def csvText (header : List Char) (rows : List (List (List Char))) : List Char :=
  header ++ '\n' :: rows.flatMap fun r => csvLine r ++ ['\n']

/-- The text of a table, with or without a line feed at the end of the last line. -/
def IsTable (text header : List Char) (rows : List (List (List Char))) : Prop :=
  '\n' ∉ header ∧ (∀ r ∈ rows, r ≠ [] ∧ ∀ f ∈ r, ',' ∉ f ∧ '\n' ∉ f) ∧
    (text = csvText header rows ∨ text ++ ['\n'] = csvText header rows ∧ ∀ r ∈ rows.getLast?, r ≠ [[]])

/-- The species and their numbers. -/
def species (name : List Char) : Option Int :=
  if name = "setosa".toList then some 0
  else if name = "versicolor".toList then some 1
  else if name = "virginica".toList then some 2
  else none

/-- The classes of CIFAR-10 in the order of their numbers. -/
def cifar10Classes : List (List Char) :=
  ["airplane".toList, "automobile".toList, "bird".toList, "cat".toList, "deer".toList, "dog".toList, "frog".toList, "horse".toList,
    "ship".toList, "truck".toList]

/-- All files of the directories, in order, each with the number of its directory. -/
def labelled (number : List Char → Int) (dirs : List (List Char × List (List Char))) : List DataInfo :=
  dirs.flatMap fun d => d.2.map fun path => ⟨path, number d.1⟩

/-- A root that contains only directories. -/
def listing (dirs : List (List Char × List (List Char))) : Listing := dirs.map fun d => (d.1, some d.2)

/-- Byte `i` of a picture in the order of the file: row by row, in a row pixel by pixel, in a pixel channel by channel. -/
def Picture.byte (p : Picture) (i : Nat) : Nat := (p.rows.getD (i / (p.width * p.channels)) []).getD (i % (p.width * p.channels)) 0

/-- The program can get from `s` to `s'` by constructing datasets, some of which may fail with an exception. -/
inductive Reaches {σ : Type} (labelOf : List Char → M σ Int) (s : σ) : σ → Prop
  | refl : Reaches labelOf s s
  | step {s' : σ} (root : Option Listing) : Reaches labelOf s s' → (∀ u, (folderDataset labelOf root s').1 ≠ .ub u) →
      Reaches labelOf s (folderDataset labelOf root s').2

/-! ## What the datasets contain -/

/-- Entry `idx` of a dataset of rows: four numbers and the label. -/
def irisData (ofInt : Int → α) (info : List (IrisInfo α)) : Dataset α where
  size := info.length
  shapeX := [4]
  shapeY := [1]
  x idx j := match info[idx.toNat]? with
    | none => ofInt 0
    | some r => [r.sepalLength, r.sepalWidth, r.petalLength, r.petalWidth].getD j (ofInt 0)
  y idx _ := ofInt ((info[idx.toNat]?.map (·.label)).getD 0)

/-- The picture and the label of entry `idx` of a dataset of pictures. -/
def pathAt (info : List DataInfo) (idx : Int) : List Char := (info[idx.toNat]?.map (·.path)).getD []

def labelAt (info : List DataInfo) (idx : Int) : Int := (info[idx.toNat]?.map (·.label)).getD 0

/-- Grey pictures as vectors of numbers between 0 and 1. -/
def mnistData (ofByte : Nat → α) (div : α → α) (ofInt : Int → α) (info : List DataInfo) (pic : List Char → Picture) : Dataset α where
  size := info.length
  shapeX := [784]
  shapeY := [1]
  x idx j := div (ofByte (Picture.byte (pic (pathAt info idx)) j))
  y idx _ := ofInt (labelAt info idx)

/-- Pictures of 1024 pixels with three channels, channel by channel. -/
def cifarData (ofByte : Nat → α) (div : α → α) (ofInt : Int → α) (info : List DataInfo) (pic : List Char → Picture) : Dataset α where
  size := info.length
  shapeX := [3, 32, 32]
  shapeY := [1]
  x idx j := div (ofByte (Picture.byte (pic (pathAt info idx)) (3 * (j % 1024) + j / 1024)))
  y idx _ := ofInt (labelAt info idx)

/-! ## Tensors and memory -/

/-- Tensor `t` has descriptor `d`, whose `n` elements are at `p`. -/
structure Window (h : Heap α) (t : Handle) (d : Desc) (p : Ptr) (n : Nat) : Prop where
  desc : h.descs[t]? = some d
  total : d.total = n
  data : d.data = some p
  cells : ∀ i < n, (cell? h ⟨p.block, p.off + i⟩).isSome

/-- The cell is not one of these. -/
def Outside (p : Ptr) (n : Nat) (q : Ptr) : Prop := ¬ (q.block = p.block ∧ p.off ≤ q.off ∧ q.off < p.off + n)

/-- The member `m_image` is new, or has the shape of an image and memory of its own. -/
def Scratch (h : Heap α) (u : Handle) (others : List Nat) : Prop :=
  ∃ d, h.descs[u]? = some d ∧ (d.shape = [3, 32, 32] →
    d.strides = calculateStrides [3, 32, 32] ∧ ∃ r, Window h u d r 3072 ∧ r.block ∉ others)

/-- A cell that is not part of `m_image`. -/
def NotScratch (h : Heap α) (u : Handle) (q : Ptr) : Prop := ∀ d r, h.descs[u]? = some d → d.data = some r → Outside r 3072 q

end DW.Spec
