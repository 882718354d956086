import Verif.Lemmas.SamplesPull
import Verif.Lemmas.SamplesLabel
import Verif.Props.DataLoader
/-!
# Properties C87–C89: the datasets of the samples

`C87`: the Iris dataset contains the rows of its table. `C88`: `pull` of the image datasets writes the pixels of the picture. `C89`: the
label of a picture is the number of its directory.
-/

set_option autoImplicit false

namespace DW.Props.SamplesP

open DW DW.Spec DW.Samples DW.SamplesL DW.Tensor DW.Image DW.ImageL DW.Props.ImageP

variable {α : Type}

/-! ## C87 -/

/-- The label map of the Iris dataset in a program that has read some tables: the three species have their numbers. -/
def IrisMap (m : Labels) : Prop := Numbers species m

theorem irisMap_initial : IrisMap iris2label := iris_numbers

/-- **C87**: the dataset of a table, with a header and at least five fields in each row, has the rows of the table as its entries, in the
same order, whether or not the last line ends with a line feed, and whatever tables the program has read before. The label of a row is
the number of its species. -/
theorem iris_rows_partial (atof : List Char → α) {text header : List Char} {rows : List (List (List Char))} (ht : IsTable text header rows)
    (h5 : ∀ r ∈ rows, 5 ≤ r.length) (hsp : ∀ r ∈ rows, (species (r.getD 4 [])).isSome) {m : Labels} (hm : IrisMap m) :
    ∃ m' info, irisDataset atof (some text) m = (.ok info, m') ∧ IrisMap m' ∧ info.length = rows.length ∧
      ∀ (i : Nat) (r : List (List Char)), rows[i]? = some r → ∃ e k, info[i]? = some e ∧ species (r.getD 4 []) = some k ∧ e.label = k ∧
        e.sepalLength = atof (cstr (r.getD 0 [])) ∧ e.sepalWidth = atof (cstr (r.getD 1 [])) ∧
        e.petalLength = atof (cstr (r.getD 2 [])) ∧ e.petalWidth = atof (cstr (r.getD 3 [])) := by
  obtain ⟨m', e, hm'⟩ := rowsProg_ok atof rows m (fun r hr => ⟨h5 r hr, fun f hf => ((ht.2.1 r hr).2 f hf).1⟩) hm
  refine ⟨m', rows.map (infoOfRow atof), by rw [irisDataset_table atof ht, e], hm', by simp, fun i r hr => ?_⟩
  obtain ⟨k, hk⟩ := Option.isSome_iff_exists.1 (hsp r (List.mem_of_getElem? hr))
  exact ⟨infoOfRow atof r, k, by rw [List.getElem?_map, hr]; rfl, hk, by rw [infoOfRow, hk]; rfl, rfl, rfl, rfl, rfl⟩

/-- **C87**: entry `idx` is what the data loader gets: `pull` is that of the dataset `irisData`, to which the theorems about the data
loader apply. -/
theorem iris_pull {h : Heap α} {X y : Handle} {dX dy : Desc} {p q : Ptr} (wX : Window h X dX p 4) (wy : Window h y dy q 1)
    (ofInt : Int → α) (info : List (IrisInfo α)) (idx : Int) :
    irisPull ofInt info idx X y h = (irisData ofInt info).pull idx X y h := irisPull_eq wX wy ofInt info idx

/-- The rest of **C87**: a species that is not one of the three does not get the number of one of them. -/
def UnknownRejected : Prop := ∀ (text header : List Char) (rows : List (List (List Char))), IsTable text header rows → (∀ r ∈ rows, 5 ≤ r.length) →
  (∃ r ∈ rows, species (r.getD 4 []) = none) → ∀ info m', irisDataset (fun _ => ()) (some text) iris2label = (.ok info, m') →
    ∀ e ∈ info, ∃ r ∈ rows, species (r.getD 4 []) = some e.label

def oneRow (name : String) : List (List Char) := ["5.1".toList, "3.5".toList, "1.4".toList, "0.2".toList, name.toList]

theorem oneRow_table (name : String) (h : ',' ∉ name.toList ∧ '\n' ∉ name.toList) :
    IsTable (csvText "header".toList [oneRow name]) "header".toList [oneRow name] := by
  refine ⟨by decide, fun r hr => ?_, .inl rfl⟩
  obtain rfl := List.mem_singleton.1 hr
  refine ⟨by simp [oneRow], fun f hf => ?_⟩
  simp only [oneRow, List.mem_cons, List.not_mem_nil, or_false] at hf
  rcases hf with rfl | rfl | rfl | rfl | rfl
  · decide
  · decide
  · decide
  · decide
  · exact h

/-- Any other name counts as the first species. -/
theorem unknown_is_setosa (name : String) (h : ',' ∉ name.toList ∧ '\n' ∉ name.toList) (hs : species name.toList = none) :
    ∃ m', irisDataset (fun _ => ()) (some (csvText "header".toList [oneRow name])) iris2label = (.ok [⟨(), (), (), (), 0⟩], m') := by
  obtain ⟨m', e, -⟩ := rowsProg_ok (fun _ => ()) [oneRow name] iris2label (fun r hr => by
    obtain rfl := List.mem_singleton.1 hr
    exact ⟨by simp [oneRow], fun f hf => (((oneRow_table name h).2.1 _ hr).2 f hf).1⟩) iris_numbers
  refine ⟨m', ?_⟩
  rw [irisDataset_table _ (oneRow_table name h), e]
  have : infoOfRow (fun _ => ()) (oneRow name) = ⟨(), (), (), (), 0⟩ := by
    unfold infoOfRow
    rw [show (oneRow name).getD 4 [] = name.toList from rfl, hs]
    rfl
  simp [this]

/-- **C87** is violated, for instance by a file with carriage returns: every row has the label 0. -/
theorem unknown_accepted : ¬ UnknownRejected := by
  intro h
  obtain ⟨m', e⟩ := unknown_is_setosa "virginica\r" (by decide) (by decide)
  obtain ⟨r, hr, hs⟩ := h _ _ _ (oneRow_table "virginica\r" (by decide)) (fun r hr => by
    obtain rfl := List.mem_singleton.1 hr
    simp [oneRow]) ⟨_, List.mem_singleton.2 rfl, by decide⟩ _ _ e _ (List.mem_singleton.2 rfl)
  obtain rfl := List.mem_singleton.1 hr
  revert hs
  decide

/-- **C87** is violated by a row with fewer than five fields, such as an empty line at the end: undefined behaviour. -/
theorem short_row_ub (atof : List Char → α) {text header : List Char} {rows : List (List (List Char))} (ht : IsTable text header rows)
    (hs : ∃ r ∈ rows, r.length < 5) {m : Labels} (hm : IrisMap m) : (irisDataset atof (some text) m).1 = .ub .oob := by
  obtain ⟨m', e⟩ := rowsProg_short atof rows m (fun r hr => ⟨(ht.2.1 r hr).1, fun f hf => ((ht.2.1 r hr).2 f hf).1⟩) hs hm
  rw [irisDataset_table atof ht, e]

/-- **C87** is violated by a file that cannot be opened: the dataset is empty, without an error. -/
theorem missing_file_empty (atof : List Char → α) (m : Labels) : irisDataset atof none m = (.ok [], m) := by
  show irisRows atof [] m = _
  rw [irisRows_nil]
  rfl

def twoRows : List (List (List Char)) := [oneRow "virginica", oneRow "setosa"]

theorem two_table : IsTable ("a,b\n5.1,3.5,1.4,0.2,virginica\n5.1,3.5,1.4,0.2,setosa".toList) "a,b".toList twoRows :=
  ⟨by decide, by decide, .inr ⟨by decide, by decide⟩⟩

example : ∃ m' info, irisDataset (fun l => l.length) (some "a,b\n5.1,3.5,1.4,0.2,virginica\n5.1,3.5,1.4,0.2,setosa".toList) iris2label = (.ok info, m') ∧
    info.length = 2 ∧ info[0]?.map (·.label) = some 2 ∧ info[1]?.map (·.label) = some 0 := by
  obtain ⟨m', info, e, -, hl, hi⟩ := iris_rows_partial (fun l => l.length) two_table (by decide) (by decide) irisMap_initial
  obtain ⟨e0, k0, a0, b0, c0, -⟩ := hi 0 _ rfl
  obtain ⟨e1, k1, a1, b1, c1, -⟩ := hi 1 _ rfl
  refine ⟨m', info, e, hl, ?_, ?_⟩
  · rw [a0, Option.map_some, c0, ← b0]; decide
  · rw [a1, Option.map_some, c1, ← b1]; decide

example : (irisDataset (fun _ => ()) (some "a\n1,2,3,4,setosa\n\n".toList) iris2label).1 = .ub .oob :=
  short_row_ub _ (header := "a".toList) (rows := [["1".toList, "2".toList, "3".toList, "4".toList, "setosa".toList], [[]]])
    ⟨by decide, by decide, .inl (by decide)⟩ ⟨[[]], by simp, by decide⟩ irisMap_initial

/-! ## C88 -/

/-- Every file of the dataset is a picture with `n` numbers, one byte each. -/
def Pictures (fs : Files) (info : List DataInfo) (pic : List Char → Picture) (n : Nat) : Prop :=
  ∀ r ∈ info, Decodes fs (.ofString r.path) (pic r.path) ∧ Dense (pic r.path) ∧
    (pic r.path).height * (pic r.path).width * (pic r.path).channels = n

/-- **C88**, MNIST: `pull` writes the pixels of the picture, each divided by 255, and the label; it is `pull` of the dataset `mnistData`,
to which the theorems about the data loader apply. -/
theorem mnist_pull_partial {h : Heap α} {X y : Handle} {dX dy : Desc} {p q : Ptr} (wX : Window h X dX p 784) (wy : Window h y dy q 1)
    (ofByte : Nat → α) (div : α → α) (ofInt : Int → α) {fs : Files} {info : List DataInfo} {pic : List Char → Picture}
    (hp : Pictures fs info pic 784) {idx : Int} (hr : 0 ≤ idx ∧ idx < info.length) :
    ∃ h', (mnistData ofByte div ofInt info pic).pull idx X y h = (.ok (), h') ∧
      mnistPull ofByte div ofInt fs info idx X y h = (.ok .returned, h') := by
  obtain ⟨h', a, b, -⟩ := mnistPull_eq wX wy ofByte div ofInt hp hr
  exact ⟨h', a, b⟩

/-- **C88**, CIFAR-10 and CIFAR-100: on all memory but the dataset's own image, `pull` has the effect of `pull` of the dataset
`cifarData`. Its own image never becomes part of the batch, so this is so for every sequence of calls. -/
theorem cifar_pull_partial {s : Cifar α} {X y : Handle} {dX dy : Desc} {p q : Ptr} (wX : Window s.heap X dX p 3072) (hsh : dX.shape = [3, 32, 32])
    (hst : dX.strides = calculateStrides [3, 32, 32]) (wy : Window s.heap y dy q 1) (hs : Scratch s.heap s.image [p.block, q.block])
    (ofByte : Nat → α) (div : α → α) (ofInt : Int → α) {fs : Files} {info : List DataInfo} {pic : List Char → Picture}
    (hp : Pictures fs info pic 3072) {idx : Int} (hr : 0 ≤ idx ∧ idx < info.length) :
    ∃ h' s', (cifarData ofByte div ofInt info pic).pull idx X y s.heap = (.ok (), h') ∧
      cifarPull ofByte div ofInt fs info idx X y s = (.ok .returned, s') ∧ Scratch s'.heap s'.image [p.block, q.block] ∧
      (∀ (t : Handle) (d : Desc), s.heap.descs[t]? = some d → s'.heap.descs[t]? = some d) ∧
      (∀ c, (cell? s.heap c).isSome → (cell? s'.heap c).isSome) ∧
      ∀ c, (cell? s.heap c).isSome → c.block ∈ [p.block, q.block] ∨ NotScratch s.heap s.image c → cell? s'.heap c = cell? h' c :=
  cifarPull_eq wX hsh hst wy hs ofByte div ofInt hp hr

/-- **C88**: element `(c, y, x)` of a CIFAR sample is channel `c` of the pixel in row `y` and column `x`, divided by 255. -/
theorem cifar_pixel (ofByte : Nat → α) (div : α → α) (ofInt : Int → α) {info : List DataInfo} (pic : List Char → Picture) {idx : Nat}
    {r : DataInfo} (hr : info[idx]? = some r) (hw : (pic r.path).width = 32) (hc : (pic r.path).channels = 3) {c y x : Nat}
    (h1 : c < 3) (h2 : y < 32) (h3 : x < 32) :
    (cifarData ofByte div ofInt info pic).x idx (c * (32 * 32) + y * 32 + x) =
      div (ofByte (((pic r.path).rows.getD y []).getD (x * 3 + c) 0)) := by
  have := byte_pixel hw hc h1 h2 h3
  rw [show c * (32 * 32) + y * 32 + x = c * 1024 + (y * 32 + x) by omega, show x * 3 + c = 3 * x + c by omega, ← this]
  simp only [cifarData, pathAt, Int.toNat_natCast, hr, Option.map_some, Option.getD_some]

/-- **C88**: a picture with another number of bytes makes `pull` throw, and nothing is written. -/
theorem mnist_wrong_size {h : Heap α} {X : Handle} (y : Handle) {dX : Desc} {p : Ptr} (wX : Window h X dX p 784)
    (ofByte : Nat → α) (div : α → α) (ofInt : Int → α) {fs : Files} {info : List DataInfo} {r : DataInfo} {pic : Picture}
    (hp : Decodes fs (.ofString r.path) pic) (dp : Dense pic) (hn : pic.height * pic.width * pic.channels ≠ 784) {idx : Nat}
    (hr : info[idx]? = some r) : mnistPull ofByte div ofInt fs info idx X y h = (.throw .dw, h) :=
  mnistPull_size y wX ofByte div ofInt hp dp hn hr

theorem cifar_wrong_size {s : Cifar α} {X : Handle} (y : Handle) {dX : Desc} {p : Ptr} (wX : Window s.heap X dX p 3072)
    (ofByte : Nat → α) (div : α → α) (ofInt : Int → α) {fs : Files} {info : List DataInfo} {r : DataInfo} {pic : Picture}
    (hp : Decodes fs (.ofString r.path) pic) (dp : Dense pic) (hn : pic.height * pic.width * pic.channels ≠ 3072) {idx : Nat}
    (hr : info[idx]? = some r) : cifarPull ofByte div ofInt fs info idx X y s = (.throw .dw, s) :=
  cifarPull_size y wX ofByte div ofInt hp dp hn hr

/-- A program with a batch of one CIFAR sample, its label and a new dataset. -/
def cifarHeap : Heap Nat :=
  ⟨[⟨calculateStrides [3, 32, 32], [3, 32, 32], none, some ⟨0, 0⟩, 3072⟩, ⟨[1], [1], none, some ⟨1, 0⟩, 1⟩, {}],
    [some (List.replicate 3072 none), some [none]]⟩

theorem cifar_windows : ∃ dX dy, Window cifarHeap 0 dX ⟨0, 0⟩ 3072 ∧ dX.shape = [3, 32, 32] ∧ dX.strides = calculateStrides [3, 32, 32] ∧
    Window cifarHeap 1 dy ⟨1, 0⟩ 1 ∧ Scratch cifarHeap 2 [0, 1] := by
  refine ⟨_, _, ⟨rfl, rfl, rfl, fun i hi => ?_⟩, rfl, rfl, ⟨rfl, rfl, rfl, fun i hi => ?_⟩, ⟨{}, rfl, fun h => by simp at h⟩⟩
  · show ((List.replicate 3072 none)[0 + i]?).isSome
    rw [List.getElem?_replicate, if_pos (by omega)]
    rfl
  · obtain rfl : i = 0 := by omega
    rfl

/-- A grey picture of 48 rows and 64 columns, byte `64 y + x` at row `y` and column `x`. -/
def wide : Picture := ⟨48, 64, 1, (List.range 48).map fun y => (List.range 64).map fun x => 64 * y + x⟩

def wideFs : Files := fun n => if n = "a.png".toList then some ⟨.picture wide, .error⟩ else none

theorem wide_pictures : Pictures wideFs [⟨"a.png".toList, 7⟩] (fun _ => wide) 3072 := by
  intro r hr
  obtain rfl := List.mem_singleton.1 hr
  refine ⟨⟨⟨.picture wide, .error⟩, rfl, .inl ⟨.inl ⟨"a".toList, by decide, by decide⟩, rfl⟩⟩, ⟨by simp [wide], fun row hr => ?_, by decide, by decide⟩, by decide⟩
  obtain ⟨y, -, rfl⟩ := List.mem_map.1 hr
  simp [wide]

/-- The rest of **C88**: a file that is not a picture of 32×32 pixels with three channels makes `pull` throw. -/
def OtherRejected : Prop := ∀ (s : Cifar Nat) (X y : Handle) (dX dy : Desc) (p q : Ptr) (fs : Files) (r : DataInfo) (pic : Picture),
  Window s.heap X dX p 3072 → dX.shape = [3, 32, 32] → dX.strides = calculateStrides [3, 32, 32] → Window s.heap y dy q 1 →
  Scratch s.heap s.image [p.block, q.block] → Decodes fs (.ofString r.path) pic → Dense pic →
  ¬ (pic.height = 32 ∧ pic.width = 32 ∧ pic.channels = 3) → ∃ e, (cifarPull id id (fun i => i.toNat) fs [r] 0 X y s).1 = .throw e

/-- **C88** is violated: a grey picture of 48×64 pixels is cut into three "channels". -/
theorem other_accepted : ¬ OtherRejected := by
  intro h
  obtain ⟨dX, dy, w1, h1, h2, w2, hs⟩ := cifar_windows
  obtain ⟨d1, d2, d3⟩ := wide_pictures _ (List.mem_singleton.2 rfl)
  obtain ⟨e, he⟩ := h ⟨cifarHeap, 2⟩ 0 1 dX dy _ _ wideFs ⟨"a.png".toList, 7⟩ wide w1 h1 h2 w2 hs d1 d2 (by decide)
  obtain ⟨h', s', -, e', -⟩ := cifar_pull_partial (s := ⟨cifarHeap, 2⟩) w1 h1 h2 w2 hs id id (fun i => i.toNat) wide_pictures (idx := 0) (by decide)
  rw [e'] at he
  cases he

example : ∃ h' s', cifarPull id id (fun i => i.toNat) wideFs [⟨"a.png".toList, 7⟩] 0 0 1 ⟨cifarHeap, 2⟩ = (.ok .returned, s') ∧
    (cifarData id id (fun i => i.toNat) [⟨"a.png".toList, 7⟩] fun _ => wide).pull 0 0 1 cifarHeap = (.ok (), h') ∧
    cell? s'.heap ⟨0, 1025⟩ = cell? h' ⟨0, 1025⟩ := by
  obtain ⟨dX, dy, w1, h1, h2, w2, hs⟩ := cifar_windows
  obtain ⟨h', s', e, e', -, -, -, hc⟩ := cifar_pull_partial (s := ⟨cifarHeap, 2⟩) w1 h1 h2 w2 hs id id (fun i => i.toNat) wide_pictures
    (idx := 0) (by decide)
  exact ⟨h', s', e', e, hc _ (by have := w1.cells 1025 (by decide); rwa [Nat.zero_add] at this) (.inl (by simp))⟩

/-- A grey picture of 28×28 pixels. -/
def digit : Picture := ⟨28, 28, 1, (List.range 28).map fun y => (List.range 28).map fun x => y + x⟩

def digitFs : Files := fun n => if n = "a.png".toList then some ⟨.picture digit, .error⟩ else none

theorem digit_pictures : Pictures digitFs [⟨"a.png".toList, 7⟩] (fun _ => digit) 784 := by
  intro r hr
  obtain rfl := List.mem_singleton.1 hr
  refine ⟨⟨⟨.picture digit, .error⟩, rfl, .inl ⟨.inl ⟨"a".toList, by decide, by decide⟩, rfl⟩⟩, ⟨by simp [digit], fun row hr => ?_, by decide, by decide⟩, by decide⟩
  obtain ⟨y, -, rfl⟩ := List.mem_map.1 hr
  simp [digit]

def digitHeap : Heap Nat := ⟨[⟨[1], [784], none, some ⟨0, 0⟩, 784⟩, ⟨[1], [1], none, some ⟨1, 0⟩, 1⟩], [some (List.replicate 784 none), some [none]]⟩

example : ∃ h', mnistPull id id (fun i => i.toNat) digitFs [⟨"a.png".toList, 7⟩] 0 0 1 digitHeap = (.ok .returned, h') ∧
    (mnistData id id (fun i => i.toNat) [⟨"a.png".toList, 7⟩] fun _ => digit).pull 0 0 1 digitHeap = (.ok (), h') := by
  obtain ⟨h', a, b⟩ := mnist_pull_partial (h := digitHeap) (X := 0) (y := 1) (p := ⟨0, 0⟩) (q := ⟨1, 0⟩) ⟨rfl, rfl, rfl, fun i hi => by
      show ((List.replicate 784 none)[0 + i]?).isSome
      rw [List.getElem?_replicate, if_pos (by omega)]
      rfl⟩ ⟨rfl, rfl, rfl, fun i hi => by
      obtain rfl : i = 0 := by omega
      rfl⟩ id id (fun i => i.toNat) digit_pictures (idx := 0) (by decide)
  exact ⟨h', b, a⟩

/-! ## C89 -/

/-- **C89**, MNIST: if every directory is named by a number, the dataset has every file, with the number of its directory. -/
theorem mnist_labels_partial (dirs : List (Nat × List (List Char))) (hf : ∀ d ∈ dirs, d.1 ≤ 2147483647) :
    folderDataset mnistLabel (some (listing (dirs.map fun d => (Nat.toDigits 10 d.1, d.2)))) () =
      (.ok (dirs.flatMap fun d => d.2.map fun path => ⟨path, d.1⟩), ()) := by
  show folder _ _ _ = _
  obtain ⟨s', e, -⟩ := folder_ok (labelOf := mnistLabel) (I := fun _ => True) (number := fun l => (digits l : Int))
    (dirs.map fun d => (Nat.toDigits 10 d.1, d.2)) () (fun d hd s _ => by
      obtain ⟨x, hx, rfl⟩ := List.mem_map.1 hd
      refine ⟨(), ?_, trivial⟩
      rw [mnistLabel, stoi_decimal (hf x hx), digits_toDigits]
      rfl) trivial
  rw [e]
  simp [labelled, List.flatMap_map, digits_toDigits]

/-- **C89**, MNIST: anything in the root that is not a directory, or whose name starts with a letter, makes the constructor throw. -/
theorem mnist_label_throws (l : Listing) (h : ∃ x ∈ l, x.2 = none ∨
    ∃ c cs, x.1 = c :: cs ∧ c.isDigit = false ∧ isSpace c = false ∧ c ≠ '-' ∧ c ≠ '+') : ∃ e, folderDataset mnistLabel (some l) () = (.throw e, ()) := by
  obtain ⟨x, hx, hh⟩ := h
  refine mnist_throws l ⟨x, hx, ?_⟩
  rcases hh with hh | ⟨c, cs, e, hc⟩
  · exact .inr hh
  · exact .inl ⟨.std, by rw [e]; exact stoi_letter hc⟩

/-- **C89**, MNIST, other names: spaces before the number and anything after it are ignored, and a sign counts, so that a directory
`-1` gives the label -1. -/
theorem mnist_label_read {ws rest : List Char} (hw : ∀ c ∈ ws, isSpace c) (hr : ∀ c, rest.head? = some c → c.isDigit = false) {k : Nat}
    (hk : k ≤ 2147483647) (files : List (List Char)) :
    folderDataset mnistLabel (some [(ws ++ (Nat.toDigits 10 k ++ rest), some files)]) () = (.ok (files.map (⟨·, k⟩)), ()) ∧
    folderDataset mnistLabel (some [(ws ++ ('+' :: (Nat.toDigits 10 k ++ rest)), some files)]) () = (.ok (files.map (⟨·, k⟩)), ()) ∧
    folderDataset mnistLabel (some [(ws ++ ('-' :: (Nat.toDigits 10 k ++ rest)), some files)]) () = (.ok (files.map (⟨·, -k⟩)), ()) := by
  obtain ⟨h1, h2, h3⟩ := stoi_prefix hw hr k
  have one : ∀ {name v}, stoi name = .ok v → folderDataset mnistLabel (some [(name, some files)]) () = (.ok (files.map (⟨·, v⟩)), ()) :=
    fun {name v} h => by
      show folder _ _ _ = _
      have hv : mnistLabel name () = (.ok v, ()) := by rw [mnistLabel, h]; rfl
      rw [folder, M.bind_ok hv]
      show ((Out.ok (files.map (fun x => (⟨x, v⟩ : DataInfo)) ++ []), ()) : Out (List DataInfo) × Unit) = _
      rw [List.append_nil]
  exact ⟨one (h1 hk), one (h2 hk), one (h3 (by omega))⟩

example : folderDataset mnistLabel (some [(" -12x".toList, some ["a".toList])]) () = (.ok [⟨"a".toList, -12⟩], ()) :=
  (mnist_label_read (ws := [' ']) (rest := ['x']) (by decide) (by decide) (k := 12) (by decide) ["a".toList]).2.2

/-- The rest of **C89** for MNIST: a directory whose name is not a number makes the constructor throw. -/
def MnistNames : Prop := ∀ (l : Listing), (∃ x ∈ l, ∀ k : Nat, x.1 ≠ Nat.toDigits 10 k) → ∃ e, folderDataset mnistLabel (some l) () = (.throw e, ())

/-- **C89** is violated: `7-old` counts as 7. -/
theorem mnist_prefix_accepted : ¬ MnistNames := by
  intro h
  obtain ⟨e, he⟩ := h [("7-old".toList, some ["x.png".toList])] ⟨_, List.mem_singleton.2 rfl, fun k hk => by
    have : ∀ c ∈ Nat.toDigits 10 k, c.isDigit := fun c hc => Nat.isDigit_of_mem_toDigits (by decide) (by decide) hc
    rw [← hk] at this
    exact absurd (this '-' (by decide)) (by decide)⟩
  have : folderDataset mnistLabel (some [("7-old".toList, some ["x.png".toList])]) () = (.ok [⟨"x.png".toList, 7⟩], ()) := by rfl
  rw [this] at he
  cases he

/-- The number of a class of CIFAR-10. -/
def classNumber (name : List Char) : Int := cifar10Classes.idxOf name

/-- The label map of the CIFAR-10 dataset: every class has its number, and no other name has another number than 0. -/
def CifarMap (m : Labels) : Prop := Numbers (fun n => if n ∈ cifar10Classes then some (classNumber n) else none) m

theorem cifarMap_initial : CifarMap label2digit := by
  intro s
  show _ = (if s ∈ cifar10Classes then some (classNumber s) else none).getD 0
  by_cases h : s ∈ cifar10Classes
  · rw [if_pos h]
    simp only [cifar10Classes, List.mem_cons, List.not_mem_nil, or_false] at h
    rcases h with rfl | rfl | rfl | rfl | rfl | rfl | rfl | rfl | rfl | rfl <;> decide
  · rw [if_neg h]
    cases hl : label2digit.lookup s with
    | none => rfl
    | some v =>
      refine absurd ?_ h
      have := lookup_mem hl
      have hm : s ∈ label2digit.map Prod.fst := List.mem_map.2 ⟨_, this, rfl⟩
      exact hm

theorem cifarMap_reaches {m : Labels} (h : Reaches cifar10Label label2digit m) : CifarMap m := by
  refine reaches_inv (I := CifarMap) (fun name s hs _ => ?_) h cifarMap_initial
  obtain ⟨m', e, hm, -⟩ := mapAt_spec hs name
  rw [cifar10Label, e]
  exact hm

/-- **C89**, CIFAR-10: if every directory is named by a class, the dataset has every file, with the number of its class, whatever datasets
the program has made before. -/
theorem cifar10_labels_partial {m : Labels} (hm : Reaches cifar10Label label2digit m) (dirs : List (List Char × List (List Char)))
    (hc : ∀ d ∈ dirs, d.1 ∈ cifar10Classes) :
    ∃ m', folderDataset cifar10Label (some (listing dirs)) m = (.ok (labelled classNumber dirs), m') := by
  obtain ⟨m', e, -⟩ := folder_ok (labelOf := cifar10Label) (I := CifarMap) (number := classNumber) dirs m (fun d hd s hs => by
    obtain ⟨m', e, hm, -⟩ := mapAt_spec hs d.1
    refine ⟨m', ?_, hm⟩
    rw [if_pos (hc d hd)] at e
    exact e) (cifarMap_reaches hm)
  exact ⟨m', e⟩

/-- The classes have the numbers 0 to 9. -/
theorem classNumber_eq (i : Nat) (h : i < 10) : ∃ name, cifar10Classes[i]? = some name ∧ classNumber name = i := by
  have : ∀ i : Fin 10, ∃ name, cifar10Classes[i.1]? = some name ∧ classNumber name = i.1 := by
    intro i
    refine ⟨cifar10Classes[i.1]'(by have := i.2; simpa [cifar10Classes] using this), List.getElem?_eq_getElem _, ?_⟩
    revert i
    decide
  exact this ⟨i, h⟩

/-- The rest of **C89** for CIFAR-10: a directory that is not named by a class makes the constructor throw. -/
def CifarNames : Prop := ∀ (l : Listing), (∃ x ∈ l, x.1 ∉ cifar10Classes) → ∃ e, (folderDataset cifar10Label (some l) label2digit).1 = .throw e

/-- **C89** is violated: the files of any other directory count as airplanes. -/
theorem cifar10_unknown_accepted : ¬ CifarNames := by
  intro h
  obtain ⟨e, he⟩ := h [("plane".toList, some ["x.png".toList])] ⟨_, List.mem_singleton.2 rfl, by decide⟩
  have : (folderDataset cifar10Label (some [("plane".toList, some ["x.png".toList])]) label2digit).1 = .ok [⟨"x.png".toList, 0⟩] := by decide
  rw [this] at he
  cases he

/-- **C89**, CIFAR-100: take two datasets made one after the other in a program, with any others made before and between. There is one
numbering of names such that every file of either has the number of its directory; different directories have different numbers, and a
number is less than the count of the directories seen so far. -/
theorem cifar100_labels_partial {d0 d1 : Dirs} (h0 : Reaches cifar100Label Dirs.initial d0) (A B : List (List Char × List (List Char)))
    (fA : d0.counter + A.length ≤ 2147483647)
    (h1 : Reaches cifar100Label (folderDataset cifar100Label (some (listing A)) d0).2 d1) (fB : d1.counter + B.length ≤ 2147483647) :
    ∃ (number : List Char → Int) (a b : Dirs),
      folderDataset cifar100Label (some (listing A)) d0 = (.ok (labelled number A), a) ∧
      folderDataset cifar100Label (some (listing B)) d1 = (.ok (labelled number B), b) ∧
      (∀ x ∈ A ++ B, ∀ y ∈ A ++ B, number x.1 = number y.1 → x.1 = y.1) ∧
      (∀ x ∈ A, 0 ≤ number x.1 ∧ number x.1 < d0.counter + A.length) ∧ (∀ x ∈ B, 0 ≤ number x.1 ∧ number x.1 < d1.counter + B.length) := by
  obtain ⟨o0, -⟩ := dirs_reaches h0 initial_ok
  obtain ⟨a, ea, oa, xa, la, na⟩ := dirs_folder A d0 o0 fA
  have ea' : folderDataset cifar100Label (some (listing A)) d0 = (.ok (labelled (number a) A), a) := ea
  rw [ea'] at h1
  obtain ⟨o1, x1⟩ := dirs_reaches h1 oa
  obtain ⟨b, eb, ob, xb, lb, nb⟩ := dirs_folder B d1 o1 fB
  have c0 := o0.counter
  have c1 := o1.counter
  have hab : ∀ x ∈ A, number b x.1 = number a x.1 := fun x hx => number_ext (fun n v hv => xb n v (x1 n v hv)) (la x hx)
  have hsome : ∀ x ∈ A ++ B, (b.map.lookup x.1).isSome := fun x hx => by
    rcases List.mem_append.1 hx with hx | hx
    · obtain ⟨v, hv⟩ := Option.isSome_iff_exists.1 (la x hx)
      rw [xb _ _ (x1 _ _ hv)]; rfl
    · exact lb x hx
  refine ⟨number b, a, b, by rw [ea', labelled_congr hab], eb, fun x hx y hy he => ?_, fun x hx => ?_, fun x hx => ?_⟩
  · obtain ⟨v, hv⟩ := Option.isSome_iff_exists.1 (hsome x hx)
    obtain ⟨w, hw⟩ := Option.isSome_iff_exists.1 (hsome y hy)
    have : v = w := by simpa [number, hv, hw] using he
    subst this
    exact ob.inj hv hw
  · rw [hab x hx]
    obtain ⟨v, hv⟩ := Option.isSome_iff_exists.1 (la x hx)
    have := oa.range hv
    rw [number, hv, Option.getD_some]
    omega
  · obtain ⟨v, hv⟩ := Option.isSome_iff_exists.1 (lb x hx)
    have := ob.range hv
    rw [number, hv, Option.getD_some]
    omega

/-- The rest of **C89** for CIFAR-100: the labels do not depend on the order in which the directories are listed, which differs between
machines. -/
def OrderFree : Prop := ∀ A B : List (List Char × List (List Char)), A.Perm B → ∀ a b,
  (folderDataset cifar100Label (some (listing A)) Dirs.initial).1 = .ok a → (folderDataset cifar100Label (some (listing B)) Dirs.initial).1 = .ok b →
    ∀ x, x ∈ a → x ∈ b

/-- **C89** is violated: a model saved by a program need not agree with another program about the numbers of the classes. -/
theorem cifar100_order : ¬ OrderFree := by
  intro h
  have hp : List.Perm [("apple".toList, ["x.png".toList]), ("bear".toList, ["y.png".toList])]
    [("bear".toList, ["y.png".toList]), ("apple".toList, ["x.png".toList])] := List.Perm.swap _ _ _
  have := h _ _ hp [⟨"x.png".toList, 0⟩, ⟨"y.png".toList, 1⟩] [⟨"y.png".toList, 0⟩, ⟨"x.png".toList, 1⟩] (by decide) (by decide) ⟨"x.png".toList, 0⟩ (by simp)
  revert this
  decide

example : folderDataset mnistLabel (some (listing ([(7, ["a.png".toList]), (12, ["b.png".toList, "c.png".toList])].map
      fun d => (Nat.toDigits 10 d.1, d.2)))) () =
    (.ok [⟨"a.png".toList, 7⟩, ⟨"b.png".toList, 12⟩, ⟨"c.png".toList, 12⟩], ()) := mnist_labels_partial _ (by decide)

example : ∃ e, folderDataset mnistLabel (some [("7".toList, some []), (".DS_Store".toList, none)]) () = (.throw e, ()) :=
  mnist_label_throws _ ⟨(".DS_Store".toList, none), by simp, .inl rfl⟩

example : ∃ m', folderDataset cifar10Label (some (listing [("frog".toList, ["a.png".toList]), ("cat".toList, ["b.png".toList])])) label2digit =
    (.ok (labelled classNumber [("frog".toList, ["a.png".toList]), ("cat".toList, ["b.png".toList])]), m') ∧
    labelled classNumber [("frog".toList, ["a.png".toList]), ("cat".toList, ["b.png".toList])] = [⟨"a.png".toList, 6⟩, ⟨"b.png".toList, 3⟩] := by
  obtain ⟨m', e⟩ := cifar10_labels_partial .refl [("frog".toList, ["a.png".toList]), ("cat".toList, ["b.png".toList])] (by decide)
  exact ⟨m', e, by decide⟩

example : ∃ (number : List Char → Int) (a b : Dirs),
    folderDataset cifar100Label (some (listing [("apple".toList, ["x.png".toList]), ("bear".toList, ["y.png".toList])])) Dirs.initial =
      (.ok (labelled number [("apple".toList, ["x.png".toList]), ("bear".toList, ["y.png".toList])]), a) ∧
    folderDataset cifar100Label (some (listing [("bear".toList, ["z.png".toList])])) a = (.ok (labelled number [("bear".toList, ["z.png".toList])]), b) ∧
    number "apple".toList ≠ number "bear".toList := by
  obtain ⟨number, a, b, e1, e2, hi, -⟩ := cifar100_labels_partial .refl [("apple".toList, ["x.png".toList]), ("bear".toList, ["y.png".toList])]
    [("bear".toList, ["z.png".toList])] (by decide) .refl (by decide)
  rw [e1] at e2
  exact ⟨number, a, b, e1, e2, fun he => absurd (hi _ (List.mem_append_left _ (List.mem_cons_self ..)) _ (List.mem_append_left _ (List.mem_cons_of_mem _ (List.mem_singleton.2 rfl))) he)
    (by decide)⟩

end DW.Props.SamplesP
