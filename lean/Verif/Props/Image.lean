import Verif.Lemmas.Image
/-!
# Properties C65, C66, C72, C73: reading images

A file is what libpng and libjpeg make of it; `Dense p` says that the decoder delivered `height`
rows of `width * channels` bytes and that the number of bytes fits an `int`.
-/

set_option autoImplicit false

namespace DW.Props.ImageP

open DW DW.Spec DW.Tensor DW.Image DW.ImageL DW.Props.TensorP

variable {α : Type}

/-! ## C65 -/

/-- The text after the last dot, or the whole path if it has none. -/
def HasExtension (path ext : List Char) : Prop :=
  (∃ stem, path = stem ++ '.' :: ext ∧ '.' ∉ ext) ∨ ('.' ∉ path ∧ ext = path)

theorem hasExtension_iff (path ext : List Char) : HasExtension path ext ↔ extension path = ext := by
  unfold extension
  cases h : findLastDot 0 path with
  | none =>
    have hn := (findLastDot_none _ _).1 h
    simp only [List.drop_zero]
    constructor
    · rintro (⟨s, e, -⟩ | ⟨-, e⟩)
      · exact absurd (by rw [e]; simp) hn
      · exact e.symm
    · intro e; exact .inr ⟨hn, e.symm⟩
  | some k =>
    obtain ⟨a, b, e1, e2, e3⟩ := findLastDot_some _ _ _ h
    have hdrop : path.drop (k + 1) = b := by
      rw [e1, e3, Nat.zero_add, List.drop_append, List.drop_eq_nil_of_le (by omega)]
      simp
    simp only [hdrop]
    constructor
    · rintro (⟨s, e, hs⟩ | ⟨hn, -⟩)
      · exact split_unique (e1.symm.trans e) e2 hs
      · exact absurd (by rw [e1]; simp) hn
    · rintro rfl; exact .inl ⟨a, e1, e2⟩

/-- **C65**: the format is chosen by the extension alone, whatever the path, the files and the
tensor are. -/
theorem dispatch (ofByte : Nat → α) (fs : Files) (path : View) (t : Handle) :
    (HasExtension path.text "png".toList → readImage ofByte fs path t = readPngFile ofByte fs path t) ∧
    (HasExtension path.text "jpg".toList ∨ HasExtension path.text "jpeg".toList →
      readImage ofByte fs path t = readJpegFile ofByte fs path t) ∧
    (¬ HasExtension path.text "png".toList → ¬ HasExtension path.text "jpg".toList →
      ¬ HasExtension path.text "jpeg".toList → ∀ h, readImage ofByte fs path t h = (.throw .dw, h)) := by
  simp only [hasExtension_iff]
  unfold readImage isPngFile isJpegFile
  refine ⟨fun h => ?_, fun h => ?_, fun h1 h2 h3 hp => ?_⟩
  · rw [if_pos (by simp [h])]
  · rw [if_neg (by rcases h with h | h <;> rw [h] <;> decide), if_pos (by rcases h with h | h <;> simp [h])]
  · rw [if_neg (by simpa using h1), if_neg (by simpa using ⟨h2, h3⟩)]
    rfl

example : HasExtension "a.b/c.png".toList "png".toList := .inl ⟨"a.b/c".toList, by decide, by decide⟩
example : HasExtension "png".toList "png".toList := .inr ⟨by decide, rfl⟩
example : ¬ HasExtension "a.PNG".toList "png".toList := by rw [hasExtension_iff]; decide
example : ¬ HasExtension "a.png/b".toList "png".toList := by rw [hasExtension_iff]; decide

/-! ## C66 -/

/-- `ReadImage(path, ..)` gets as far as decoding the picture `p`. -/
def Decodes (fs : Files) (path : View) (p : Picture) : Prop :=
  ∃ f, openFile fs path = .ok f ∧
    ((HasExtension path.text "png".toList ∧ f.png = .picture p) ∨
     ((HasExtension path.text "jpg".toList ∨ HasExtension path.text "jpeg".toList) ∧ f.jpeg = .picture p))

theorem decodes_run {fs : Files} {path : View} {p : Picture} (hp : Decodes fs path p) (ofByte : Nat → α) (t : Handle)
    (h : Heap α) : readImage ofByte fs path t h =
      (do prepare t p.height p.width p.channels; store ofByte t p; pure Ended.returned : M (Heap α) Ended) h := by
  obtain ⟨f, hf, ⟨he, hp⟩ | ⟨he, hp⟩⟩ := hp
  · rw [(dispatch ofByte fs path t).1 he, readPngFile]
    have : (M.lift (openFile fs path) : M (Heap α) File) h = (.ok f, h) := by rw [hf]; rfl
    rw [M.bind_ok this, hp]
  · rw [(dispatch ofByte fs path t).2.1 he, readJpegFile]
    have : (M.lift (openFile fs path) : M (Heap α) File) h = (.ok f, h) := by rw [hf]; rfl
    rw [M.bind_ok this, hp]

/-- **C66**: a picture of one byte per sample is stored densely in height-width-channel order. An
empty tensor gets the picture's shape, another one keeps its own. Every element is written, and no
other tensor changes. -/
theorem read_pixels {h : Heap α} (r : Reachable h) {t : Handle} {d : Desc} (hd : h.descs[t]? = some d) (ofByte : Nat → α)
    {fs : Files} {path : View} {p : Picture} (hp : Decodes fs path p) (dp : Dense p)
    (hsz : d.total = 0 ∨ d.total = p.height * p.width * p.channels) :
    ∃ h' d', readImage ofByte fs path t h = (.ok .returned, h') ∧ h'.descs[t]? = some d' ∧
      d'.total = p.height * p.width * p.channels ∧
      (d.total = 0 → d'.shape = [(p.height : Int), p.width, p.channels]) ∧ (d.total ≠ 0 → d' = d) ∧
      (∀ y x c, y < p.height → x < p.width → c < p.channels → ∃ row byte, p.rows[y]? = some row ∧
        row[x * p.channels + c]? = some byte ∧ elem h' t ((y * p.width + x) * p.channels + c) = some (some (ofByte byte))) ∧
      (∀ i < d'.total, ∃ v, elem h' t i = some (some v)) ∧
      (∀ u, u ≠ t → h'.descs[u]? = h.descs[u]? ∧ ∀ i, elem h' u i = elem h u i) := by
  obtain ⟨h1, d', b, e1, w1, hd1, hm, hdt, htot, hsh, hsame, hoth⟩ := prepare_ok (reachable_wf r) hd dp hsz
  obtain ⟨h2, e2, w2, hds, hpix, hoth2⟩ := store_spec ofByte w1 hd1 dp hm hdt htot
  refine ⟨h2, d', ?_, by rw [hds]; exact hd1, htot, hsh, hsame, ?_, ?_, ?_⟩
  · rw [decodes_run hp, M.bind_ok e1, M.bind_ok e2]; rfl
  · intro y x c hy hx hc
    have hy' : y < p.rows.length := by rw [dp.height]; exact hy
    have hj : x * p.channels + c < p.width * p.channels := by
      calc x * p.channels + c < x * p.channels + p.channels := by omega
        _ = (x + 1) * p.channels := by rw [Nat.add_mul, Nat.one_mul]
        _ ≤ p.width * p.channels := Nat.mul_le_mul_right _ hx
    have hrow : (p.rows[y]).length = p.width * p.channels := dp.width _ (List.getElem_mem _)
    refine ⟨p.rows[y], p.rows[y][x * p.channels + c]'(by omega), List.getElem?_eq_getElem _, List.getElem?_eq_getElem _, ?_⟩
    have := hpix y _ hy' hj
    rw [List.getD_eq_getElem?_getD, List.getElem?_eq_getElem (by omega), Option.getD_some] at this
    rw [← this]
    congr 1
    ring
  · intro i hi
    rw [htot, Nat.mul_assoc] at hi
    have hpos : 0 < p.width * p.channels := Nat.mul_pos dp.factors.2.1 dp.factors.2.2
    have hy : i / (p.width * p.channels) < p.rows.length := by
      rw [dp.height]; exact Nat.div_lt_of_lt_mul (by rw [Nat.mul_comm]; exact hi)
    have := hpix _ _ hy (Nat.mod_lt i hpos)
    rw [Nat.div_add_mod'] at this
    exact ⟨_, this⟩
  · intro u hu
    obtain ⟨h3, h4⟩ := hoth u hu
    exact ⟨by rw [hds]; exact h3, fun i => by rw [hoth2 u hu i, h4 i]⟩

/-- **C66**: a tensor of another size makes the call throw and is left alone. -/
theorem read_wrong_size {h : Heap α} {t : Handle} {d : Desc} (hd : h.descs[t]? = some d) (ofByte : Nat → α)
    {fs : Files} {path : View} {p : Picture} (hp : Decodes fs path p) (dp : Dense p)
    (h0 : d.total ≠ 0) (hsz : d.total ≠ p.height * p.width * p.channels) :
    readImage ofByte fs path t h = (.throw .dw, h) := by
  rw [decodes_run hp, M.bind_throw (prepare_throw hd dp h0 hsz)]

/-- The rest of **C66**: a missing file makes the call throw. -/
def MissingThrows : Prop := ∀ (fs : Files) (path : View) (t : Handle) (h : Heap Nat) (name : List Char),
  HasExtension path.text "png".toList ∨ HasExtension path.text "jpg".toList ∨ HasExtension path.text "jpeg".toList →
  cName path = .ok name → fs name = none → ∃ e, (readImage id fs path t h).1 = .throw e

/-- A missing file passes a null pointer to `fclose`, whatever its name. -/
theorem missing_is_ub (ofByte : Nat → α) (fs : Files) (path : View) (t : Handle) (h : Heap α) (name : List Char)
    (hx : HasExtension path.text "png".toList ∨ HasExtension path.text "jpg".toList ∨ HasExtension path.text "jpeg".toList)
    (hn : cName path = .ok name) (hf : fs name = none) : (readImage ofByte fs path t h).1 = .ub .null := by
  have : (M.lift (openFile fs path) : M (Heap α) File) h = (.ub .null, h) := by simp [openFile, hn, hf]
  rcases hx with hx | hx
  · rw [(dispatch ofByte fs path t).1 hx, readPngFile, M.bind_ub this]
  · rw [(dispatch ofByte fs path t).2.1 hx, readJpegFile, M.bind_ub this]

/-- **C66**: that part is false. -/
theorem missing_throws_refuted : ¬ MissingThrows := by
  intro h
  obtain ⟨e, he⟩ := h (fun _ => none) (.ofString "a.png".toList) 0 ⟨[], []⟩ "a.png".toList
    (.inl (.inl ⟨"a".toList, by decide, by decide⟩)) (by decide) rfl
  rw [missing_is_ub id _ _ _ _ "a.png".toList (.inl (.inl ⟨"a".toList, by decide, by decide⟩)) (by decide) rfl] at he
  cases he

/-- **C66**: a PNG whose rows are shorter than `width * channels` bytes (fewer than eight bits per
sample) is read past the end of the row buffer. -/
theorem packed_rows_oob {h : Heap α} (r : Reachable h) {t : Handle} {d : Desc} (hd : h.descs[t]? = some d) (ofByte : Nat → α)
    {fs : Files} {path : View} {p : Picture} (hp : Decodes fs path p) (hpos : 0 < p.height * p.width * p.channels)
    (hfits : p.height * p.width * p.channels ≤ 2147483647) (row : List Nat) (rest : List (List Nat)) (hrows : p.rows = row :: rest)
    (hshort : row.length < p.width * p.channels) (hsz : d.total = 0 ∨ d.total = p.height * p.width * p.channels) :
    (readImage ofByte fs path t h).1 = .ub .oob := by
  have dense : Dense ⟨p.height, p.width, p.channels, List.replicate p.height (List.replicate (p.width * p.channels) 0)⟩ :=
    ⟨by simp, fun r hr => by rw [List.eq_of_mem_replicate hr]; simp, hpos, hfits⟩
  obtain ⟨h1, d', b, e1, w1, hd1, hm, hdt, htot, -, -, -⟩ := prepare_ok (reachable_wf r) hd dense hsz
  simp only at e1
  rw [decodes_run hp, M.bind_ok e1]
  have hfit := fitsInt_nat dense.le.2
  push_cast at hfit
  have hptr : elemPtr t 0 h1 = (.ok ⟨b, 0⟩, h1) := by simp [elemPtr, M.bind_apply, desc_some hd1, hdt]
  have : store ofByte t p h1 = (.ub .oob, h1) := by
    rw [store, if_pos hfit, M.bind_ok hptr, hrows, copyRows, copyRow, if_neg (by omega), M.bind_ub (by rfl)]
  rw [M.bind_ub this]

/-! ## C72 -/

/-- **C72**: the file opened is the one the path names. -/
def OpensItsPath : Prop := ∀ (path : View) (name : List Char), Char.ofNat 0 ∉ path.text → path.off + path.len ≤ path.mem.length →
  cName path = .ok name → name = path.text

/-- It is false of a view that ends before its string does: the rest of the string is part of the
name. Here the path `a.png` inside `a.png.old`. -/
theorem opens_path_refuted : ¬ OpensItsPath := by
  intro h
  have := h ⟨"a.png.old".toList ++ [Char.ofNat 0], 0, 5⟩ "a.png.old".toList (by decide) (by decide) (by decide)
  exact absurd this (by decide)

/-- A view of an array without a terminator is read past its end. -/
theorem unterminated_ub (path : View) (h : Char.ofNat 0 ∉ path.mem.drop path.off) : cName path = .ub .oob := by
  simp [cName, h]

/-- The part that holds: a view followed by a NUL, such as a literal or a `std::string`. -/
theorem opens_path_partial (path : View) (rest : List Char) (h0 : Char.ofNat 0 ∉ path.text)
    (h : path.mem.drop path.off = path.text ++ Char.ofNat 0 :: rest) : cName path = .ok path.text := by
  have key : ∀ l : List Char, Char.ofNat 0 ∉ l →
      (l ++ Char.ofNat 0 :: rest).takeWhile (fun c => decide (c ≠ Char.ofNat 0)) = l := by
    intro l hl
    induction l with
    | nil => simp
    | cons c l ih =>
      have hc : c ≠ Char.ofNat 0 := fun e => hl (by simp [e])
      rw [List.cons_append, List.takeWhile_cons, if_pos (by simpa using hc), ih (fun hm => hl (by simp [hm]))]
  simp only [cName]
  rw [h, if_pos (by simp)]
  exact congrArg Out.ok (key _ h0)

example : cName (.ofString "dir/a.png".toList) = .ok "dir/a.png".toList := by decide

/-! ## C73 -/

/-- **C73**: a file that cannot be decoded makes the call throw. -/
def CorruptThrows : Prop := ∀ (fs : Files) (path : View) (t : Handle) (h : Heap Nat) (f : File), openFile fs path = .ok f →
  (HasExtension path.text "png".toList → ∀ p, f.png ≠ .picture p) →
  (HasExtension path.text "jpg".toList ∨ HasExtension path.text "jpeg".toList → ∀ p, f.jpeg ≠ .picture p) →
  ∃ e, (readImage id fs path t h).1 = .throw e

/-- A corrupt JPEG ends the process. -/
theorem corrupt_jpeg_exits (ofByte : Nat → α) (fs : Files) (path : View) (t : Handle) (h : Heap α) (f : File)
    (hf : openFile fs path = .ok f) (hx : HasExtension path.text "jpg".toList ∨ HasExtension path.text "jpeg".toList)
    (hj : f.jpeg = .error) : readImage ofByte fs path t h = (.ok .exited, h) := by
  have : (M.lift (openFile fs path) : M (Heap α) File) h = (.ok f, h) := by rw [hf]; rfl
  rw [(dispatch ofByte fs path t).2.1 hx, readJpegFile, M.bind_ok this, hj]
  rfl

/-- So **C73** is false. -/
theorem corrupt_throws_refuted : ¬ CorruptThrows := by
  intro h
  obtain ⟨e, he⟩ := h (fun _ => some ⟨.notPng, .error⟩) (.ofString "a.jpg".toList) 0 ⟨[], []⟩ ⟨.notPng, .error⟩ rfl
    (fun hx => absurd ((hasExtension_iff _ _).1 hx) (by decide)) (by simp)
  rw [corrupt_jpeg_exits id _ _ _ _ ⟨.notPng, .error⟩ rfl (.inl (.inl ⟨"a".toList, by decide, by decide⟩)) rfl] at he
  cases he

/-- A PNG whose pixels cannot be decoded is undefined: the handler uses an indeterminate pointer. -/
theorem corrupt_pixels_ub {h : Heap α} (r : Reachable h) {t : Handle} {d : Desc} (hd : h.descs[t]? = some d) (ofByte : Nat → α)
    (fs : Files) (path : View) (f : File) (hf : openFile fs path = .ok f) (hx : HasExtension path.text "png".toList)
    (p : Picture) (dp : Dense p) (hb : f.png = .badData p.height p.width p.channels)
    (hsz : d.total = 0 ∨ d.total = p.height * p.width * p.channels) :
    (readImage ofByte fs path t h).1 = .ub .uninit := by
  have : (M.lift (openFile fs path) : M (Heap α) File) h = (.ok f, h) := by rw [hf]; rfl
  obtain ⟨h1, d', b, e1, -⟩ := prepare_ok (reachable_wf r) hd dp hsz
  rw [(dispatch ofByte fs path t).1 hx, readPngFile, M.bind_ok this, hb]
  simp only
  rw [M.bind_ok e1]
  rfl

/-- The part that holds: a file named as PNG that is not one, or whose header is broken. -/
theorem corrupt_throws_partial (ofByte : Nat → α) (fs : Files) (path : View) (t : Handle) (h : Heap α) (f : File)
    (hf : openFile fs path = .ok f) (hx : HasExtension path.text "png".toList) (hb : f.png = .notPng ∨ f.png = .badHeader) :
    readImage ofByte fs path t h = (.throw .dw, h) := by
  have : (M.lift (openFile fs path) : M (Heap α) File) h = (.ok f, h) := by rw [hf]; rfl
  rw [(dispatch ofByte fs path t).1 hx, readPngFile, M.bind_ok this]
  rcases hb with hb | hb <;> rw [hb] <;> rfl

/-! A two by one picture with two channels, into an empty tensor. -/

def demoPic : Picture := ⟨2, 1, 2, [[1, 2], [3, 4]]⟩
def demoFs : Files := fun n => if n = "a.png".toList then some ⟨.picture demoPic, .error⟩ else none

theorem demo_dense : Dense demoPic := ⟨rfl, by decide, by decide, by decide⟩
theorem demo_decodes : Decodes demoFs (.ofString "a.png".toList) demoPic :=
  ⟨⟨.picture demoPic, .error⟩, by rfl, .inl ⟨.inl ⟨"a".toList, by decide, by decide⟩, rfl⟩⟩

def demoHeap : Heap Nat := ⟨[{}], []⟩

theorem demo_reach : Reachable demoHeap := .step .new .init trivial (by intro u; cases u <;> decide)

example : ∃ h', readImage id demoFs (.ofString "a.png".toList) 0 demoHeap = (.ok .returned, h') ∧
    elem h' 0 2 = some (some 3) := by
  obtain ⟨h', d', e, -, -, -, -, hpix, -⟩ := read_pixels (α := Nat) demo_reach (t := 0) (d := {}) rfl id demo_decodes demo_dense (.inl rfl)
  obtain ⟨row, byte, h1, h2, h3⟩ := hpix 1 0 0 (by decide) (by decide) (by decide)
  refine ⟨h', e, ?_⟩
  have : row = [3, 4] := by simpa [demoPic] using h1.symm
  subst this
  have : byte = 3 := by simpa [demoPic] using h2.symm
  subst this
  exact h3

end DW.Props.ImageP
