import Verif.Model.Tensor
/-!
# `io::ReadImage` (src/io/image_reader.cpp)

libpng and libjpeg are not modelled: a file is what the decoder makes of it. Closing files and
releasing the decoder's memory have no effect in the model. Both libraries are compiled in.
-/

namespace DW.Image

variable {α : Type}

/-- A `std::string_view`: `len` characters from `off` in the array `mem` it points into. -/
structure View where
  mem : List Char
  off : Nat
  len : Nat

/-- The characters of a view. -/
def View.text (v : View) : List Char := (v.mem.drop v.off).take v.len

/-- A view of a whole NUL-terminated string, as from a literal or a `std::string`. -/
def View.ofString (s : List Char) : View := ⟨s ++ [Char.ofNat 0], 0, s.length⟩

/-- Position of the last `.`, as `find_last_of(".")`; `i` is the position of the first character. -/
def findLastDot (i : Nat) : List Char → Option Nat
  | [] => none
  | c :: cs => match findLastDot (i + 1) cs with
    | some k => some k
    | none => if c = '.' then some i else none

/-- `path.substr(path.find_last_of(".") + 1)`: `npos + 1` wraps to 0. -/
def extension (path : List Char) : List Char :=
  match findLastDot 0 path with
  | some k => path.drop (k + 1)
  | none => path.drop 0

/-- `IsPngFile` (src/io/image_reader.cpp:18-20). -/
def isPngFile (path : List Char) : Bool := extension path == "png".toList

/-- `IsJpegFile` (src/io/image_reader.cpp:22-24). -/
def isJpegFile (path : List Char) : Bool := extension path == "jpg".toList || extension path == "jpeg".toList

/-- What `fopen(path.data(), ...)` takes as the file name: the characters up to the first NUL. With
none it reads past the array. -/
def cName (v : View) : Out (List Char) :=
  let rest := v.mem.drop v.off
  if Char.ofNat 0 ∈ rest then .ok (rest.takeWhile (· ≠ Char.ofNat 0)) else .ub .oob

/-- A decoded picture: its rows, each as the bytes the decoder writes into a row buffer. -/
structure Picture where
  height : Nat
  width : Nat
  channels : Nat
  rows : List (List Nat)

/-- What libpng makes of a file. -/
inductive Png
  /-- `png_sig_cmp` fails. -/
  | notPng
  /-- `png_read_info` jumps to the first `setjmp`. -/
  | badHeader
  /-- The header is read, `png_read_image` jumps to the second `setjmp`. -/
  | badData (height width channels : Nat)
  /-- Everything is read. Row buffers have `png_get_rowbytes` bytes. -/
  | picture (p : Picture)

/-- What libjpeg makes of a file. -/
inductive Jpeg
  /-- `jpeg_std_error`'s `error_exit` is called: it calls `exit`. -/
  | error
  /-- Everything is read. -/
  | picture (p : Picture)

/-- The content of a file, as each library sees it. -/
structure File where
  png : Png
  jpeg : Jpeg

/-- The file system: `none` if `fopen` returns null. -/
abbrev Files := List Char → Option File

/-- How a call that does not throw ends: it returns, or the process exits inside it. -/
inductive Ended
  | returned
  | exited
  deriving DecidableEq, Repr

/-- `fopen`; on failure the code calls `fclose(NULL)` before it throws
(src/io/image_reader.cpp:29-35,:102-106). -/
def openFile (fs : Files) (path : View) : Out File :=
  match cName path with
  | .ok name => match fs name with
    | some f => .ok f
    | none => .ub .null
  | .throw e => .throw e
  | .ub u => .ub u

/-- `height * width * channels` on `int`. -/
def totalOf (h w c : Nat) : Out Nat :=
  if Tensor.fitsInt ((h : Int) * w) then
    if Tensor.fitsInt ((h : Int) * w * c) then .ok (h * w * c) else .ub .overflow
  else .ub .overflow

/-- Allocate an empty tensor, or check its size (src/io/image_reader.cpp:65-69,:131-135). -/
def prepare (t : Handle) (h w c : Nat) : M (Heap α) Unit := do
  let d ← Tensor.desc t
  if d.total = 0 then Tensor.allocate t [(h : Int), (w : Int), (c : Int)]
  else do
    let n ← M.lift (totalOf h w c)
    M.check (n == d.total)

/-- `std::copy_n(row, n, &dst[off])`: reading past the row is undefined. -/
def copyRow (ofByte : Nat → α) (dst : Ptr) (off n : Nat) (row : List Nat) : M (Heap α) Unit :=
  if n ≤ row.length then Tensor.fillLoop ⟨dst.block, dst.off + off⟩ (fun i => ofByte (row.getD i 0)) 0 n
  else M.lift (.ub .oob)

/-- The copying loops (src/io/image_reader.cpp:83-87,:150-152), from row `i` on. -/
def copyRows (ofByte : Nat → α) (dst : Ptr) (n i : Nat) : List (List Nat) → M (Heap α) Unit
  | [] => pure ()
  | row :: rows => do
    copyRow ofByte dst (i * n) n row
    copyRows ofByte dst n (i + 1) rows

/-- `width * channels` and the copying loop. The destination pointer is null only for a tensor
that was never allocated, which `prepare` excludes. -/
def store (ofByte : Nat → α) (t : Handle) (p : Picture) : M (Heap α) Unit := do
  if Tensor.fitsInt ((p.width : Int) * p.channels) then do
    let dst ← Tensor.elemPtr t 0
    copyRows ofByte dst (p.width * p.channels) 0 p.rows
  else M.lift (.ub .overflow)

/-- `ReadJpegFile` (src/io/image_reader.cpp:26-98). -/
def readJpegFile (ofByte : Nat → α) (fs : Files) (path : View) (t : Handle) : M (Heap α) Ended := do
  let f ← M.lift (openFile fs path)
  match f.jpeg with
  | .error => pure .exited
  | .picture p => do
    prepare t p.height p.width p.channels
    store ofByte t p
    pure .returned

/-- `ReadPngFile` (src/io/image_reader.cpp:100-170). When `png_read_image` fails, the handler reads
`row_pointers`, a local that is not `volatile` and was assigned after the `setjmp` it returns to:
its value is indeterminate (line 156). -/
def readPngFile (ofByte : Nat → α) (fs : Files) (path : View) (t : Handle) : M (Heap α) Ended := do
  let f ← M.lift (openFile fs path)
  match f.png with
  | .notPng => M.lift (.throw .dw)
  | .badHeader => M.lift (.throw .dw)
  | .badData h w c => do
    prepare t h w c
    M.lift (.ub .uninit)
  | .picture p => do
    prepare t p.height p.width p.channels
    store ofByte t p
    pure .returned

/-- `ReadImage(path, tensor)` (src/io/image_reader.cpp:174-184). -/
def readImage (ofByte : Nat → α) (fs : Files) (path : View) (t : Handle) : M (Heap α) Ended :=
  if isPngFile path.text then readPngFile ofByte fs path t
  else if isJpegFile path.text then readJpegFile ofByte fs path t
  else M.lift (.throw .dw)

/-- `ReadImage(path)` (src/io/image_reader.cpp:186-190). -/
def readImageNew (ofByte : Nat → α) (fs : Files) (path : View) : M (Heap α) (Ended × Handle) := do
  let t ← Tensor.new
  let e ← readImage ofByte fs path t
  pure (e, t)

end DW.Image
