import Verif.Model.Image
import Mathlib.Logic.Function.Basic
/-!
# What `ReadImage` opens and allocates

The open files and the memory of the C libraries in `ReadPngFile` and `ReadJpegFile` (src/io/image_reader.cpp): what is acquired and released in
which order, on each of the ways through the code. What is written to the tensor is in `Verif.Model.Image`; here the one question about it is
whether the check of its size passes. `malloc` and the functions of the libraries that create something are taken to succeed.
-/

set_option autoImplicit false

namespace DW.ImageRes

open DW.Image (Ended)

/-- What is acquired: the file, the two structures of libpng, the decompressor of libjpeg with its pools, the array of pointers to rows and
the rows. -/
inductive Res
  | file
  | png
  | info
  | jpeg
  | pointers
  | row (y : Nat)
  deriving DecidableEq

/-- How many of each exist. -/
abbrev State := Res → Nat

def acquire (r : Res) : M State Unit := fun s => (.ok (), Function.update s r (s r + 1))

/-- To release what does not exist is undefined. -/
def release (r : Res) : M State Unit := fun s => if s r = 0 then (.ub .freed, s) else (.ok (), Function.update s r (s r - 1))

/-- The loop with `malloc` (src/io/image_reader.cpp:146-148), up to row `n`. -/
def allocRows : Nat → M State Unit
  | 0 => pure ()
  | n + 1 => do
    allocRows n
    acquire (.row n)

/-- The loop with `free` (src/io/image_reader.cpp:155-157), up to row `n`. -/
def freeRows : Nat → M State Unit
  | 0 => pure ()
  | n + 1 => do
    freeRows n
    release (.row n)

/-- A PNG file: whether the signature is right, the header can be read, the tensor has the right size, and the pixels can be read. -/
structure Png where
  signature : Bool
  header : Bool
  height : Nat
  fits : Bool
  data : Bool

/-- The end of `ReadPngFile`, in the handler and after it (src/io/image_reader.cpp:159-161,:164-166): `free` of a null pointer and
`png_destroy_read_struct` of null pointers do nothing. -/
def endPng (pointers structs : Bool) : M State Unit := do
  if pointers then release .pointers
  release .file
  if structs then
    release .png
    release .info

/-- `ReadPngFile` (src/io/image_reader.cpp:100-170); `none` is a file that cannot be opened, for which `fclose(NULL)` is called. When
the pixels cannot be read the value of `row_pointers` in the handler is indeterminate, as it was assigned after `setjmp`: `kept` says whether it
is the one that was assigned or the null pointer from before. -/
def readPng (kept : Bool) : Option Png → M State Ended
  | none => M.lift (.ub .null)
  | some f => do
    acquire .file
    if !f.signature then
      endPng false false
      M.lift (.throw .dw)
    else
      acquire .png
      acquire .info
      if !f.header || !f.fits then
        endPng false true
        M.lift (.throw .dw)
      else
        acquire .pointers
        allocRows f.height
        if !f.data then
          endPng kept true
          M.lift (.throw .dw)
        else
          freeRows f.height
          endPng true true
          pure .returned

/-- A JPEG file: whether the header can be read, the tensor has the right size, and the pixels can be read. -/
structure Jpeg where
  header : Bool
  fits : Bool
  data : Bool

/-- `ReadJpegFile` (src/io/image_reader.cpp:26-98); errors of libjpeg end the process. -/
def readJpeg : Option Jpeg → M State Ended
  | none => M.lift (.ub .null)
  | some f => do
    acquire .file
    acquire .jpeg
    if !f.header then pure .exited
    else if !f.fits then
      release .jpeg
      release .file
      M.lift (.throw .dw)
    else if !f.data then pure .exited
    else
      release .jpeg
      release .file
      pure .returned

/-- One call of `ReadImage` for a file of one of the two formats (src/io/image_reader.cpp:174-184). -/
inductive Call
  | png (kept : Bool) (f : Option Png)
  | jpeg (f : Option Jpeg)

def readFile : Call → M State Ended
  | .png kept f => readPng kept f
  | .jpeg f => readJpeg f

/-- A program that reads pictures, goes on after exceptions and stops when the process exits: what exists in the end. -/
def readAll : List Call → M State Ended
  | [] => pure .returned
  | c :: l => fun s =>
    match readFile c s with
    | (.ok .returned, s') | (.throw _, s') => readAll l s'
    | (o, s') => (o, s')

end DW.ImageRes
