import Verif.Spec.Wire

/-!
# Buffered output

The calls of the C library by which a program writes its output files, and what the files contain
when the program is killed after some of these calls. The library keeps written bytes in a
buffer and may pass any part of them on to the operating system at any call. Nothing here knows
which calls a particular program makes.
-/

set_option autoImplicit false

namespace Fstrm.Spec

/-- A call of the C library; `i` is the number of the file.
* `fopen i`: the file is opened for writing and is empty then;
* `fwrite i bs ok`: the bytes `bs` are written; `ok` is whether the call reports success;
* `fflush i`, `fclose i`;
* `exit`: the program ends; all streams are flushed. -/
inductive StdioCall where
  | fopen (i : Nat)
  | fwrite (i : Nat) (bs : Bytes) (ok : Bool)
  | fflush (i : Nat)
  | fclose (i : Nat)
  | exit
  deriving DecidableEq, Repr

/-- What the caller does not see (or, for `ok`, might see) of a call.
* `took`: how many of the bytes a failing `fwrite` has put into the buffer;
* `moved`: how many bytes of the buffer were passed on to the operating system;
* `ok`: whether passing on the buffer succeeded. If it did not, the rest of the buffer is lost. -/
structure CallResult where
  took : Nat
  moved : Nat
  ok : Bool
  deriving DecidableEq, Repr

/-- The contents of a file, and of the buffer of its stream. -/
structure Buffered where
  disk : Bytes
  buffer : Bytes
  deriving DecidableEq, Repr

/-- Some of the buffer is passed on. -/
def Buffered.move (b : Buffered) (n : Nat) : Buffered :=
  ⟨b.disk ++ b.buffer.take n, b.buffer.drop n⟩

/-- The buffer is flushed. If this fails, only some of it is passed on. -/
def Buffered.flush (b : Buffered) (r : CallResult) : Buffered :=
  if r.ok then ⟨b.disk ++ b.buffer, []⟩ else ⟨b.disk ++ b.buffer.take r.moved, []⟩

/-- What a call does to file `i`. -/
def Buffered.after (i : Nat) (b : Buffered) : StdioCall × CallResult → Buffered
  | (.fopen j, _) => if j = i then ⟨[], []⟩ else b
  | (.fwrite j bs ok, r) =>
    if j = i then
      if ok then { b with buffer := b.buffer ++ bs }.move r.moved
      else { b with buffer := b.buffer ++ bs.take r.took }.flush { r with ok := false }
    else b
  | (.fflush j, r) => if j = i then b.flush r else b
  | (.fclose j, r) => if j = i then b.flush r else b
  | (.exit, r) => b.flush r

/-- A program's calls, with their results. -/
abbrev Calls := List (StdioCall × CallResult)

/-- File `i` and its buffer after the calls. -/
def buffered (i : Nat) (h : Calls) : Buffered := h.foldl (Buffered.after i) ⟨[], []⟩

/-- The contents of file `i` if the program is killed after the calls. -/
def onDisk (i : Nat) (h : Calls) : Bytes := (buffered i h).disk

/-- Whether the call flushes a stream: `fflush`, `fclose`, and the flushing at exit. -/
def StdioCall.flushes : StdioCall → Bool
  | .fflush _ => true
  | .fclose _ => true
  | .exit => true
  | _ => false

end Fstrm.Spec
