import Verif.Model.Reader
import Verif.Model.Writer

/-!
# Model of `/repo/fstrm/file.c`

The C library's `FILE` and the file system are the environment. Their outcomes
are taken from a script that theorems quantify over, so every pattern of I/O
errors and of buffer flushes is covered.
-/

set_option autoImplicit false

namespace Fstrm

/-- Outcome of one stdio call. `ok k`: it succeeds, and up to `k` bytes of pending
output reach the file while it runs. `fail k`: it fails; a failing `fwrite` has
nevertheless taken the first `k` bytes, a failing `fclose` has flushed `k` bytes.
The calls are at file.c:69, 84, 96, 114. -/
inductive Io where
  | ok (k : Nat)
  | fail (k : Nat)
  deriving DecidableEq, Repr

/-- `struct fstrm__file`, file.c:31-35, together with the part of the environment
it touches: the file's contents (`none`: no such file), the stream's pending
output, read position and error indicator. `isStd` says that the path is "-",
`write` that the mode is "w", `fp` that the pointer is not NULL. `stdClosed`: the
process's stdin/stdout has been closed. -/
structure FileSt where
  write : Bool
  isStd : Bool
  fp : Bool
  stdClosed : Bool
  disk : Option Bytes
  buf : Bytes
  pos : Nat
  err : Bool
  script : List Io
  deriving DecidableEq, Repr

/-- A freshly initialised object, file.c:131-150, for a path naming a file with the
given contents. -/
def FileSt.init (write isStd : Bool) (disk : Option Bytes) (script : List Io) : FileSt :=
  ⟨write, isStd, false, false, disk, [], 0, false, script⟩

/-- Environment: the outcome of the next stdio call. After the end of the script
everything succeeds. The calls are at file.c:69, 84, 96, 114. -/
def FileSt.next (s : FileSt) : Io × FileSt :=
  match s.script with
  | [] => (.ok 0, s)
  | o :: rest => (o, { s with script := rest })

/-- Environment: `k` bytes of pending output reach the file. After `fwrite`, file.c:114. -/
def FileSt.flush (s : FileSt) (k : Nat) : FileSt :=
  { s with disk := some (s.disk.getD [] ++ s.buf.take k), buf := s.buf.drop k }

/-- Environment: `fopen`. Mode "w" truncates or creates, "r" needs the file to exist. file.c:69. -/
def FileSt.fopen (s : FileSt) : Bool × FileSt :=
  match s.next with
  | (.fail _, s) => (false, s)
  | (.ok _, s) =>
    if s.write then (true, { s with disk := some [], buf := [], pos := 0, err := false, fp := true })
    else if s.disk.isSome then (true, { s with pos := 0, err := false, fp := true })
    else (false, s)

/-- `fstrm__file_op_open`, file.c:61-75 (`file_path` is never NULL, file.c:137). -/
def FileSt.opOpen (s : FileSt) : Exec (Res × FileSt) :=
  if !s.fp then
    if s.isStd then .ok (.success, { s with fp := true })
    else
      let (ok, s) := s.fopen
      if !ok then .ok (.failure, s) else .ok (.success, s)
  else .ok (.failure, s)

/-- Environment: `fclose`; afterwards the stream no longer exists. Closing, reading or writing a
stream that was closed is undefined behaviour. file.c:84. -/
def FileSt.fclose (s : FileSt) : Exec (Bool × FileSt) :=
  if s.isStd && s.stdClosed then .error (.ub "use of a closed stream")
  else
    let s := { s with stdClosed := s.isStd }
    match s.next with
    | (.ok _, s) => .ok (true, if s.write then s.flush s.buf.length else s)
    | (.fail k, s) => .ok (false, if s.write then { s.flush k with buf := [] } else s)

/-- `fstrm__file_op_close`, file.c:77-89. -/
def FileSt.opClose (s : FileSt) : Exec (Res × FileSt) :=
  if s.fp then do
    let (ok, s) ← { s with fp := false }.fclose
    if !ok then .ok (.failure, s) else .ok (.success, s)
  else .ok (.failure, s)

/-- Environment: `fread(data, count, 1, fp)`: the number of items, their bytes, and whether the
end-of-file indicator is set. A zero `count` reads nothing and returns 0. file.c:96-101. -/
def FileSt.fread (s : FileSt) (count : Nat) : Exec (Nat × Bytes × Bool × FileSt) :=
  if s.isStd && s.stdClosed then .error (.ub "use of a closed stream")
  else
    let content := s.disk.getD []
    if count = 0 then .ok (0, [], false, s)
    else match s.next with
      | (.fail _, s) => .ok (0, [], false, { s with err := true })
      | (.ok _, s) =>
        if s.pos + count ≤ content.length then
          .ok (1, (content.drop s.pos).take count, false, { s with pos := s.pos + count })
        else .ok (0, [], true, { s with pos := content.length })

/-- `fstrm__file_op_read`, file.c:91-106. -/
def FileSt.opRead (count : Nat) (s : FileSt) : Exec (Res × Bytes × FileSt) :=
  if s.fp then do
    let (n, bs, eof, s) ← s.fread count
    if n = 1 then .ok (.success, bs, s)
    else if s.err then .ok (.failure, [], s)
    else if eof then .ok (.stop, [], s)
    else .ok (.failure, [], s)
  else .ok (.failure, [], s)

/-- Environment: `fwrite(base, len, 1, fp)`. A zero `len` writes nothing and returns 0.
file.c:114. -/
def FileSt.fwrite (s : FileSt) (d : Bytes) : Exec (Nat × FileSt) :=
  if s.isStd && s.stdClosed then .error (.ub "use of a closed stream")
  else if d.length = 0 then .ok (0, s)
  else match s.next with
    | (.ok k, s) => .ok (1, { s with buf := s.buf ++ d }.flush k)
    | (.fail k, s) => .ok (0, { s with buf := s.buf ++ d.take k, err := true })

/-- Environment: `putchar`, `fputc`, `fputs` and `fprintf`, each with what it writes, by a caller that
ignores their results. fstrm_dump.c:89-91, print_string.h:32-49. -/
def FileSt.print : List Bytes → FileSt → Exec FileSt
  | [], s => .ok s
  | d :: rest, s => do
    let (_, s) ← s.fwrite d
    FileSt.print rest s

/-- Environment: the end of the process. A stream that is still open is flushed; if that fails, nobody
learns of it. After `main`, fstrm_dump.c:228, fstrm_replay.c:291. -/
def FileSt.exit (s : FileSt) : FileSt :=
  if s.stdClosed then s
  else match s.next with
    | (.ok _, s) => s.flush s.buf.length
    | (.fail k, s) => { s.flush k with buf := [] }

/-- The loop of `fstrm__file_op_write`, file.c:113-118. -/
def FileSt.writeLoop : List Bytes → FileSt → Exec (Res × FileSt)
  | [], s => .ok (.success, s)
  | d :: rest, s => do
    let (n, s) ← s.fwrite d
    if n ≠ 1 then do
      let (_, s) ← s.opClose
      .ok (.failure, s)
    else FileSt.writeLoop rest s

/-- `fstrm__file_op_write`, file.c:108-120. -/
def FileSt.opWrite (iov : List Bytes) (s : FileSt) : Exec (Res × FileSt) :=
  if !s.fp then .ok (.failure, s) else FileSt.writeLoop iov s

/-- The callbacks of a file reader or writer: file.c:144-147, 159, 170;
`fstrm__file_op_destroy`, file.c:122-129, only frees memory. -/
def fileOps (write : Bool) : Ops FileSt where
  destroy := some fun s => .ok (.success, s)
  opn := some FileSt.opOpen
  cls := some FileSt.opClose
  rd := if write then none else some FileSt.opRead
  wr := if write then some FileSt.opWrite else none

/-- The path given to `fstrm_file_options_set_file_path` (file.c:51-59): NULL, "-" or the
name of a file. -/
inductive FilePath where
  | null | dash | file
  deriving DecidableEq, Repr

/-- `fstrm_file_reader_init`, file.c:152-161. -/
def fileReaderInit (path : FilePath) (ropt : Option ReaderOptions) (disk : Option Bytes)
    (script : List Io) : Option (Reader FileSt) :=
  if path = .null then none
  else Reader.init ropt (Rdwr.init (fileOps false) (FileSt.init false (path = .dash) disk script))

/-- `fstrm_file_writer_init`, file.c:163-172. -/
def fileWriterInit (path : FilePath) (wopt : Option WriterOptions) (disk : Option Bytes)
    (script : List Io) : Option (Writer FileSt) :=
  if path = .null then none
  else Writer.init wopt (Rdwr.init (fileOps true) (FileSt.init true (path = .dash) disk script))

end Fstrm
