import Verif.Model.File
import Verif.Model.PrintString

/-!
# Model of `/repo/src/fstrm_dump.c`

The input is a named file or standard input. The optional output is a named file other than the
input, or `-`: then the copy and the printed lines share standard output. Standard output is
a `FileSt`, so that printing can fail. `setvbuf` is not modelled: when bytes
reach standard output is left to the script of outcomes. Failing to print on standard error
is not modelled.
-/

set_option autoImplicit false

namespace Fstrm

/-- A line on standard error: fstrm_dump.c:45, 56-59, 80, 88 and the error messages. -/
inductive DumpMsg where
  | start
  | contentType (ct : Bytes)
  | data (len : Nat)
  | stop
  | error (what : String)
  deriving DecidableEq, Repr

/-- The variables of `main`, fstrm_dump.c:95-107 (`w`: NULL is `none`), and what has been
printed. `stdout` is the process's standard output, `dash` says that the output is `-`. -/
structure DumpSt where
  r : Reader FileSt
  w : Option (Writer FileSt)
  dash : Bool
  stdout : FileSt
  stderr : List DumpMsg

/-- With `-` the writer's stream is standard output (file.c:67): the writer as it is now. -/
def DumpSt.attach (s : DumpSt) (w : Writer FileSt) : Writer FileSt :=
  if s.dash then { w with rdwr := { w.rdwr with obj := s.stdout } } else w

/-- What calling the writer, which is now `w`, did to standard output.
Ghost step around fstrm_dump.c:152-163, 188, 218-225. -/
def DumpSt.detach (s : DumpSt) (w : Writer FileSt) : DumpSt :=
  { s with w := some w, stdout := if s.dash then w.rdwr.obj else s.stdout }

/-- Append a line to standard error. fstrm_dump.c:45-88, 129-222. -/
def DumpSt.say (s : DumpSt) (m : DumpMsg) : DumpSt := { s with stderr := s.stderr ++ [m] }

/-- `process_start_frame`, fstrm_dump.c:33-69. The second component is `wopt` (NULL: `none`). -/
def DumpSt.processStartFrame (s : DumpSt) (wopt : Option WriterOptions) :
    Exec (Res × Option WriterOptions × DumpSt) := do
  let (res, control, r) ← s.r.getControl T_START
  let s := { s with r := r }
  if res ≠ .success then .ok (res, wopt, s)
  else
    let s := s.say .start
    match control with
    | none => .error (.ub "NULL control")
    | some control =>
      if control.numCt > 0 then
        match control.getCt 0 with
        | none => .ok (.failure, wopt, s)
        | some ct =>
          let s := s.say (.contentType ct)
          match wopt with
          | none => .ok (.success, wopt, s)
          | some o =>
            let (res, o) := o.addCt ct
            .ok (res, some o, s)
      else .ok (.success, wopt, s)

/-- `print_stop_frame`, fstrm_dump.c:71-83. -/
def DumpSt.printStopFrame (s : DumpSt) : Exec (Res × DumpSt) := do
  let (res, _, r) ← s.r.getControl T_STOP
  let s := { s with r := r }
  if res ≠ .success then .ok (res, s) else .ok (.success, s.say .stop)

/-- `print_data_frame`, fstrm_dump.c:85-93; 32 is a space, 10 a newline. -/
def DumpSt.printDataFrame (s : DumpSt) (data : Bytes) : Exec (Res × DumpSt) := do
  let s := s.say (.data data.length)
  let out ← s.stdout.print ([[32]] ++ printPieces data ++ [[10]])
  .ok (.success, { s with stdout := out })

/-- The loop of `main`, fstrm_dump.c:173-208: the exit status so far and the state at label `out`.
`data` and `len_data` are uninitialised (fstrm_dump.c:174-175), so using them after a successful
read that did not set them is undefined behaviour. `fuel` bounds the control frames skipped
by one read, the `Nat` argument the number of iterations. -/
def DumpSt.loop (fuel : Nat) : Nat → DumpSt → Exec (Nat × DumpSt)
  | 0, _ => .error .fuel
  | n+1, s => do
    let (res, data, r) ← s.r.read fuel
    let s := { s with r := r }
    if res = .success then
      match data with
      | none => .error (.ub "uninitialised data pointer")
      | some data => do
        let (res, s) ← s.printDataFrame data
        if res ≠ .success then .ok (1, s.say (.error "print_data_frame"))
        else
          match s.w with
          | none => DumpSt.loop fuel n s
          | some w => do
            let (res, w) ← (s.attach w).write data
            let s := s.detach w
            if res ≠ .success then .ok (1, s.say (.error "write_data_frame"))
            else DumpSt.loop fuel n s
    else if res = .stop then do
      let (res, s) ← s.printStopFrame
      if res ≠ .success then .ok (1, s.say (.error "unable to read STOP frame"))
      else .ok (0, s)
    else .ok (1, s.say (.error "fstrm_reader_read"))

/-- What can be observed after the program has ended: exit status, what has reached standard output,
what was printed on standard error, and the contents of the output file (`none`: no output file,
or it does not exist). fstrm_dump.c:228. -/
structure DumpOut where
  status : Nat
  stdout : Bytes
  stderr : List DumpMsg
  output : Option Bytes
  deriving DecidableEq, Repr

/-- `return rv`, fstrm_dump.c:229. -/
def DumpSt.finish (s : DumpSt) (rv : Nat) (output : Option Bytes) : DumpOut :=
  ⟨rv, s.stdout.exit.disk.getD [], s.stderr, output⟩

/-- The label `out`, fstrm_dump.c:210-229. -/
def DumpSt.cleanup (rv : Nat) (s : DumpSt) (output : Option Bytes) : Exec DumpOut := do
  let (_, _) ← s.r.destroy
  match s.w with
  | none => .ok (s.finish rv output)
  | some w => do
    let (res, w) ← (s.attach w).close
    let s := s.detach w
    let (rv, s) := if res ≠ .success then (1, s.say (.error "fstrm_writer_close")) else (rv, s)
    let (_, rdwr) ← (s.attach w).destroy
    if s.dash then .ok ({ s with stdout := rdwr.obj }.finish rv output)
    else .ok (s.finish rv rdwr.obj.disk)

/-- The output: none, `-` or a named file (contents before, outcomes of the stdio calls on it).
fstrm_dump.c:115-117. -/
inductive DumpDest where
  | none
  | dash
  | file (before : Option Bytes) (script : List Io)
  deriving DecidableEq, Repr

/-- The contents of the output file at the beginning. fstrm_dump.c:115-117. -/
def DumpDest.before : DumpDest → Option Bytes
  | .file before _ => before
  | _ => Option.none

/-- `fstrm_file_options_set_file_path` and `fstrm_file_writer_init` for this output,
fstrm_dump.c:140, 154; for `-` the stream is put in by `attach`. -/
def DumpDest.writer (dest : DumpDest) (wopt : Option WriterOptions) : Option (Writer FileSt) :=
  match dest with
  | .none => Option.none
  | .dash => fileWriterInit .dash wopt Option.none []
  | .file before script => fileWriterInit .file wopt before script

/-- Everything in `main` before the loop, fstrm_dump.c:138-170, once the reader is open. The first component
is false when control went to label `out`; the last one is what the output file holds if `w` is
NULL at the end. -/
def DumpSt.openOutput (s : DumpSt) (dest : DumpDest) : Exec (Bool × DumpSt × Option Bytes) :=
  if dest = .none then do
    let (res, _, s) ← s.processStartFrame none
    if res ≠ .success then .ok (false, s.say (.error "process_start_frame"), none)
    else .ok (true, s, none)
  else do
    let (res, wopt, s) ← s.processStartFrame (some WriterOptions.init)
    if res ≠ .success then .ok (false, s.say (.error "process_start_frame"), dest.before)
    else
      match dest.writer wopt with
      | none => .ok (false, s.say (.error "fstrm_file_writer_init"), dest.before)
      | some w => do
        let (res, w) ← (s.attach w).open
        let s := s.detach w
        if res ≠ .success then do
          let (_, rdwr) ← (s.attach w).destroy
          let s := { s.say (.error "fstrm_writer_open") with w := none }
          if s.dash then .ok (false, { s with stdout := rdwr.obj }, none)
          else .ok (false, s, rdwr.obj.disk)
        else .ok (true, s, dest.before)

/-- `main` with good arguments, fstrm_dump.c:115-230. `path` is `.file` or `.dash`; `input` are the contents of the
input file and `script` the outcomes of the stdio calls on it; `sout` are the outcomes of those on standard
output. -/
def dump (fuel : Nat) (path : FilePath) (input : Option Bytes) (script : List Io)
    (dest : DumpDest) (sout : List Io) : Exec DumpOut :=
  match fileReaderInit path none input script with
  | none => .ok ⟨1, [], [.error "fstrm_file_reader_init"], dest.before⟩
  | some r => do
    let (res, r) ← r.open
    let s : DumpSt := ⟨r, none, dest = .dash, FileSt.init true true (some []) sout, []⟩
    if res ≠ .success then (s.say (.error "fstrm_reader_open")).cleanup 1 dest.before
    else do
      let (ok, s, disk) ← s.openOutput dest
      if !ok then s.cleanup 1 disk
      else do
        let (rv, s) ← DumpSt.loop fuel fuel s
        s.cleanup rv disk

/-- An argument that names a file, with what the file holds and the outcomes of the stdio calls
on it. fstrm_dump.c:114-116. -/
structure DumpArg where
  path : FilePath
  contents : Option Bytes
  script : List Io
  deriving DecidableEq, Repr

/-- `main`, fstrm_dump.c:95-230; `args` are the arguments after the program's name. -/
def dumpMain (fuel : Nat) (args : List DumpArg) (sout : List Io) : Exec DumpOut :=
  match args with
  | [i] => dump fuel i.path i.contents i.script .none sout
  | [i, o] => dump fuel i.path i.contents i.script
      (if o.path = .dash then .dash else .file o.contents o.script) sout
  | _ => .ok ⟨1, [], [.error "Usage"], none⟩

end Fstrm
