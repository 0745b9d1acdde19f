import Verif.Model.Dump

/-!
# `fstrm_dump` with one file as input and output

`Model/Dump.lean` takes input and output to be two files. Here both arguments name the same one, so
opening the output (`fopen` with mode "w") truncates the input while it is being read. What the input's
stream has read ahead of the program by then is in its buffer and remains; how much that is
depends on the C library. Everything behind it is read from the file as it is when it is read: what the
output's stream has passed on by then.
-/

set_option autoImplicit false

namespace Fstrm

/-- What the input's stream finds when it reads on: the first `ahead` bytes of `input` are in its buffer, the rest
comes from the file, which holds what has been written to it. (What is read from the file later than `ahead` is
not kept in a buffer here; there never is anything, see `Props/DumpInPlace.lean`.) Not in the code: the C
library and the kernel. file.c:69, 96, 114. -/
def DumpSt.refill (input : Bytes) (ahead : Nat) (s : DumpSt) : DumpSt :=
  match s.w with
  | none => s
  | some w =>
    { s with r := { s.r with rdwr := { s.r.rdwr with obj := { s.r.rdwr.obj with
        disk := some (input.take ahead ++ (w.rdwr.obj.disk.getD []).drop ahead) } } } }

/-- The loop of `main`, fstrm_dump.c:173-208, as `DumpSt.loop`. -/
def DumpSt.loopInPlace (input : Bytes) (ahead fuel : Nat) : Nat → DumpSt → Exec (Nat × DumpSt)
  | 0, _ => .error .fuel
  | n+1, s => do
    let s := s.refill input ahead
    let (res, data, r) ← s.r.read fuel
    let s := { s with r := r }
    if res = .success then
      match data with
      | none => .error (.ub "uninitialised data pointer")
      | some data => do
        let (res, s) ← s.printDataFrame data
        if res ≠ .success then .ok (1, s.say (.error "print_data_frame"))
        else
          match s.w with
          | none => DumpSt.loopInPlace input ahead fuel n s
          | some w => do
            let (res, w) ← (s.attach w).write data
            let s := s.detach w
            if res ≠ .success then .ok (1, s.say (.error "write_data_frame"))
            else DumpSt.loopInPlace input ahead fuel n s
    else if res = .stop then do
      let (res, s) ← s.printStopFrame
      if res ≠ .success then .ok (1, s.say (.error "unable to read STOP frame"))
      else .ok (0, s)
    else .ok (1, s.say (.error "fstrm_reader_read"))

/-- `main` with the same file, holding `input`, as first and second argument, fstrm_dump.c:95-230. `ahead` is how many
bytes of it the C library has read when the output is opened, at least those that the program has. `script` are the outcomes
of the stdio calls on the input's stream, `oscript` those on the output's, `sout` those on standard
output. -/
def dumpInPlace (fuel : Nat) (input : Bytes) (ahead : Nat) (script oscript sout : List Io) :
    Exec DumpOut :=
  match fileReaderInit .file none (some input) script with
  | none => .ok ⟨1, [], [.error "fstrm_file_reader_init"], some input⟩
  | some r => do
    let (res, r) ← r.open
    let s : DumpSt := ⟨r, none, false, FileSt.init true true (some []) sout, []⟩
    if res ≠ .success then (s.say (.error "fstrm_reader_open")).cleanup 1 (some input)
    else do
      let (ok, s, disk) ← s.openOutput (.file (some input) oscript)
      if !ok then s.cleanup 1 disk
      else do
        let (rv, s) ← DumpSt.loopInPlace input (min input.length (max ahead r.rdwr.obj.pos)) fuel fuel s
        s.cleanup rv disk

end Fstrm
