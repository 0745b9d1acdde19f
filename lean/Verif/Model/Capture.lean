import Verif.Model.Control
import Verif.Spec.Capture
import Verif.Spec.Disk

/-!
# Model of `/repo/src/fstrm_capture.c`

The program is one thread driven by libevent: everything happens in callbacks, one after the
other. What libevent, the kernel and the C library do is the environment:

* The input buffer of a connection is a list of non-empty chains. Libevent reads from a socket
  only as long as the buffer stays within the high-water mark, and calls the read callback after
  each read. How the bytes are cut into reads and chains is arbitrary.
* Libevent calls the write callback when the output buffer has become empty, the accept callback
  only while the listener is enabled, and the event callback at the end of file or an error.
* Files are numbered; a directory maps names to files. Opening with `O_TRUNC` empties an
  existing file. Other processes may rename and remove files.
* The outcomes of `open`, `fwrite`, `time` and `strftime` are arbitrary. `files` is what `fwrite` has
  taken. The code ignores the results of `fflush` and `fclose`, so they are no part of the model;
  `Verif.Spec.Disk` says what they mean for the contents of the disk.

Not modelled: logging and statistics, the set-up of sockets, signals and the event loop.
-/

set_option autoImplicit false

namespace Fstrm

open Spec (CapEv StdioCall)

/-! ## libevent buffers -/

/-- `evbuffer_get_length`. Called at fstrm_capture.c:1034. -/
def evLength (b : List Bytes) : Nat := b.flatten.length

/-- `evbuffer_drain`. Called at fstrm_capture.c:668, 929, 1052. -/
def evDrain : Nat → List Bytes → List Bytes
  | _, [] => []
  | n, c :: cs =>
    if n = 0 then c :: cs
    else if n < c.length then c.drop n :: cs
    else evDrain (n - c.length) cs

/-- `evbuffer_copyout`. Called at fstrm_capture.c:950, 973. -/
def evCopyout (n : Nat) (b : List Bytes) : Bytes := b.flatten.take n

/-- `evbuffer_peek`: the chains needed for `n` bytes. Called at fstrm_capture.c:636, 642. -/
def evPeek : Nat → List Bytes → List Bytes
  | _, [] => []
  | n, c :: cs => if n = 0 then [] else c :: evPeek (n - c.length) cs

/-- `evbuffer_pullup`: the first `n` bytes in one piece, and the buffer rearranged.
Called at fstrm_capture.c:910. -/
def evPullup (n : Nat) (b : List Bytes) : Option (Bytes × List Bytes) :=
  if evLength b < n then none else some (b.flatten.take n, b.flatten.take n :: evDrain n b)

/-! ## Data structures -/

/-- `conn_state`, lines 69-74. -/
inductive ConnState where
  | readingControlReady | readingControlStart | readingData | stopped
  deriving DecidableEq, Repr

/-- `struct conn`, lines 85-98. The fields `len_buf`, `len_frame_payload` and `len_frame_total` are
assigned before every use; they are local here. -/
structure Conn where
  state : ConnState
  bytesSkip : Nat
  input : List Bytes
  output : Bytes
  control : Control
  deriving DecidableEq, Repr

/-- `conn_init`, lines 217-226. -/
def Conn.init : Conn := ⟨.readingControlReady, 0, [], [], Control.init⟩

/-- The arguments, lines 123-136. `path` is the argument of `-w`; `toStdout` says that it is "-";
`calendar` that `--localtime` or `--gmtime` was given. -/
structure CapArgs where
  contentType : Bytes
  path : Bytes
  toStdout : Bool
  calendar : Bool
  splitSeconds : Int
  bufferSize : Int
  countConnections : Int
  deriving DecidableEq, Repr

/-- `capture_highwater`, lines 329-331. -/
def CapArgs.highwater (a : CapArgs) : Nat :=
  if a.bufferSize > 0 then a.bufferSize.toNat else 262144

/-- The initial `remaining_connections`, lines 332-334. -/
def CapArgs.remaining (a : CapArgs) : Int :=
  if a.countConnections > 0 then a.countConnections else -1

/-- The checks of lines 335-346 on the output (the others only ask for arguments to be present). -/
def CapArgs.accepted (a : CapArgs) : Bool :=
  !(a.toStdout && a.splitSeconds != 0) && !(a.splitSeconds != 0 && !a.calendar)

/-- The environment: the results of the `k`-th call of `time`, of `open` (with `fdopen`) and of
`fwrite`, and the file name `strftime` makes of the path at a given time.
Lines 517, 533, 568-576, 655, 705. -/
structure CapEnv where
  time : Nat → Nat
  openOk : Nat → Bool
  writeOk : Nat → Bool
  strftime : Nat → Option Bytes

/-- `struct capture`, lines 100-121, the file system, the connections and how many calls have been
made. `outputFile` is the number of the open file. `exited` is the exit status. `nextId` and
`log` are ghost fields. `files` is what was written with success; `io` is the list of all calls
that concern output streams, from which `Verif.Spec.Disk` tells what is on disk. `remaining` is an unbounded integer (the C variable would overflow with
2^31 simultaneous connections). -/
structure Capture where
  args : CapArgs
  env : CapEnv
  outputFile : Option Nat
  openTimestamp : Nat
  files : List Bytes
  dir : Bytes → Option Nat
  nTime : Nat
  nOpen : Nat
  nWrite : Nat
  remaining : Int
  listening : Bool
  conns : Nat → Option Conn
  exited : Option Nat
  nextId : Nat
  log : List CapEv
  io : List StdioCall

namespace Capture

/-- Add an event to the ghost log. Not in the code. -/
def emit (s : Capture) (e : CapEv) : Capture := { s with log := s.log ++ [e] }

/-- Store connection `id`. `struct conn`, lines 85-98. -/
def setConn (s : Capture) (id : Nat) (c : Option Conn) : Capture :=
  { s with conns := fun i => if i = id then c else s.conns i }

/-- Add a call to the list of calls.
Not in the code; the calls are at lines 449, 493-496, 568-576, 590, 612, 655, 1141. -/
def call (s : Capture) (c : StdioCall) : Capture := { s with io := s.io ++ [c] }

/-- `exit`, or `return` from `main`. Lines 659, 691, 696, 1240-1271, 1277, 1281. -/
def exit (s : Capture) (status : Nat) : Capture := { s with exited := some status }.call .exit

/-! ## Output -/

/-- Ghost event: the current output file remains unfinished. Not in the code. -/
def failed (s : Capture) : Capture :=
  match s.outputFile with
  | none => s
  | some i => s.emit (.failed i)

/-- `fwrite(bs, len, 1, output_file)`; returns whether it returned 1. With `len = 0` it returns 0.
A failing call may have written a part; `files` has nothing of it (the file is not used any
more). Lines 449, 493, 655. -/
def fwrite (s : Capture) (bs : Bytes) : Exec (Bool × Capture) :=
  match s.outputFile with
  | none => .error (.ub "fwrite to a NULL stream")
  | some i =>
    let ok := s.env.writeOk s.nWrite && bs.length != 0
    let s := { s with nWrite := s.nWrite + 1 }.call (.fwrite i bs ok)
    if ok then .ok (true, { s with files := s.files.modify i (· ++ bs) }) else .ok (false, s)

/-- `fstrm_control_encode` into a local array of 512 bytes, with header; the bytes encoded. The array
is not initialised in C, and only the encoded bytes of it are used.
Lines 442-446, 486-490, 754-759. -/
def encodeFrame (c : Control) : Exec (Option Bytes) := do
  let (res, mem, len) ← c.encode (List.replicate FRAME_LENGTH_MAX 0) FRAME_LENGTH_MAX true
  if res ≠ .success then .ok none else .ok (some (mem.take len))

/-- `close_write_stop`, lines 427-462. -/
def closeWriteStop (s : Capture) : Exec (Bool × Capture) := do
  let (res, c) := Control.init.setType T_STOP
  if res ≠ .success then .ok (false, s)
  else
    match ← encodeFrame c with
    | none => .ok (false, s)
    | some bs => s.fwrite bs

/-- `fflush(output_file)`, the result of which is ignored everywhere. Lines 496, 1141. -/
def fflush (s : Capture) : Capture :=
  match s.outputFile with
  | none => s
  | some i => s.call (.fflush i)

/-- The writing of the START frame in `open_write_start`, lines 491-496. -/
def writeStart (s : Capture) (bs : Bytes) : Exec (Bool × Capture) := do
  let (ok, s) ← s.fwrite bs
  if !ok then .ok (false, s) else .ok (true, s.fflush)

/-- `open_write_start`, lines 464-507. -/
def openWriteStart (s : Capture) : Exec (Bool × Capture) := do
  let (res, c) := Control.init.setType T_START
  if res ≠ .success then .ok (false, s)
  else
    let (res, c) := c.addCt s.args.contentType
    if res ≠ .success then .ok (false, s)
    else
      match ← encodeFrame c with
      | none => .ok (false, s)
      | some bs => s.writeStart bs

/-- Environment: `open` with `O_CREAT | O_TRUNC` and `fdopen`. Lines 568-582. -/
def openFile (s : Capture) (name : Bytes) : Bool × Capture :=
  let ok := s.env.openOk s.nOpen
  let s := { s with nOpen := s.nOpen + 1 }.emit (.opening name)
  if ok then
    match s.dir name with
    | some i =>
      (true, ({ s with files := s.files.set i [], outputFile := some i }.emit (.clobbered i)).call
        (.fopen i))
    | none =>
      let i := s.files.length
      (true, ({ s with
        files := s.files ++ [[]]
        dir := fun n => if n = name then some i else s.dir n
        outputFile := some i }.emit (.opened i)).call (.fopen i))
  else (false, s)

/-- `update_output_fname`, lines 509-543. -/
def updateFname (s : Capture) : Option Bytes × Capture :=
  let now := s.env.time s.nTime
  (s.env.strftime now, { s with nTime := s.nTime + 1, openTimestamp := now }.emit (.asked now))

/-- The choice of the file and its opening in `open_write_file`, lines 550-583. -/
def openOutput (s : Capture) : Bool × Capture :=
  if s.args.toStdout then
    let i := s.files.length
    (true, ({ s with files := s.files ++ [[]], outputFile := some i }.emit (.opened i)).call (.fopen i))
  else if s.args.calendar then
    match s.updateFname with
    | (none, s) => (false, s)
    | (some name, s) => s.openFile name
  else s.openFile s.args.path

/-- `fclose(output_file); output_file = NULL`, lines 591-592 and 612-613. The result of `fclose` is
ignored. -/
def fclose (s : Capture) : Capture :=
  match s.outputFile with
  | none => s
  | some i => { s with outputFile := none }.call (.fclose i)

/-- `open_write_file`, lines 545-601. -/
def openWriteFile (s : Capture) : Exec (Bool × Capture) :=
  match s.openOutput with
  | (false, s) => .ok (false, s)
  | (true, s) => do
    let (ok, s) ← s.openWriteStart
    if !ok then .ok (false, s.failed.fclose)
    else .ok (true, s)

/-- `close_write_file`, lines 603-622. -/
def closeWriteFile (s : Capture) : Exec (Bool × Capture) :=
  match s.outputFile with
  | none => .ok (true, s)
  | some i => do
    let (ok, s) ← s.closeWriteStop
    if !ok then .ok (false, s.failed)
    else .ok (true, s.fclose.emit (.finished i))

/-- `rotate_output`, lines 677-698. -/
def rotateOutput (s : Capture) : Exec Capture :=
  if s.args.toStdout then .ok s
  else do
    let (ok, s) ← s.closeWriteFile
    if !ok then .ok (s.exit 1)
    else do
      let (ok, s) ← s.openWriteFile
      if !ok then .ok (s.exit 1) else .ok s

/-- `maybe_rotate_output`, lines 700-712. -/
def maybeRotateOutput (s : Capture) : Exec Capture :=
  if s.args.splitSeconds > 0 then
    let now := s.env.time s.nTime
    let s := { s with nTime := s.nTime + 1 }.emit (.asked now)
    if (now : Int) ≥ (s.openTimestamp : Int) + s.args.splitSeconds then s.rotateOutput else .ok s
  else .ok s

/-! ## Connections -/

/-- `cb_close_conn`, lines 274-298. -/
def closeConn (s : Capture) (id : Nat) : Capture :=
  let s := { s.setConn id none with remaining := s.remaining + 1 }
  let s := if s.remaining = 1 then { s with listening := true } else s
  s.emit (.hungup id)

/-- The loop of `process_data_frame`, lines 645-661, over the remaining vectors; returns the number
of bytes written, `none` when the program exits. -/
def writeVecs (total : Nat) : List Bytes → Nat → Capture → Exec (Option Nat × Capture)
  | [], bytesRead, s => .ok (some bytesRead, s)
  | v :: vecs, bytesRead, s => do
    let len := if bytesRead + v.length > total then total - bytesRead else v.length
    let (ok, s) ← s.fwrite (v.take len)
    if !ok then .ok (none, s.exit 1)
    else writeVecs total vecs (bytesRead + len) s

/-- `process_data_frame`, lines 624-675. An array of length zero (line 639) is undefined behaviour;
compilers that support it as an extension make the program loop forever here. -/
def processDataFrame (s : Capture) (id : Nat) (c : Conn) (total : Nat) : Exec (Conn × Capture) := do
  let vecs := evPeek total c.input
  if vecs = [] then .error (.ub "variable length array of length zero")
  else
    let (n, s) ← writeVecs total vecs 0 s
    match n with
    | none => .ok (c, s.failed)
    | some n =>
      if n ≠ total then .error (.abort "bytes_read == conn->len_frame_total")
      else
        .ok ({ c with input := evDrain total c.input },
          s.emit (.recorded id (c.input.flatten.take total)))

/-- `match_content_type`, lines 727-744. -/
def matchContentType (s : Capture) (c : Conn) : Bool :=
  c.control.matchCt (some s.args.contentType) = .success

/-- `write_control_frame`, lines 746-770, with `send_frame`, lines 714-725 (`bufferevent_write` only
fails when there is no memory). -/
def writeControlFrame (c : Conn) : Exec (Bool × Conn) := do
  match ← encodeFrame c.control with
  | none => .ok (false, c)
  | some bs => .ok (true, { c with output := c.output ++ bs })

/-- `process_control_frame_ready`, lines 772-820. -/
def processReady (s : Capture) (c : Conn) : Exec (Bool × Conn) :=
  if (List.range c.control.numCt).any (fun i => (c.control.getCt i).isNone) then .ok (false, c)
  else if !s.matchContentType c then .ok (false, c)
  else
    let c := { c with control := c.control.reset }
    let (res, ctl) := c.control.setType T_ACCEPT
    if res ≠ .success then .ok (false, { c with control := ctl })
    else
      let (res, ctl) := ctl.addCt s.args.contentType
      let c := { c with control := ctl }
      if res ≠ .success then .ok (false, c)
      else do
        let (ok, c) ← writeControlFrame c
        if !ok then .ok (false, c) else .ok (true, { c with state := .readingControlStart })

/-- `process_control_frame_start`, lines 822-832. -/
def processStart (s : Capture) (c : Conn) : Exec (Bool × Conn) :=
  if !s.matchContentType c then .ok (false, c) else .ok (true, { c with state := .readingData })

/-- `process_control_frame_stop`, lines 834-858. -/
def processStop (c : Conn) : Exec (Bool × Conn) :=
  let (res, ctl) := c.control.reset.setType T_FINISH
  let c := { c with control := ctl }
  if res ≠ .success then .ok (false, c)
  else do
    let (ok, c) ← writeControlFrame c
    if !ok then .ok (false, c) else .ok (true, { c with state := .stopped })

/-- `process_control_frame`, lines 860-895. -/
def processControlFrame (s : Capture) (c : Conn) : Exec (Bool × Conn) :=
  match c.control.getType with
  | (.success, some type) =>
    match c.state with
    | .readingControlReady => if type ≠ T_READY then .ok (false, c) else s.processReady c
    | .readingControlStart => if type ≠ T_START then .ok (false, c) else s.processStart c
    | .readingData => if type ≠ T_STOP then .ok (false, c) else processStop c
    | .stopped => .ok (false, c)
  | _ => .ok (false, c)

/-- `load_control_frame`, lines 897-933. -/
def loadControlFrame (c : Conn) (total : Nat) : Exec (Bool × Conn) :=
  if total ≥ FRAME_LENGTH_MAX then .ok (false, c)
  else
    match evPullup total c.input with
    | none => .ok (false, c)
    | some (frame, input) => do
      let (res, ctl) ← c.control.decode frame total true
      let c := { c with input := input, control := ctl }
      if res ≠ .success then .ok (false, c) else .ok (true, { c with input := evDrain total c.input })

/-- Outcome of `can_read_full_frame`: `no` with the new value of `bytes_skip`; `closed` when the
connection was closed; `yes` with the lengths of the payload and of the whole frame.
Lines 936-1010. -/
inductive CanRead where
  | no (bytesSkip : Nat)
  | closed
  | yes (payload total : Nat)
  deriving DecidableEq, Repr

/-- `can_read_full_frame`, lines 935-1011. Lengths of frames are `uint32_t`. It is called only with
`bytes_skip` zero. -/
def canReadFullFrame (highwater lenBuf : Nat) (input : List Bytes) : CanRead :=
  if lenBuf < 4 then .no 0
  else
    let payload := ntohl (evCopyout 4 input)
    let total := (4 + payload) % 4294967296
    let arrived (total : Nat) : CanRead :=
      if lenBuf < total then .no (if total > highwater then total else 0) else .yes payload total
    if payload = 0 then
      if lenBuf < 8 then .no 0
      else
        let len := ntohl ((evCopyout 8 input).drop 4)
        let total := (total + 4) % 4294967296
        if len < 4 ∨ len > FRAME_LENGTH_MAX then .closed
        else arrived ((total + len) % 4294967296)
    else arrived total

/-- The loop of `cb_read`, lines 1031-1082, for connection `id`, which is `c`. Every iteration takes
bytes out of the buffer, which bounds their number. -/
def cbReadLoop (id : Nat) : (fuel : Nat) → Conn → Capture → Exec Capture
  | 0, _, _ => .error .fuel
  | fuel + 1, c, s =>
    let lenBuf := evLength c.input
    if lenBuf = 0 then .ok (s.setConn id (some c))
    else if c.bytesSkip > 0 then
      let skip := if c.bytesSkip > lenBuf then lenBuf else c.bytesSkip
      cbReadLoop id fuel { c with input := evDrain skip c.input, bytesSkip := c.bytesSkip - skip } s
    else
      match canReadFullFrame s.args.highwater lenBuf c.input with
      | .no skip => .ok (s.setConn id (some { c with bytesSkip := skip }))
      | .closed => .ok (s.closeConn id)
      | .yes payload total =>
        if payload > 0 then do
          let (c, s) ← s.processDataFrame id c total
          if s.exited.isSome then .ok s
          else do
            let s ← s.maybeRotateOutput
            if s.exited.isSome then .ok s else cbReadLoop id fuel c s
        else do
          let (ok, c) ← loadControlFrame c total
          if !ok then .ok (s.closeConn id)
          else do
            let (ok, c) ← s.processControlFrame c
            if !ok then .ok (s.closeConn id) else cbReadLoop id fuel c s

/-- `cb_read`, lines 1024-1083. -/
def cbRead (s : Capture) (id : Nat) (c : Conn) : Exec Capture :=
  cbReadLoop id (evLength c.input + 1) c s

/-- `cb_write`, lines 1013-1022. -/
def cbWrite (s : Capture) (id : Nat) (c : Conn) : Capture :=
  if c.state ≠ .stopped then s else s.closeConn id

/-- `cb_accept_conn`, lines 1085-1113 (`bufferevent_socket_new` succeeds). -/
def cbAccept (s : Capture) : Capture :=
  let id := s.nextId
  let s : Capture :=
    { s.setConn id (some Conn.init) with nextId := id + 1, remaining := s.remaining - 1 }
  let s := if s.remaining = 0 then { s with listening := false } else s
  s.emit (.accepted id)

/-- `main` up to the event loop, lines 1227-1262. -/
def start (args : CapArgs) (env : CapEnv) : Exec Capture := do
  let s : Capture := ⟨args, env, none, 0, [], fun _ => none, 0, 0, 0, args.remaining, true,
    fun _ => none, none, 0, [], []⟩
  if !args.accepted then .ok (s.exit 1)
  else
    let (ok, s) ← s.openWriteFile
    if !ok then .ok (s.exit 1) else .ok s

/-- `main` after the event loop, lines 1272-1279. -/
def shutdown (s : Capture) : Exec Capture := do
  let (ok, s) ← s.closeWriteFile
  if !ok then .ok (s.exit 1) else .ok (s.exit 0)

end Capture

/-- What may happen.
* `accept`: a client connects;
* `recv id bs chains`: libevent reads `bs` from connection `id`, after which the input buffer
  consists of `chains`;
* `send id k`: the kernel takes `k` bytes of the output buffer of connection `id`;
* `hangup id`: end of file or an error on connection `id`;
* `sigusr1`, `sighup`, `term`: signals;
* `rename a b`, `remove a`: another process changes the directory.
The callbacks set in lines 1146-1181 and 1100-1105. -/
inductive CapAct where
  | accept
  | recv (id : Nat) (bs : Bytes) (chains : List Bytes)
  | send (id k : Nat)
  | hangup (id : Nat)
  | sigusr1
  | sighup
  | term
  | rename (a b : Bytes)
  | remove (a : Bytes)
  deriving DecidableEq, Repr

namespace Capture

/-- One event. Events that are not possible in the current state do nothing.
Callbacks: lines 275-297, 1013-1022, 1025-1082, 1086-1122, 1125-1133, 1136-1144; the end: 1184-1188, 1273-1281. -/
def step (s : Capture) (a : CapAct) : Exec Capture :=
  if s.exited.isSome then .ok s
  else
    match a with
    | .accept => if s.listening then .ok s.cbAccept else .ok s
    | .recv id bs chains =>
      match s.conns id with
      | none => .ok s
      | some c =>
        if bs ≠ [] ∧ chains.flatten = c.input.flatten ++ bs ∧ [] ∉ chains ∧
            evLength chains ≤ s.args.highwater then
          (s.emit (.received id bs)).cbRead id { c with input := chains }
        else .ok s
    | .send id k =>
      match s.conns id with
      | none => .ok s
      | some c =>
        if 1 ≤ k ∧ k ≤ c.output.length then
          let s := (s.setConn id (some { c with output := c.output.drop k })).emit
            (.sent id (c.output.take k))
          if c.output.drop k = [] then .ok (s.cbWrite id c) else .ok s
        else .ok s
    | .hangup id =>
      match s.conns id with
      | none => .ok s
      | some _ => .ok (s.closeConn id)
    | .sigusr1 => if s.outputFile.isSome then s.rotateOutput else .ok s
    | .sighup => .ok s.fflush
    | .term => s.shutdown
    | .rename a b =>
      if (s.dir a).isNone then .ok s
      else .ok { s with dir := fun n => if n = b then s.dir a else if n = a then none else s.dir n }
    | .remove a => .ok { s with dir := fun n => if n = a then none else s.dir n }

/-- Events one after the other. `event_base_dispatch`, line 1268. -/
def run : Capture → List CapAct → Exec Capture
  | s, [] => .ok s
  | s, a :: as => do
    let s ← s.step a
    s.run as

end Capture
end Fstrm
