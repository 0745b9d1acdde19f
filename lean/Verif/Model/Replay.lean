import Verif.Model.File

/-!
# Model of `/repo/src/fstrm_replay.c`

The writer's transport is a Unix or TCP socket; here it is arbitrary, which
covers both. Argument checks (fstrm_replay.c:109-127) and the parsing of the TCP
address and port (fstrm_replay.c:162-176) are in Model/ReplayMain.lean.
-/

set_option autoImplicit false

namespace Fstrm

variable {σ : Type}

/-- A line on standard error about a file or the writer. fstrm_replay.c:150-288. -/
inductive ReplayMsg where
  | warning (what : String)
  | error (what : String)
  deriving DecidableEq, Repr

/-- How `process_file` ended: it returned, or it called `exit(EXIT_FAILURE)`,
fstrm_replay.c:249. -/
inductive ReplayFlow where
  | returned | exited
  deriving DecidableEq, Repr

/-- The loop of `process_file`, fstrm_replay.c:238-263. The data pointer is uninitialised
(fstrm_replay.c:240-241). -/
def replayLoop (fuel : Nat) : Nat → Reader FileSt → Writer σ →
    Exec (ReplayFlow × List ReplayMsg × Reader FileSt × Writer σ)
  | 0, _, _ => .error .fuel
  | n+1, r, w => do
    let (res, data, r) ← r.read fuel
    if res = .success then
      match data with
      | none => .error (.ub "uninitialised data pointer")
      | some data => do
        let (res, w) ← w.write data
        if res ≠ .success then .ok (.exited, [.error "write_data_frame"], r, w)
        else replayLoop fuel n r w
    else if res = .stop then do
      let (res, _, r) ← r.getControl T_STOP
      if res ≠ .success then .ok (.returned, [.error "unable to read STOP frame"], r, w)
      else .ok (.returned, [], r, w)
    else .ok (.returned, [.error "fstrm_reader_read"], r, w)

/-- `process_file`, fstrm_replay.c:202-265, for a file with contents `disk` (`none`: there is no
such file) and stdio outcomes `script`. `ct` is the content type given on the command line. -/
def processFile (fuel : Nat) (ct : Bytes) (path : FilePath) (disk : Option Bytes) (script : List Io)
    (w : Writer σ) : Exec (ReplayFlow × List ReplayMsg × Writer σ) :=
  match fileReaderInit path none disk script with
  | none => .ok (.returned, [.warning "failed to open"], w)
  | some r => do
    let (res, control, r) ← r.getControl T_START
    if res ≠ .success then do
      let (_, _) ← r.destroy
      .ok (.returned, [.warning "failed to read control frame"], w)
    else
      match control with
      | none => .error (.ub "NULL control")
      | some control =>
        if control.matchCt (some ct) ≠ .success then do
          let (_, _) ← r.destroy
          .ok (.returned, [.warning "content type mismatch"], w)
        else do
          let (flow, msgs, r, w) ← replayLoop fuel fuel r w
          if flow = .exited then .ok (flow, msgs, w)
          else do
            let (_, _) ← r.destroy
            .ok (.returned, msgs, w)

/-- A file named on the command line: its path, contents and stdio outcomes.
fstrm_replay.c:203-215, 280-284. -/
structure ReplayFile where
  path : FilePath
  disk : Option Bytes
  script : List Io

/-- The loop over the files, fstrm_replay.c:280-284. -/
def replayFiles (fuel : Nat) (ct : Bytes) : List ReplayFile → Writer σ →
    Exec (ReplayFlow × List ReplayMsg × Writer σ)
  | [], w => .ok (.returned, [], w)
  | f :: rest, w => do
    let (flow, msgs, w) ← processFile fuel ct f.path f.disk f.script w
    if flow = .exited then .ok (flow, msgs, w)
    else do
      let (flow, more, w) ← replayFiles fuel ct rest w
      .ok (flow, msgs ++ more, w)

/-- What can be observed after the program has ended: exit status, messages and the transport
(whose ghost log records what was sent). fstrm_replay.c:270-291. -/
structure ReplayOut (σ : Type) where
  status : Nat
  msgs : List ReplayMsg
  rdwr : Option (Rdwr σ)

/-- `init_writer`, fstrm_replay.c:129-200; the transport is the one created by
`fstrm_unix_writer_init` or `fstrm_tcp_writer_init`. A NULL result is `none`, together with the
messages. -/
def initWriter (ct : Bytes) (ops : Ops σ) (obj : σ) :
    Exec (Option (Writer σ) × List ReplayMsg) :=
  let (res, wopt) := WriterOptions.init.addCt ct
  if res ≠ .success then .ok (none, [])
  else
    match Writer.init (some wopt) (Rdwr.init ops obj) with
    | none => .ok (none, [.error "fstrm_writer_init"])
    | some w => do
      let (res, w) ← w.open
      if res ≠ .success then do
        let (_, _) ← w.destroy
        .ok (none, [.error "fstrm_writer_open"])
      else .ok (some w, [])

/-- `main`, fstrm_replay.c:267-292. Note that the exit status is 0 even if `fstrm_writer_close`
failed (fstrm_replay.c:286-291). -/
def replay (fuel : Nat) (ct : Bytes) (files : List ReplayFile) (ops : Ops σ) (obj : σ) :
    Exec (ReplayOut σ) := do
  let (w, msgs) ← initWriter ct ops obj
  match w with
  | none => .ok ⟨1, msgs, none⟩
  | some w => do
    let (flow, msgs, w) ← replayFiles fuel ct files w
    if flow = .exited then .ok ⟨1, msgs, some w.rdwr⟩
    else do
      let (res, w) ← w.close
      let msgs := if res ≠ .success then msgs ++ [.error "fstrm_writer_close"] else msgs
      let (_, rdwr) ← w.destroy
      .ok ⟨0, msgs, some rdwr⟩

end Fstrm
