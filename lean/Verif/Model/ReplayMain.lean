import Verif.Model.Replay
import Verif.Model.CaptureMain

/-!
# Model of how `/repo/src/fstrm_replay.c` starts: its options and the address it connects to

The options are given as `argv_process` stores them (see Model/Argv.lean for that).
-/

set_option autoImplicit false

namespace Fstrm

/-- `struct replay_args`, fstrm_replay.c:44-51, without the files; `none` is NULL. -/
structure ReplayOpts where
  help : Bool
  contentType : Option Bytes
  unix : Option Bytes
  tcp : Option Bytes
  port : Option Bytes
  deriving DecidableEq, Repr

/-- The address `connect` reads from the 108 bytes of `sun_path` (unix_writer.c:119): a path, or a
name outside the file system if the first byte is zero. -/
def sunAddress (sun : Bytes) : Listen :=
  if cString sun = [] then .abstract sun else .unix (cString sun)

/-- `parse_args` after `argv_process`, fstrm_replay.c:115-127: the content type; `none`: usage, exit
with status 1. -/
def ReplayOpts.parse (o : ReplayOpts) : Exec (Option Bytes) :=
  if o.help then .ok none
  else if o.tcp.isSome && o.port.isNone then .ok none
  else
    match o.contentType with
    | none => .error (.ub "strlen of NULL")
    | some ct => .ok (some ct)

/-- `init_writer`, fstrm_replay.c:129-191, up to the opening: the address of the writer, with its transport;
`none`: exit with status 1. -/
def ReplayOpts.target (o : ReplayOpts) (pton : Family → Bytes → Option Bytes) (ct : Bytes)
    (sock : Sock) : Exec (Option (Listen × Writer Sock)) :=
  let (res, wopt) := WriterOptions.init.addCt ct
  if res ≠ .success then .ok none
  else
    match o.unix with
    | some path =>
      .ok ((unixWriterInit (some path) (some wopt) sock).map fun x => (sunAddress x.1, x.2))
    | none =>
      match o.tcp, o.port with
      | some address, some port =>
        let (p, endptr) := strtoul port
        if endptr ≠ [] ∨ p > 65535 then .ok none
        else if (pton .inet address).isNone && (pton .inet6 address).isNone then .ok none
        else .ok ((tcpWriterInit pton (some address) (some port) (some wopt) sock).map fun x =>
          (.tcp x.1, x.2))
      | _, _ => .error (.ub "strtoul of NULL")

/-- `main`, fstrm_replay.c:267-292, for sockets: the address connected to, if any, and what `replay`
(Model/Replay.lean) does there. -/
def replayMain (fuel : Nat) (o : ReplayOpts) (pton : Family → Bytes → Option Bytes)
    (files : List ReplayFile) (sock : Sock) : Exec (Option Listen × ReplayOut Sock) := do
  match ← o.parse with
  | none => .ok (none, ⟨1, [], none⟩)
  | some ct =>
    match ← o.target pton ct sock with
    | none => .ok (none, ⟨1, [], none⟩)
    | some (l, _) => do
      let out ← replay fuel ct files sockOps sock
      .ok (some l, out)

end Fstrm
