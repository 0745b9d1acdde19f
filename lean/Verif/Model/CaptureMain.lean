import Verif.Model.Capture
import Verif.Model.Addr

/-!
# Model of how `/repo/src/fstrm_capture.c` starts: `parse_args` and `main` up to the event loop

Line numbers refer to that file. The options are given as `argv_process` stores them
(see Model/Argv.lean for that); messages are left out.
-/

set_option autoImplicit false

namespace Fstrm

/-- `struct capture_args`, lines 123-136; `none` is NULL. (`debug` only affects messages.) -/
structure CapOpts where
  help : Bool
  localtime : Bool
  gmtime : Bool
  contentType : Option Bytes
  unix : Option Bytes
  tcp : Option Bytes
  port : Option Bytes
  write : Option Bytes
  split : Int
  bufferSize : Int
  countConnections : Int
  deriving DecidableEq, Repr

/-- What may be found at a path. `remove` at line 380. -/
inductive FileKind where
  | socket | file | emptyDir
  deriving DecidableEq, Repr

/-- The environment at start: whether standard output is a terminal, `inet_pton`, what exists at a
path, whether `remove` succeeds in removing what exists, whether the listening socket can be
made (lines 1146-1168) and signal handlers can be installed. -/
structure StartEnv where
  tty : Bool
  pton : Family → Bytes → Option Bytes
  present : Bytes → Option FileKind
  removeOk : Bool
  bindOk : Bool
  signalsOk : Bool

/-- An address that a socket is bound or connected to, lines 103-104: a path, an internet address, a
name outside the file system (`sun_path` starting with a zero byte), or for `bind` an address
without name (`sun_path` of length zero), for which Linux invents a name outside the file system. -/
inductive Listen where
  | unix (path : Bytes)
  | abstract (name : Bytes)
  | unnamed
  | tcp (sa : SockAddr)
  deriving DecidableEq, Repr

/-- What happens outside the output: `removed path k`: what was at `path`, of kind `k`, was removed;
`listening l`: clients can connect at `l`. Lines 380, 1160-1162. -/
inductive StartEv where
  | removed (path : Bytes) (kind : FileKind)
  | listening (l : Listen)
  deriving DecidableEq, Repr

/-- The arguments used later on. Lines 330-354. -/
def CapOpts.args (o : CapOpts) : CapArgs :=
  ⟨o.contentType.getD [], o.write.getD [], o.write == some [45], o.localtime || o.gmtime, o.split,
    o.bufferSize, o.countConnections⟩

/-- `parse_args`, lines 310-355, after `argv_process`; `none`: the program prints its usage and
exits with status 1 (lines 300-308). -/
def CapOpts.parse (o : CapOpts) (tty : Bool) : Option CapArgs :=
  if o.help then none
  else if o.contentType.isNone then none
  else if o.unix.isNone && o.tcp.isNone then none
  else if o.tcp.isSome && o.port.isNone then none
  else if o.write.isNone then none
  else if o.args.toStdout && tty then none
  else if o.localtime && o.gmtime then none
  else if !o.args.accepted then none
  else some o.args

/-- A C string: the characters before the terminator (as `remove` and, through `SUN_LEN` in line 375,
`bind` read `sun_path`; an empty string makes `SUN_LEN` the length of the family alone). -/
def cString (mem : Bytes) : Bytes := mem.takeWhile (· ≠ 0)

/-- `open_read_unix`, lines 357-391: the address and what was removed; `none`: exit with status 1.
At the empty path there is never anything to remove. -/
def openReadUnix (e : StartEnv) (path : Bytes) : Option (Listen × List StartEv) :=
  if path.length + 1 > SUN_PATH_SIZE then none
  else
    let sun := strncpyZeroed SUN_PATH_SIZE (SUN_PATH_SIZE - 1) path
    if cString sun = [] then some (.unnamed, [])
    else
      match e.present (cString sun) with
      | none => some (.unix (cString sun), [])
      | some k =>
        if !e.removeOk then none else some (.unix (cString sun), [.removed (cString sun) k])

/-- `open_read_tcp`, lines 393-425; `none`: exit with status 1. -/
def openReadTcp (e : StartEnv) (address port : Bytes) : Option Listen :=
  let (p, endptr) := strtoul port
  if endptr ≠ [] ∨ p > 65535 then none
  else
    match e.pton .inet address with
    | some a => some (.tcp ⟨.inet, a, p⟩)
    | none =>
      match e.pton .inet6 address with
      | some a => some (.tcp ⟨.inet6, a, p⟩)
      | none => none

/-- The choice in `main`, lines 1237-1249. -/
def CapOpts.openRead (o : CapOpts) (e : StartEnv) : Option (Listen × List StartEv) :=
  match o.unix with
  | some path => openReadUnix e path
  | none =>
    match o.tcp, o.port with
    | some address, some port => (openReadTcp e address port).map fun l => (l, [])
    | _, _ => none

/-- `main` up to the event loop, lines 1226-1265. The state of the server is `none` if the program
exited with status 1 before it opened its output. -/
def captureMain (o : CapOpts) (e : StartEnv) (env : CapEnv) : Exec (List StartEv × Option Capture) :=
  match o.parse e.tty with
  | none => .ok ([], none)
  | some args =>
    match o.openRead e with
    | none => .ok ([], none)
    | some (l, evs) => do
      let s ← Capture.start args env
      if s.exited.isSome then .ok (evs, some s)
      else if !e.bindOk then .ok (evs, some (s.exit 1))
      else if !e.signalsOk then .ok (evs ++ [.listening l], some (s.exit 1))
      else .ok (evs ++ [.listening l], some s)

end Fstrm
