import Verif.Spec.Descr
import Verif.Model.Sock

/-!
# The descriptors of unix and tcp writers

`Model/Sock.lean` treats a connection as one thing. Here `fstrm__unix_writer_op_open` and the
other functions of `/repo/fstrm/unix_writer.c` and `/repo/fstrm/tcp_writer.c` are modelled down to
the system calls they make on `w->fd`, in a process whose other threads open and close descriptors
and start programs in between.
-/

set_option autoImplicit false

namespace Fstrm

/-- Which of the macros tested by the code the system's headers define (unix_writer.c:78, 96, 104;
tcp_writer.c:92, 110, 118); without `MSG_NOSIGNAL` the flags are 0 (fstrm-private.h:61-63). Linux:
all but `SO_NOSIGPIPE`. -/
structure Platform where
  sockCloexec : Bool
  fdCloexec : Bool
  soNosigpipe : Bool
  msgNosignal : Bool
  deriving DecidableEq, Repr

/-- Result of a `socket` call: a descriptor, `EINVAL`, or another error.
unix_writer.c:79-83, tcp_writer.c:93-97. -/
inductive KSocket where
  | ok | inval | fail
  deriving DecidableEq, Repr

/-- Results of the system calls of one `op_open`, in order, and what others do before each of them
(`others`, one list per call). unix_writer.c:74-126, tcp_writer.c:88-140. -/
structure KOpen where
  first : KSocket := .ok
  second : KSocket := .ok
  getfd : Bool := true
  setfd : Bool := true
  sockopt : Bool := true
  connect : Bool := true
  others : List (List Other) := []
  deriving DecidableEq, Repr

/-- What others do before the `i`-th call. unix_writer.c:74-126, tcp_writer.c:88-140. -/
def KOpen.before (k : KOpen) (i : Nat) : List Other := k.others.getD i []

/-- Result of one `close` of an established connection, and what others do before it.
unix_writer.c:134, tcp_writer.c:148. -/
structure KClose where
  ok : Bool := true
  others : List Other := []
  deriving DecidableEq, Repr

/-- `struct fstrm__unix_writer` (unix_writer.c:37-41), `struct fstrm__tcp_writer`
(tcp_writer.c:39-44), with `w->fd`, in its process. `sock` has `w->connected` and the bytes; its
scripts `conn` and `close` are not used here, `opens` and `closes` take their places. `uses` is what
others do before the calls of each further `op_read` or `op_write`. -/
structure FdSock where
  sock : Sock
  fd : Int
  proc : Proc
  opens : List KOpen
  closes : List KClose
  uses : List (List Other)
  deriving DecidableEq, Repr

/-- A freshly initialised object (unix_writer.c:213, tcp_writer.c:269): `calloc` makes `w->fd` zero,
which is not a descriptor of the writer. All descriptors of the process are others'. -/
def FdSock.init (peers : List Bytes) (reads : List KRead) (sends : List KSend) (past : List Nat)
    (descrs : List (Option Bool)) (opens : List KOpen) (closes : List KClose)
    (uses : List (List Other)) : FdSock :=
  { sock := Sock.init peers [] [] reads sends past
    fd := 0
    proc := ⟨descrs.map (·.map fun c => ⟨false, c, false⟩), [], []⟩
    opens := opens, closes := closes, uses := uses }

/-- `w->fd = socket(..., SOCK_STREAM [| SOCK_CLOEXEC], 0)`, unix_writer.c:79, 81, 83;
tcp_writer.c:93, 95, 97. -/
def FdSock.socket (s : FdSock) (cloexec : Bool) (k : KSocket) (os : List Other) : FdSock :=
  let p := s.proc.others os
  let p := { p with trail := p.trail ++ [(.socket cloexec, none)] }
  match k with
  | .ok =>
    let (n, t) := Descrs.alloc ⟨true, cloexec, false⟩ p.descrs
    { s with fd := n, proc := { p with descrs := t } }
  | _ => { s with fd := -1, proc := p }

/-- Any other system call on `w->fd`.
unix_writer.c:112-119, 146, 173; tcp_writer.c:126-133, 160, 187. -/
def FdSock.call (s : FdSock) (c : Sys) (os : List Other) : FdSock :=
  { s with proc := (s.proc.others os).call c s.fd }

/-- Setting the close-on-exec flag of `w->fd`.
unix_writer.c:79, 97-100; tcp_writer.c:93, 111-114. -/
def FdSock.setFlag (s : FdSock) : FdSock :=
  match s.proc.descrs.at s.fd with
  | some d => { s with proc := { s.proc with
      descrs := s.proc.descrs.set s.fd.toNat (some { d with cloexec := true }) } }
  | none => s

/-- `setsockopt(w->fd, SOL_SOCKET, SO_NOSIGPIPE, ...)`, unix_writer.c:112, tcp_writer.c:126. -/
def FdSock.nosigpipe (s : FdSock) (k : KOpen) : FdSock :=
  let s := s.call .setsockopt (k.before 4)
  match k.sockopt, s.proc.descrs.at s.fd with
  | true, some d => { s with proc := { s.proc with
      descrs := s.proc.descrs.set s.fd.toNat (some { d with nosigpipe := true }) } }
  | _, _ => s

/-- The `fcntl` calls, unix_writer.c:96-102, tcp_writer.c:110-116. -/
def FdSock.fcntl (s : FdSock) (k : KOpen) : FdSock :=
  let s := s.call .getfd (k.before 2)
  if k.getfd then
    let s := s.call .setfd (k.before 3)
    if k.setfd then s.setFlag else s
  else s

/-- `close(w->fd)`. unix_writer.c:113, 120, 134; tcp_writer.c:127, 134, 148. -/
def FdSock.closeFd (s : FdSock) (os : List Other) : FdSock :=
  let s := s.call .close os
  { s with proc := { s.proc with descrs := s.proc.descrs.release s.fd } }

/-- Opening the socket, unix_writer.c:78-84, tcp_writer.c:92-98: the call with `SOCK_CLOEXEC` is
repeated without it on `EINVAL`. -/
def FdSock.sockets (p : Platform) (s : FdSock) (k : KOpen) : FdSock :=
  if p.sockCloexec then
    let s := s.socket true k.first (k.before 0)
    if s.fd < 0 ∧ k.first = .inval then s.socket false k.second (k.before 1) else s
  else s.socket false k.first (k.before 0)

/-- `fstrm__unix_writer_op_open`, unix_writer.c:68-126; `fstrm__tcp_writer_op_open`,
tcp_writer.c:82-140. -/
def FdSock.opOpen (p : Platform) (s : FdSock) : Exec (Res × FdSock) :=
  if s.sock.connected then .ok (.success, s)
  else
    let k := s.opens.head?.getD {}
    let s := { s with opens := s.opens.tail }
    let s := s.sockets p k
    if s.fd < 0 then .ok (.failure, s)
    else
      let s := if p.fdCloexec then s.fcntl k else s
      let s := if p.soNosigpipe then s.nosigpipe k else s
      if p.soNosigpipe ∧ !k.sockopt then .ok (.failure, s.closeFd (k.before 5))
      else
        let s := s.call .connect (k.before 6)
        if !k.connect then .ok (.failure, s.closeFd (k.before 7))
        else .ok (.success, { s with sock := { s.sock with
          connected := true, inp := s.sock.peers.head?.getD [], out := [],
          peers := s.sock.peers.tail } })

/-- `fstrm__unix_writer_op_close`, unix_writer.c:128-139; `fstrm__tcp_writer_op_close`,
tcp_writer.c:142-153. -/
def FdSock.opClose (s : FdSock) : Exec (Res × FdSock) :=
  if s.sock.connected then
    let k := s.closes.head?.getD {}
    let s := { s with
      sock := { s.sock with connected := false, history := s.sock.history ++ [s.sock.out] }
      closes := s.closes.tail }
    let s := s.closeFd k.others
    if k.ok then .ok (.success, s) else .ok (.failure, s)
  else .ok (.failure, s)

/-- `fstrm__unix_writer_op_read`, unix_writer.c:141-150; `fstrm__tcp_writer_op_read`,
tcp_writer.c:155-164. The `read` calls of one invocation are one entry of the trail, as others cannot
change what `w->fd` stands for in between. -/
def FdSock.opRead (n : Nat) (s : FdSock) : Exec (Res × Bytes × FdSock) := do
  let s := if s.sock.connected
    then { (s.call .read (s.uses.head?.getD [])) with uses := s.uses.tail } else s
  let (r, bs, k) ← s.sock.opRead n
  .ok (r, bs, { s with sock := k })

/-- `fstrm__unix_writer_op_write`, unix_writer.c:152-190; `fstrm__tcp_writer_op_write`,
tcp_writer.c:166-204. The `sendmsg` calls of one invocation are one entry of the trail. -/
def FdSock.opWrite (p : Platform) (iov : List Bytes) (s : FdSock) : Exec (Res × FdSock) := do
  let s := if s.sock.connected
    then { (s.call (.sendmsg p.msgNosignal) (s.uses.head?.getD [])) with uses := s.uses.tail } else s
  let (r, k) ← s.sock.opWrite iov
  .ok (r, { s with sock := k })

/-- The callbacks, unix_writer.c:216-221, tcp_writer.c:277-282; the destroy functions
(unix_writer.c:192-198, tcp_writer.c:206-212) free memory and do not close anything. -/
def fdSockOps (p : Platform) : Ops FdSock where
  destroy := some fun s => .ok (.success, s)
  opn := some (FdSock.opOpen p)
  cls := some FdSock.opClose
  rd := some FdSock.opRead
  wr := some (FdSock.opWrite p)

end Fstrm
