import Verif.Model.Reader
import Verif.Model.Writer

/-!
# Model of the socket transports `/repo/fstrm/unix_writer.c`, `/repo/fstrm/tcp_writer.c` and of
`/repo/libmy/read_bytes.h`

The two files contain the same open/close/read/write functions (they differ in the address only).
The kernel is the environment: how it splits reads and sends, interrupts and errors are taken from
scripts that theorems quantify over.
-/

set_option autoImplicit false

namespace Fstrm

/-- Outcome of one `read` call. `data k`: up to `k` bytes (at least one) of what is left of the
stream are returned; at the end of the stream this is end of file. `intr`: `-1` with `EINTR`.
`fail`: `-1` with any other error. Called at read_bytes.h:15. -/
inductive KRead where
  | data (k : Nat)
  | intr
  | fail
  deriving DecidableEq, Repr

/-- Outcome of one `sendmsg` call. `all`: the kernel takes everything. `sent k`: it takes up to
`k` bytes. `intr`, `fail`: as for `read`. unix_writer.c:173, tcp_writer.c:187. -/
inductive KSend where
  | all
  | sent (k : Nat)
  | intr
  | fail
  deriving DecidableEq, Repr

/-- `struct fstrm__unix_writer` (unix_writer.c:37-41), `struct fstrm__tcp_writer`
(tcp_writer.c:39-44), together with the part of the environment they touch. `peers` are the byte
streams the peers of future connections will send; `inp` is what is left of the current one and
`out` what the kernel has taken on the current connection. `conn` and `close` say for future calls
whether connecting and closing succeed (they do after the end of the script).
`past` are the values found where the `iov_len` fields of further array elements would be, in the
memory after the caller's iovec array, as far as that memory may be read at all. The ghost field
`history`, which no code reads, holds what the kernel took on each earlier connection. -/
structure Sock where
  connected : Bool
  inp : Bytes
  out : Bytes
  peers : List Bytes
  conn : List Bool
  close : List Bool
  reads : List KRead
  sends : List KSend
  past : List Nat
  history : List Bytes := []
  deriving DecidableEq, Repr

/-- A freshly initialised object (unix_writer.c:213, tcp_writer.c:269). -/
def Sock.init (peers : List Bytes) (conn close : List Bool) (reads : List KRead)
    (sends : List KSend) (past : List Nat) : Sock :=
  ⟨false, [], [], peers, conn, close, reads, sends, past, []⟩

/-- `fstrm__unix_writer_op_open`, unix_writer.c:68-126; `fstrm__tcp_writer_op_open`,
tcp_writer.c:82-140. Creating the socket and connecting it is one outcome here; on failure the
descriptor is closed again. The `fcntl` and `setsockopt` calls are not modelled. -/
def Sock.opOpen (s : Sock) : Exec (Res × Sock) :=
  if s.connected then .ok (.success, s)
  else
    let s' := { s with conn := s.conn.tail }
    if s.conn.head?.getD true then
      .ok (.success, { s' with
        connected := true, inp := s.peers.head?.getD [], out := [], peers := s.peers.tail })
    else .ok (.failure, s')

/-- `fstrm__unix_writer_op_close`, unix_writer.c:128-139; `fstrm__tcp_writer_op_close`,
tcp_writer.c:142-153. -/
def Sock.opClose (s : Sock) : Exec (Res × Sock) :=
  if s.connected then
    let s' := { s with connected := false, close := s.close.tail, history := s.history ++ [s.out] }
    if s.close.head?.getD true then .ok (.success, s') else .ok (.failure, s')
  else .ok (.failure, s)

/-- The loop of `read_bytes`, read_bytes.h:9-24: `need` bytes are still wanted, `acc` are those in
the buffer. Each iteration is one `read` call; after the end of the script `read` returns
everything it can. Returns success, the buffer, the rest of the stream and of the script. -/
def readBytes : List KRead → Nat → Bytes → Bytes → Bool × Bytes × Bytes × List KRead
  | script, 0, inp, acc => (true, acc, inp, script)
  | [], need + 1, inp, acc =>
    if need + 1 ≤ inp.length then (true, acc ++ inp.take (need + 1), inp.drop (need + 1), [])
    else (false, acc ++ inp, [], [])
  | .intr :: script, need + 1, inp, acc => readBytes script (need + 1) inp acc
  | .fail :: script, _ + 1, inp, acc => (false, acc, inp, script)
  | .data k :: script, need + 1, inp, acc =>
    let got := min (max k 1) (min (need + 1) inp.length)
    if got = 0 then (false, acc, inp, script)
    else readBytes script (need + 1 - got) (inp.drop got) (acc ++ inp.take got)

/-- `fstrm__unix_writer_op_read`, unix_writer.c:141-150; `fstrm__tcp_writer_op_read`,
tcp_writer.c:155-164. -/
def Sock.opRead (n : Nat) (s : Sock) : Exec (Res × Bytes × Sock) :=
  if s.connected then
    let (ok, buf, inp, script) := readBytes s.reads n s.inp []
    let s := { s with inp := inp, reads := script }
    if ok then .ok (.success, buf, s) else .ok (.failure, [], s)
  else .ok (.failure, [], s)

/-- The inner loop of the write functions, unix_writer.c:180-181, tcp_writer.c:194-195:
`while (written >= iov[cur].iov_len) written -= iov[cur++].iov_len`, where `lens` are the values
found from `iov[cur]` on. Nothing in the code stops at the end of the array. Lengths are compared as
`ssize_t` in C; values above 2^63 are not modelled. -/
def skipIov : List Nat → (written cur : Nat) → Exec (Nat × Nat)
  | [], _, _ => .error (.ub "read past the end of the iovec array")
  | l :: lens, written, cur =>
    if written ≥ l then skipIov lens (written - l) (cur + 1) else .ok (written, cur)

/-- How many of `n` bytes offered to it the kernel takes. unix_writer.c:173, tcp_writer.c:187. -/
def KSend.amount : KSend → Nat → Nat
  | .sent k, n => min k n
  | _, n => n

/-- The outer loop of the write functions, unix_writer.c:171-189, tcp_writer.c:185-203. `iov` is the
array (its elements are advanced in place), `out` what the kernel has taken. `msg_iov` and
`msg_iovlen` are never changed, so every `sendmsg` is given the whole array. -/
def sendLoop (past : List Nat) (nbytes : Nat) :
    (fuel : Nat) → List KSend → (iov : List Bytes) → (cur : Nat) → (out : Bytes) →
    Exec (Res × Bytes × List KSend)
  | 0, _, _, _, _ => .error .fuel
  | fuel + 1, script, iov, cur, out =>
    match script.head?.getD .all with
    | .intr => sendLoop past nbytes fuel script.tail iov cur out
    | .fail => .ok (.failure, out, script.tail)
    | ev =>
      let bytes := iov.flatten
      let written := ev.amount bytes.length
      let out := out ++ bytes.take written
      if cur = 0 ∧ written = nbytes then .ok (.success, out, script.tail)
      else do
        let (written, cur) ← skipIov ((iov.map List.length ++ past).drop cur) written cur
        if cur = iov.length then .ok (.success, out, script.tail)
        else if cur > iov.length then .error (.ub "write past the end of the iovec array")
        else sendLoop past nbytes fuel script.tail (iov.modify cur (·.drop written)) cur out

/-- `fstrm__unix_writer_op_write`, unix_writer.c:152-190; `fstrm__tcp_writer_op_write`,
tcp_writer.c:166-204. The iteration budget allows every scripted `sendmsg` call and two more. -/
def Sock.opWrite (iov : List Bytes) (s : Sock) : Exec (Res × Sock) :=
  if !s.connected then .ok (.failure, s)
  else do
    let nbytes := (iov.map List.length).sum
    let (res, out, sends) ←
      sendLoop s.past nbytes (s.sends.length + 2) s.sends iov 0 s.out
    .ok (res, { s with out := out, sends := sends })

/-- The callbacks, unix_writer.c:216-221, tcp_writer.c:277-282; the destroy functions
(unix_writer.c:192-198, tcp_writer.c:206-212) only free memory. -/
def sockOps : Ops Sock where
  destroy := some fun s => .ok (.success, s)
  opn := some Sock.opOpen
  cls := some Sock.opClose
  rd := some Sock.opRead
  wr := some Sock.opWrite

end Fstrm
