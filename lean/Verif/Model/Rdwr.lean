import Verif.Model.Control

/-!
# Model of `/repo/fstrm/rdwr.c`

A transport is a record of callbacks over an arbitrary state type `σ`, exactly
as in C (`struct fstrm_rdwr_ops` and the `void *obj` they receive). Because `σ`
and the callbacks are arbitrary, a theorem that quantifies over them covers
every behaviour of the transport (a callback can keep any script of outcomes in
its state). Callbacks may run into undefined behaviour themselves (`Exec`).
-/

set_option autoImplicit false

namespace Fstrm

/-- `struct fstrm_rdwr_ops`, fstrm-private.h:138-144; `none` is a NULL pointer.
A `rd` callback receives the number of bytes wanted and returns the contents it
put into the caller's buffer; a `wr` callback receives the iovec array. -/
structure Ops (σ : Type) where
  destroy : Option (σ → Exec (Res × σ))
  opn : Option (σ → Exec (Res × σ))
  cls : Option (σ → Exec (Res × σ))
  rd : Option (Nat → σ → Exec (Res × Bytes × σ))
  wr : Option (List Bytes → σ → Exec (Res × σ))

/-- Ghost record of one callback invocation and its outcome.
The calls are at rdwr.c:41, 54, 67, 89, 110. -/
inductive Ev where
  | opn (r : Res)
  | cls (r : Res)
  | rd (n : Nat) (r : Res) (bs : Bytes)
  | wr (iov : List Bytes) (r : Res)
  | destroy (r : Res)
  deriving DecidableEq, Repr

/-- `struct fstrm_rdwr`, fstrm-private.h:146-150, plus the ghost field `log`
(callback invocations, oldest first), which no code reads. -/
structure Rdwr (σ : Type) where
  ops : Ops σ
  obj : σ
  opened : Bool
  log : List Ev

variable {σ : Type}

/-- `fstrm_rdwr_init` followed by the `fstrm_rdwr_set_*` calls,
rdwr.c:26-33 and 118-151. -/
def Rdwr.init (ops : Ops σ) (obj : σ) : Rdwr σ := ⟨ops, obj, false, []⟩

/-- `fstrm_rdwr_open`, rdwr.c:48-58. -/
def Rdwr.open (rw : Rdwr σ) : Exec (Res × Rdwr σ) :=
  match rw.ops.opn with
  | none => .ok (.failure, rw)
  | some f => do
    let (res, obj) ← f rw.obj
    let rw := { rw with obj := obj, log := rw.log ++ [.opn res] }
    if res = .success then .ok (res, { rw with opened := true })
    else .ok (res, rw)

/-- `fstrm_rdwr_close`, rdwr.c:60-70. -/
def Rdwr.close (rw : Rdwr σ) : Exec (Res × Rdwr σ) :=
  match rw.ops.cls with
  | none => .ok (.failure, rw)
  | some f =>
    if rw.opened then do
      let (res, obj) ← f rw.obj
      .ok (res, { rw with opened := false, obj := obj, log := rw.log ++ [.cls res] })
    else .ok (.success, rw)

/-- `fstrm_rdwr_read`, rdwr.c:72-93. The bytes are the contents of the caller's
buffer after a successful read. A callback that reports success without
providing exactly `n` bytes breaks its contract; the caller would then use
uninitialised memory, hence undefined behaviour. -/
def Rdwr.read (rw : Rdwr σ) (n : Nat) : Exec (Res × Bytes × Rdwr σ) :=
  if !rw.opened then .ok (.failure, [], rw)
  else match rw.ops.rd with
  | none => .ok (.failure, [], rw)
  | some f => do
    let (res, bs, obj) ← f n rw.obj
    let rw := { rw with obj := obj, log := rw.log ++ [.rd n res bs] }
    if res ≠ .success then do
      let (_, rw) ← rw.close
      .ok (res, [], rw)
    else if bs.length ≠ n then .error (.ub "read callback did not fill the buffer")
    else .ok (res, bs, rw)

/-- `fstrm_rdwr_write`, rdwr.c:95-116. -/
def Rdwr.write (rw : Rdwr σ) (iov : List Bytes) : Exec (Res × Rdwr σ) :=
  if !rw.opened then .ok (.failure, rw)
  else match rw.ops.wr with
  | none => .ok (.failure, rw)
  | some f => do
    let (res, obj) ← f iov rw.obj
    let rw := { rw with obj := obj, log := rw.log ++ [.wr iov res] }
    if res ≠ .success then do
      let (_, rw) ← rw.close
      .ok (res, rw)
    else .ok (res, rw)

/-- `fstrm_rdwr_destroy`, rdwr.c:35-46. -/
def Rdwr.destroy (rw : Rdwr σ) : Exec (Res × Rdwr σ) :=
  match rw.ops.destroy with
  | none => .ok (.success, rw)
  | some f => do
    let (res, obj) ← f rw.obj
    .ok (res, { rw with obj := obj, log := rw.log ++ [.destroy res] })

/-- The part of `fstrm__rdwr_read_control_frame` after the escape sequence,
rdwr.c:170-203. A zero length makes the variable length array of rdwr.c:183 have
size zero, which is undefined behaviour (C11 6.7.6.2p5). Returns the result, the
control object, the type (when successful) and the transport. -/
def Rdwr.readControlBody (rw : Rdwr σ) (control : Control) :
    Exec (Res × Control × Option Nat × Rdwr σ) := do
  let (res, tmp, rw) ← rw.read 4
  if res ≠ .success then .ok (res, control, none, rw)
  else
    let len := ntohl tmp
    if len > FRAME_LENGTH_MAX then .ok (.failure, control, none, rw)
    else if len = 0 then .error (.ub "zero length variable length array")
    else do
      let (res, frame, rw) ← rw.read len
      if res ≠ .success then .ok (res, control, none, rw)
      else do
        let (res, control) ← control.decode frame len false
        if res ≠ .success then .ok (res, control, none, rw)
        else
          let (res, type) := control.getType
          .ok (res, control, type, rw)

/-- `fstrm__rdwr_read_control_frame`, rdwr.c:153-204 (`type` is never NULL in
the callers). -/
def Rdwr.readControlFrame (rw : Rdwr σ) (control : Control) (withEscape : Bool) :
    Exec (Res × Control × Option Nat × Rdwr σ) :=
  if withEscape then do
    let (res, tmp, rw) ← rw.read 4
    if res ≠ .success then .ok (res, control, none, rw)
    else if ntohl tmp ≠ 0 then .ok (.failure, control, none, rw)
    else rw.readControlBody control
  else rw.readControlBody control

/-- `fstrm__rdwr_read_control`, rdwr.c:206-225. The object is created when the
pointer is NULL (`none`). -/
def Rdwr.readControl (rw : Rdwr σ) (control : Option Control) (wanted : Nat) :
    Exec (Res × Option Control × Rdwr σ) := do
  let (res, c, type, rw) ← rw.readControlFrame (control.getD Control.init) true
  if res ≠ .success then .ok (res, some c, rw)
  else if type ≠ some wanted then .ok (.failure, some c, rw)
  else .ok (.success, some c, rw)

/-- `fstrm__rdwr_write_control_frame`, rdwr.c:227-252. The stack buffer is
uninitialised in C; the encoder overwrites all of it (`Props.encode_exact`), so
its initial contents are irrelevant and taken to be zero. -/
def Rdwr.writeControlFrame (rw : Rdwr σ) (control : Control) : Exec (Res × Rdwr σ) :=
  match control.encodedSize true with
  | none => .ok (.failure, rw)
  | some size =>
    if size = 0 then .error (.ub "zero length variable length array")
    else do
      let (res, frame, len) ← control.encode (List.replicate size 0) size true
      if res ≠ .success then .ok (res, rw)
      else rw.write [frame.take len]

/-- `fstrm__rdwr_write_control`, rdwr.c:254-277. -/
def Rdwr.writeControl (rw : Rdwr σ) (type : Nat) (ct : Option Bytes) :
    Exec (Res × Rdwr σ) :=
  let (res, control) := Control.init.setType type
  if res ≠ .success then .ok (res, rw)
  else
    match ct with
    | none => rw.writeControlFrame control
    | some ct =>
      let (res, control) := control.addCt ct
      if res ≠ .success then .ok (res, rw) else rw.writeControlFrame control

end Fstrm
