import Verif.Model.Rdwr

/-!
# Model of `/repo/fstrm/writer.c`
-/

set_option autoImplicit false

namespace Fstrm

variable {σ : Type}

/-- `FSTRM__WRITER_IOVEC_SIZE`, writer.c:27. -/
abbrev WRITER_IOVEC_SIZE : Nat := 256
/-- `IOV_MAX`, fstrm-private.h:65-67 (and the Linux value). -/
abbrev IOV_MAX : Nat := 1024
/-- `INT_MAX`. `2 * iovcnt`, writer.c:404. -/
abbrev INT_MAX : Nat := 2147483647

/-- `fstrm_writer_state`, writer.c:29-34. -/
inductive WState where
  | opening | opened | closed | failed
  deriving DecidableEq, Repr

/-- `struct fstrm_writer_options`, writer.c:36-38 (a NULL vector is an empty
list). -/
structure WriterOptions where
  cts : List Bytes
  deriving DecidableEq, Repr

/-- `fstrm_writer_options_init`, writer.c:53-57. -/
def WriterOptions.init : WriterOptions := ⟨[]⟩

/-- `fstrm_writer_options_add_content_type`, writer.c:74-91. -/
def WriterOptions.addCt (o : WriterOptions) (ct : Bytes) : Res × WriterOptions :=
  if ct.length > CT_LENGTH_MAX then (.failure, o)
  else (.success, { o with cts := o.cts ++ [ct] })

/-- `struct fstrm_writer`, writer.c:40-51. `none` is a NULL control pointer. The
scratch arrays `iovecs` (256 entries) and `be32_lens` (128 entries) carry no
information between calls; accesses to them are bounds checked in
`Writer.iovLoop`. -/
structure Writer (σ : Type) where
  state : WState
  cts : List Bytes
  rdwr : Rdwr σ
  ready : Option Control
  accept : Option Control
  start : Option Control
  finish : Option Control

/-- `fstrm_writer_init`, writer.c:93-124; `none` is a NULL result. -/
def Writer.init (wopt : Option WriterOptions) (rdwr : Rdwr σ) : Option (Writer σ) :=
  if rdwr.ops.wr.isNone then none
  else
    let cts := match wopt with
      | none => []
      | some o => o.cts
    some ⟨.opening, cts, rdwr, none, none, none, none⟩

/-- The loops adding all content types to a control frame, writer.c:166-172
(`fstrm_control_add_field_content_type` cannot fail, control.c:175). -/
def addAllCts (c : Control) (cts : List Bytes) : Control :=
  cts.foldl (fun c ct => (c.addCt ct).2) c

/-- `if (p != NULL) fstrm_control_reset(p); else p = fstrm_control_init();`,
writer.c:157-160 and elsewhere. -/
def freshControl (c : Option Control) : Control :=
  match c with
  | some c => c.reset
  | none => Control.init

/-- The matching loop of `fstrm__writer_open_bidirectional`, writer.c:186-200:
`m` is the variable `match`; the loop stops at the first matching content type
(setting `match_ctype` but *not* `match`) and clears `m` on a mismatch. -/
def Writer.matchLoop (accept : Control) : List Bytes → Bool → Bool × Option Bytes
  | [], m => (m, none)
  | ct :: rest, m =>
    if accept.matchCt (some ct) = .success then (m, some ct)
    else Writer.matchLoop accept rest false

/-- `fstrm__writer_open_unidirectional`, writer.c:231-261. -/
def Writer.openUnidirectional (w : Writer σ) : Exec (Res × Writer σ) :=
  let (res, start) := (freshControl w.start).setType T_START
  if res ≠ .success then .ok (res, { w with start := some start })
  else
    let start := match w.cts with
      | [] => start
      | ct :: _ => (start.addCt ct).2
    let w := { w with start := some start }
    do
      let (res, rdwr) ← w.rdwr.writeControlFrame start
      .ok (res, { w with rdwr := rdwr })

/-- The last part of `fstrm__writer_open_bidirectional`, writer.c:206-228: send
START with the matched content type. -/
def Writer.sendStart (w : Writer σ) (ct : Option Bytes) : Exec (Res × Writer σ) :=
  let (res, start) := (freshControl w.start).setType T_START
  if res ≠ .success then .ok (res, { w with start := some start })
  else
    let start := match ct with
      | none => start
      | some ct => (start.addCt ct).2
    let w := { w with start := some start }
    do
      let (res, rdwr) ← w.rdwr.writeControlFrame start
      .ok (res, { w with rdwr := rdwr })

/-- `fstrm__writer_open_bidirectional`, writer.c:151-229. -/
def Writer.openBidirectional (w : Writer σ) : Exec (Res × Writer σ) :=
  let (res, ready) := (freshControl w.ready).setType T_READY
  if res ≠ .success then .ok (res, { w with ready := some ready })
  else do
    let ready := addAllCts ready w.cts
    let w := { w with ready := some ready }
    let (res, rdwr) ← w.rdwr.writeControlFrame ready
    let w := { w with rdwr := rdwr }
    if res ≠ .success then .ok (res, w)
    else do
      let (res, accept, rdwr) ← w.rdwr.readControl w.accept T_ACCEPT
      let w := { w with rdwr := rdwr, accept := accept }
      if res ≠ .success then .ok (res, w)
      else
        match accept with
        | none => .error (.ub "NULL control_accept")
        | some acc =>
          let (m, ct) := Writer.matchLoop acc w.cts true
          if !m then .ok (.failure, w)
          else w.sendStart ct

/-- `fstrm_writer_open`, writer.c:263-289. -/
def Writer.open (w : Writer σ) : Exec (Res × Writer σ) :=
  if w.state = .opened then .ok (.success, w)
  else do
    let (res, rdwr) ← w.rdwr.open
    let w := { w with rdwr := rdwr }
    if res ≠ .success then .ok (res, w)
    else do
      let (res, w) ← (if w.rdwr.ops.rd.isSome then w.openBidirectional else w.openUnidirectional : Exec (Res × Writer σ))
      if res ≠ .success then .ok (res, w)
      else .ok (.success, { w with state := .opened })

/-- `fstrm__writer_maybe_open`, writer.c:291-303. -/
def Writer.maybeOpen (w : Writer σ) : Exec (Res × Writer σ) :=
  if w.state = .opening then w.open else .ok (.success, w)

/-- `fstrm_writer_close`, writer.c:305-334. -/
def Writer.close (w : Writer σ) : Exec (Res × Writer σ) :=
  if w.state ≠ .opened then .ok (.failure, w)
  else do
    let w := { w with state := .closed }
    let (res, rdwr) ← w.rdwr.writeControl T_STOP none
    if res ≠ .success then do
      let (_, rdwr) ← rdwr.close
      .ok (res, { w with rdwr := rdwr })
    else if rdwr.ops.rd.isSome then do
      let (res, finish, rdwr) ← rdwr.readControl w.finish T_FINISH
      let w := { w with finish := finish }
      if res ≠ .success then do
        let (_, rdwr) ← rdwr.close
        .ok (res, { w with rdwr := rdwr })
      else do
        let (res, rdwr) ← rdwr.close
        .ok (res, { w with rdwr := rdwr })
    else do
      let (res, rdwr) ← rdwr.close
      .ok (res, { w with rdwr := rdwr })

/-- The loop of `fstrm__writer_write_iov`, writer.c:339-349, filling
`be32_lens[i]` (128 entries) and `iovecs[idx]`, `iovecs[idx+1]` (256 entries);
`acc` is the filled part of `iovecs`. The length prefix is `htonl` of a
`size_t`, i.e. truncated to 32 bits. -/
def Writer.iovLoop : List Bytes → (i idx : Nat) → List Bytes → Exec (List Bytes)
  | [], _, _, acc => .ok acc
  | d :: rest, i, idx, acc =>
    if i ≥ WRITER_IOVEC_SIZE / 2 then .error (.ub "be32_lens out of bounds")
    else if idx + 1 ≥ WRITER_IOVEC_SIZE then .error (.ub "iovecs out of bounds")
    else Writer.iovLoop rest (i + 1) (idx + 2) (acc ++ [htonl d.length, d])

/-- `fstrm__writer_write_iov`, writer.c:336-352. -/
def Writer.writeIov (w : Writer σ) (iov : List Bytes) : Exec (Res × Writer σ) := do
  let iovecs ← Writer.iovLoop iov 0 0 []
  let (res, rdwr) ← w.rdwr.write iovecs
  .ok (res, { w with rdwr := rdwr })

/-- The number of frames per transport call in
`fstrm__writer_write_iov_stupid`, writer.c:360-363. -/
def stupidMax : Nat :=
  if WRITER_IOVEC_SIZE / 2 > IOV_MAX then IOV_MAX else WRITER_IOVEC_SIZE / 2

/-- `fstrm__writer_write_iov_stupid`, writer.c:354-379. `fuel` bounds the number of
iterations; `iov.length` is enough. -/
def Writer.writeIovStupid : Nat → Writer σ → List Bytes → Exec (Res × Writer σ)
  | 0, w, iov => if iov.length > 0 then .error .fuel else .ok (.success, w)
  | fuel+1, w, iov =>
    if iov.length > 0 then
      let k := if stupidMax > iov.length then iov.length else stupidMax
      do
        let (res, w) ← w.writeIov (iov.take k)
        if res ≠ .success then .ok (res, w)
        else Writer.writeIovStupid fuel w (iov.drop k)
    else .ok (.success, w)

/-- `fstrm_writer_writev`, writer.c:391-411. `iov.length` is `iovcnt`; doubling it
in `int` arithmetic overflows (undefined behaviour) above `INT_MAX / 2`. -/
def Writer.writev (w : Writer σ) (iov : List Bytes) : Exec (Res × Writer σ) :=
  if iov.length < 1 then .ok (.success, w)
  else do
    let (res, w) ← w.maybeOpen
    if res ≠ .success then .ok (res, w)
    else if w.state = .opened then
      if 2 * iov.length > INT_MAX then .error (.ub "signed overflow in 2 * iovcnt")
      else if 2 * iov.length ≤ WRITER_IOVEC_SIZE then w.writeIov iov
      else Writer.writeIovStupid iov.length w iov
    else .ok (.failure, w)

/-- `fstrm_writer_write`, writer.c:381-389. -/
def Writer.write (w : Writer σ) (data : Bytes) : Exec (Res × Writer σ) :=
  w.writev [data]

/-- `fstrm_writer_get_control`, writer.c:413-446. The third component is
`*control` (`none`: NULL or not set). -/
def Writer.getControl (w : Writer σ) (type : Nat) :
    Exec (Res × Option Control × Writer σ) := do
  let (res, w) ← w.maybeOpen
  if res ≠ .success then .ok (res, none, w)
  else if type = T_ACCEPT then .ok (.success, w.accept, w)
  else if type = T_FINISH then .ok (.success, w.finish, w)
  else if type = T_READY then .ok (.success, w.ready, w)
  else if type = T_START then .ok (.success, w.start, w)
  else .ok (.failure, none, w)

/-- `fstrm_writer_destroy`, writer.c:126-149 (memory deallocation:
`HWriter.destroy` in Model/Heap.lean). Returns the final transport, whose ghost log is what remains
observable. -/
def Writer.destroy (w : Writer σ) : Exec (Res × Rdwr σ) := do
  let (res, w) ← (if w.state = .opened then w.close else .ok (.failure, w) : Exec (Res × Writer σ))
  let (_, rdwr) ← w.rdwr.destroy
  .ok (res, rdwr)

end Fstrm
