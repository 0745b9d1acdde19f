import Verif.Model.Rdwr
import Verif.Model.Vector
import Verif.Model.Writer

/-!
# Model of `/repo/fstrm/reader.c`
-/

set_option autoImplicit false

namespace Fstrm

variable {σ : Type}

/-- `FSTRM_READER_MAX_FRAME_SIZE_DEFAULT`, fstrm/reader.h:47. -/
abbrev MAX_FRAME_SIZE_DEFAULT : Nat := 1048576
/-- `UINT32_MAX`. Used at reader.c:107, iothr.c:431. -/
abbrev UINT32_MAX : Nat := 4294967295

/-- `fstrm_reader_state`, reader.c:28-34. -/
inductive RState where
  | opening | opened | closing | closed | failed
  deriving DecidableEq, Repr

/-- `struct fstrm_reader_options`, reader.c:49-52. -/
structure ReaderOptions where
  cts : List Bytes
  maxFrameSize : Nat
  deriving DecidableEq, Repr

/-- `fstrm_reader_options_init`, reader.c:54-65 (with the default values). -/
def ReaderOptions.init : ReaderOptions := ⟨[], MAX_FRAME_SIZE_DEFAULT⟩

/-- `fstrm_reader_options_add_content_type`, reader.c:82-99. -/
def ReaderOptions.addCt (o : ReaderOptions) (ct : Bytes) : Res × ReaderOptions :=
  if ct.length > CT_LENGTH_MAX then (.failure, o)
  else (.success, { o with cts := o.cts ++ [ct] })

/-- `fstrm_reader_options_set_max_frame_size`, reader.c:101-113. -/
def ReaderOptions.setMaxFrameSize (o : ReaderOptions) (m : Nat) : Res × ReaderOptions :=
  if m < FRAME_LENGTH_MAX ∨ m > UINT32_MAX - 1 then (.failure, o)
  else (.success, { o with maxFrameSize := m })

/-- `struct fstrm_reader`, reader.c:36-47. The buffer `buf` is represented by its
number of elements and its capacity. -/
structure Reader (σ : Type) where
  state : RState
  cts : List Bytes
  maxFrameSize : Nat
  rdwr : Rdwr σ
  start : Option Control
  stop : Option Control
  ready : Option Control
  accept : Option Control
  tmp : Option Control
  bufN : Nat
  bufCap : Nat

/-- `fstrm_reader_init`, reader.c:115-148; `none` is a NULL result. -/
def Reader.init (ropt : Option ReaderOptions) (rdwr : Rdwr σ) : Option (Reader σ) :=
  let o := match ropt with
    | none => ReaderOptions.init
    | some o => o
  if rdwr.ops.rd.isNone then none
  else some ⟨.opening, o.cts, o.maxFrameSize, rdwr, none, none, none, none, none, 0, FRAME_LENGTH_MAX⟩

/-- The matching loop of `fstrm__reader_open_unidirectional`, reader.c:189-203;
`m` is the variable `match`. -/
def Reader.matchLoop (start : Control) : List Bytes → Bool → Bool
  | [], m => m
  | ct :: rest, _ =>
    if start.matchCt (some ct) = .success then true
    else Reader.matchLoop start rest false

/-- `fstrm__reader_open_unidirectional`, reader.c:178-209. -/
def Reader.openUnidirectional (r : Reader σ) : Exec (Res × Reader σ) := do
  let (res, start, rdwr) ← r.rdwr.readControl r.start T_START
  let r := { r with rdwr := rdwr, start := start }
  if res ≠ .success then .ok (res, r)
  else
    match start with
    | none => .error (.ub "NULL control_start")
    | some st =>
      if !(Reader.matchLoop st r.cts true) then .ok (.failure, r)
      else .ok (.success, { r with state := .opened })

/-- The loop adding the acceptable content types to the ACCEPT frame,
reader.c:232-242. The early return of reader.c:239-240 is left out: adding fails only for a content
type longer than 256 bytes, and `fstrm_reader_options_add_content_type` refuses those. -/
def Reader.acceptLoop (ready : Control) : List Bytes → Control → Control
  | [], acc => acc
  | ct :: rest, acc =>
    if ready.matchCt (some ct) = .success then
      Reader.acceptLoop ready rest (acc.addCt ct).2
    else Reader.acceptLoop ready rest acc

/-- `fstrm__reader_open_bidirectional`, reader.c:211-251. -/
def Reader.openBidirectional (r : Reader σ) : Exec (Res × Reader σ) := do
  let (res, ready, rdwr) ← r.rdwr.readControl r.ready T_READY
  let r := { r with rdwr := rdwr, ready := ready }
  if res ≠ .success then .ok (res, r)
  else
    match ready with
    | none => .error (.ub "NULL control_ready")
    | some rdy =>
      let (res, accept) := (freshControl r.accept).setType T_ACCEPT
      if res ≠ .success then .ok (res, { r with accept := some accept })
      else do
        let accept := Reader.acceptLoop rdy r.cts accept
        let r := { r with accept := some accept }
        let (res, rdwr) ← r.rdwr.writeControlFrame accept
        let r := { r with rdwr := rdwr }
        if res ≠ .success then .ok (res, r)
        else r.openUnidirectional

/-- `fstrm_reader_open`, reader.c:253-279. -/
def Reader.open (r : Reader σ) : Exec (Res × Reader σ) :=
  if r.state = .opened then .ok (.failure, r)
  else do
    let (res, rdwr) ← r.rdwr.open
    let r := { r with rdwr := rdwr }
    if res ≠ .success then .ok (res, r)
    else do
      let (res, r) ← (if r.rdwr.ops.wr.isSome then r.openBidirectional else r.openUnidirectional : Exec (Res × Reader σ))
      if res ≠ .success then .ok (res, r)
      else .ok (.success, { r with state := .opened })

/-- `fstrm__reader_read_be32`, reader.c:281-292. -/
def Reader.readBe32 (r : Reader σ) : Exec (Res × Nat × Reader σ) := do
  let (res, tmp, rdwr) ← r.rdwr.read 4
  let r := { r with rdwr := rdwr }
  if res ≠ .success then .ok (res, 0, r) else .ok (.success, ntohl tmp, r)

/-- `ubuf_clip(r->buf, 0); ubuf_reserve(r->buf, len)`, reader.c:316-317
(vector.h:129-137, 77-86). -/
def Reader.reserve (r : Reader σ) (len : Nat) : Exec (Reader σ) := do
  let n := if 0 < r.bufN then 0 else r.bufN
  let cap ← growCap (len + n + 1) r.bufCap n len
  .ok { r with bufN := n, bufCap := cap }

/-- The data frame branch of `fstrm__reader_next_data`, reader.c:309-326 and the
`fail` label. The result's third component is what `*data`/`*len_data` are set
to (`none`: not set). Note reader.c:313-314: an oversized frame jumps to `fail`
while `res` is still `fstrm_res_success`. Reading past the buffer's capacity
would be undefined behaviour. -/
def Reader.dataFrame (r : Reader σ) (len : Nat) : Exec (Res × Option Bytes × Reader σ) :=
  if len > r.maxFrameSize then .ok (.success, none, { r with state := .failed })
  else do
    let r ← r.reserve len
    if r.bufN + len > r.bufCap then .error (.ub "read past the end of the frame buffer")
    else do
      let (res, bs, rdwr) ← r.rdwr.read len
      let r := { r with rdwr := rdwr }
      if res ≠ .success then .ok (res, none, { r with state := .failed })
      else .ok (.success, some bs, r)

/-- `fstrm__reader_next_data`, reader.c:294-354. `fuel` bounds the number of
iterations of the `for (;;)` loop (one per skipped control frame). -/
def Reader.nextData : Nat → Reader σ → Exec (Res × Option Bytes × Reader σ)
  | 0, _ => .error .fuel
  | fuel+1, r => do
    let (res, len, r) ← r.readBe32
    if res ≠ .success then .ok (res, none, { r with state := .failed })
    else if len ≠ 0 then r.dataFrame len
    else do
      let (res, tmp, type, rdwr) ← r.rdwr.readControlFrame (r.tmp.getD Control.init) false
      let r := { r with rdwr := rdwr, tmp := some tmp }
      if res ≠ .success then .ok (res, none, { r with state := .failed })
      else if type = some T_STOP then
        .ok (.stop, none, { r with state := .closing, stop := some tmp, tmp := none })
      else Reader.nextData fuel r

/-- `fstrm__reader_maybe_open`, reader.c:356-368. -/
def Reader.maybeOpen (r : Reader σ) : Exec (Res × Reader σ) :=
  if r.state = .opening then r.open else .ok (.success, r)

/-- `fstrm_reader_close`, reader.c:370-393. -/
def Reader.close (r : Reader σ) : Exec (Res × Reader σ) :=
  if r.state ≠ .opened ∧ r.state ≠ .closing then .ok (.failure, r)
  else do
    let r := { r with state := .closed }
    if r.rdwr.ops.wr.isSome then do
      let (res, rdwr) ← r.rdwr.writeControl T_FINISH none
      if res ≠ .success then do
        let (_, rdwr) ← rdwr.close
        .ok (res, { r with rdwr := rdwr })
      else do
        let (res, rdwr) ← rdwr.close
        .ok (res, { r with rdwr := rdwr })
    else do
      let (res, rdwr) ← r.rdwr.close
      .ok (res, { r with rdwr := rdwr })

/-- `fstrm_reader_read`, reader.c:395-412. The second component is what
`*data`/`*len_data` are set to; `none` means they are left untouched. -/
def Reader.read (fuel : Nat) (r : Reader σ) : Exec (Res × Option Bytes × Reader σ) := do
  let (res, r) ← r.maybeOpen
  if res ≠ .success then .ok (res, none, r)
  else if r.state = .opened then Reader.nextData fuel r
  else if r.state = .closed then .ok (.stop, none, r)
  else .ok (.failure, none, r)

/-- `fstrm_reader_get_control`, reader.c:414-447. -/
def Reader.getControl (r : Reader σ) (type : Nat) :
    Exec (Res × Option Control × Reader σ) := do
  let (res, r) ← r.maybeOpen
  if res ≠ .success then .ok (res, none, r)
  else if type = T_START then .ok (.success, r.start, r)
  else if type = T_STOP then .ok (.success, r.stop, r)
  else if type = T_READY then .ok (.success, r.ready, r)
  else if type = T_ACCEPT then .ok (.success, r.accept, r)
  else .ok (.failure, none, r)

/-- `fstrm_reader_destroy`, reader.c:150-176 (memory deallocation:
`HReader.destroy` in Model/Heap.lean). -/
def Reader.destroy (r : Reader σ) : Exec (Res × Rdwr σ) := do
  let (res, r) ← (if r.state = .opened ∨ r.state = .closing then r.close else .ok (.failure, r) : Exec (Res × Reader σ))
  let (_, rdwr) ← r.rdwr.destroy
  .ok (res, rdwr)

end Fstrm
