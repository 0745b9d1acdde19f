import Verif.Model.IothrOptions
import Verif.Spec.IothrLog

/-!
# Model of the I/O thread, `/repo/fstrm/iothr.c`

The producers, the I/O thread and the thread calling `fstrm_iothr_destroy` are interleaved. Every
step contains at most one access to what they share: the input queues and the flag
`shutting_down`. The output queue and the writer are used by the I/O thread only, so working on
them is part of the step before.

* The input queues are bounded FIFOs of capacity `input_queue_size - 1` with atomic insertion
  and removal. That is what `Props.queue_is_fifo`, `Props.tso_spsc` and
  `Props.mutex_linearizable` establish for the two implementations.
* The writer is the model of `writer.c` over an arbitrary transport. Calls that block forever are
  not modelled.
* The clock and the reason for waking up are chosen by the environment.
-/

set_option autoImplicit false

namespace Fstrm

variable {σ : Type}

/-- Program counter of the I/O thread, `fstrm__iothr_thr`, iothr.c:596-643.
* `start`: before the first `fstrm__iothr_maybe_open`, line 602;
* `top`: at the beginning of the loop, line 608;
* `work i total`: in `fstrm__iothr_process_queues` called from line 617, at queue `i`;
* `drain i total`: the same for the call in line 609;
* `sleep deadline`: in `pthread_cond_timedwait`, line 635;
* `exited`: the thread has returned. -/
inductive IoPc where
  | start
  | top
  | work (i total : Nat)
  | drain (i total : Nat)
  | sleep (deadline : Nat)
  | exited
  deriving DecidableEq, Repr

/-- Why `pthread_cond_timedwait` returns. iothr.c:635-639. -/
inductive Wake where
  | timeout
  | signal
  | spurious
  deriving DecidableEq, Repr

/-- `struct fstrm_iothr`, iothr.c:67-114. `outq` are the first `outq_idx` elements of
`outq_entries` (and, by their data, of `outq_iov`). `pending t` is the submit call of thread
`t` that has passed the checks but not yet inserted its entry. `woken`: the condition variable
was signalled while the I/O thread waited on it. `destroyed`: the memory has
been freed. `nextId` and `log` are ghost fields. -/
structure Iothr (σ : Type) where
  opt : IothrOptions
  writer : Writer σ
  opened : Bool
  lastOpen : Nat
  queues : List (List Entry)
  shutting : Bool
  getIdx : Nat
  outq : List Entry
  outqBytes : Nat
  pc : IoPc
  woken : Bool
  pending : Nat → Option Entry
  destroyed : Bool
  nextId : Nat
  log : List IoEv

namespace Iothr

/-- The state `fstrm_iothr_init` leaves behind (iothr.c:232-336); for its failures see
`iothrInit`. -/
def init (opt : IothrOptions) (writer : Writer σ) : Iothr σ :=
  let opt := if opt.outputQueueSize > IOV_MAX then { opt with outputQueueSize := IOV_MAX } else opt
  ⟨opt, writer, false, 0, List.replicate opt.numInputQueues [], false, 0, [], 0, .start,
    false, fun _ => none, false, 0, []⟩

/-- Add an event to the ghost log. Not in the code. -/
def emit (s : Iothr σ) (e : IoEv) : Iothr σ := { s with log := s.log ++ [e] }

/-- `pthread_cond_signal`, iothr.c:370 and 441. It has an effect only if the I/O thread is waiting;
neither the signalling threads nor the I/O thread look at any condition while holding the lock,
so a signal may be missed. -/
def signal (s : Iothr σ) : Iothr σ :=
  match s.pc with
  | .sleep _ => { s with woken := true }
  | _ => s

/-- `fstrm__iothr_queue_entry_free_bytes`, iothr.c:338-343. -/
def freeEntry (s : Iothr σ) (e : Entry) : Iothr σ := if e.hasFree then s.emit (.freed e) else s

/-- Loops freeing several entries, iothr.c:470-471 and 353-355. -/
def freeAll (s : Iothr σ) (es : List Entry) : Iothr σ := es.foldl freeEntry s

/-- `fstrm__iothr_close`, iothr.c:448-455. -/
def close (s : Iothr σ) : Exec (Iothr σ) :=
  if s.opened then do
    let (res, w) ← s.writer.close
    .ok ({ s with opened := false, writer := w }.emit (.close res))
  else .ok s

/-- The end of `fstrm__iothr_flush_output`, iothr.c:469-476. -/
def freeOutq (s : Iothr σ) : Iothr σ :=
  let s := s.freeAll s.outq
  { s with outq := [], outqBytes := 0 }

/-- `fstrm__iothr_flush_output`, iothr.c:457-477. -/
def flush (s : Iothr σ) : Exec (Iothr σ) :=
  if s.opened = true ∧ s.outq.length > 0 then do
    let (res, w) ← s.writer.writev (s.outq.map Entry.data)
    let s := { s with writer := w }.emit (.write s.outq res)
    if res ≠ .success then do
      let s ← s.close
      .ok s.freeOutq
    else .ok s.freeOutq
  else .ok s.freeOutq

/-- `fstrm__iothr_maybe_flush_output`, iothr.c:479-495. The sum is computed with 64 bits. -/
def maybeFlush (s : Iothr σ) (nbytes : Nat) : Exec (Iothr σ) :=
  if ¬ s.outq.length ≤ s.opt.outputQueueSize then .error (.abort "outq_idx <= output_queue_size")
  else if s.outq.length > 0 ∧
      (s.outq.length ≥ s.opt.outputQueueSize ∨ s.outqBytes + nbytes ≥ s.opt.bufferHint) then s.flush
  else .ok s

/-- `fstrm__iothr_process_queue_entry`, iothr.c:497-522. `outq_nbytes` has 32 bits. -/
def processEntry (s : Iothr σ) (e : Entry) : Exec (Iothr σ) :=
  if s.opened then do
    let nbytes := 4 + e.data.length
    let s ← s.maybeFlush nbytes
    if s.outq.length ≥ s.opt.outputQueueSize then .error (.ub "outq_entries out of bounds")
    else .ok { s with outq := s.outq ++ [e], outqBytes := (s.outqBytes + nbytes) % 4294967296 }
  else .ok (s.freeEntry e)

/-- One iteration of the loop of `fstrm__iothr_process_queues`, iothr.c:534-539: try to remove an
entry from queue `i`; returns the number of entries removed. -/
def processQueue (s : Iothr σ) (i : Nat) : Exec (Nat × Iothr σ) :=
  match s.queues[i]? with
  | some (e :: rest) => do
    let s ← { s with queues := s.queues.set i rest }.processEntry e
    .ok (1, s)
  | _ => .ok (0, s)

/-- `fstrm__iothr_maybe_open` with `fstrm__iothr_open`, iothr.c:544-582; `now` is the clock. The
difference is computed as `time_t`; a clock behind the last attempt gives a negative
number, which is below the interval. -/
def maybeOpen (s : Iothr σ) (now : Nat) : Exec (Iothr σ) :=
  if s.opened then .ok s
  else if (now : Int) - s.lastOpen < s.opt.reopenInterval then .ok s
  else do
    let (res, w) ← s.writer.open
    .ok ({ s with lastOpen := now, opened := decide (res = Res.success), writer := w }.emit (.opn now res))

/-- One step of the I/O thread, iothr.c:596-643. `now` is what the clock shows (in seconds), `wake`
the reason for the end of a wait. A wait that cannot end for that reason goes on. The time
between reading the clock (line 624) and starting to wait is not modelled. -/
def ioStep (s : Iothr σ) (now : Nat) (wake : Wake) : Exec (Iothr σ) :=
  match s.pc with
  | .start => do
    let s ← s.maybeOpen now
    .ok { s with pc := .top }
  | .top =>
    if s.shutting then .ok { s with pc := .drain 0 0 }
    else do
      let s ← s.maybeOpen now
      .ok { s with pc := .work 0 0 }
  | .work i total =>
    if i < s.opt.numInputQueues then do
      let (n, s) ← s.processQueue i
      .ok { s with pc := .work (i + 1) (total + n) }
    else if total ≠ 0 then .ok { s with pc := .top }
    else .ok { s with pc := .sleep (now + s.opt.flushTimeout), woken := false }
  | .drain i total =>
    if i < s.opt.numInputQueues then do
      let (n, s) ← s.processQueue i
      .ok { s with pc := .drain (i + 1) (total + n) }
    else if total ≠ 0 then .ok { s with pc := .drain 0 0 }
    else do
      let s ← s.flush
      let s ← s.close
      .ok { s with pc := .exited }
  | .sleep deadline =>
    match wake with
    | .timeout =>
      if deadline ≤ now then do
        let s ← s.flush
        .ok { s with pc := .top }
      else .ok s
    | .signal => if s.woken then .ok { s with pc := .top } else .ok s
    | .spurious => .ok { s with pc := .top }
  | .exited => .ok s

/-- The first part of `fstrm_iothr_submit`, iothr.c:420-438, executed by thread `t`. `data` is
`none` for a NULL pointer. A thread executes one call at a time; queue handles are those of
existing queues. -/
def submitCheck (s : Iothr σ) (t q : Nat) (data : Option Bytes) (hasFree : Bool) : Exec (Iothr σ) :=
  if s.destroyed then .error (.ub "use after free")
  else if (s.pending t).isSome ∨ q ≥ s.queues.length then .ok s
  else
    let id := s.nextId
    let s := { s with nextId := s.nextId + 1 }
    if s.shutting then .ok (s.emit (.refused id .failure))
    else
      match data with
      | none => .ok (s.emit (.refused id .invalid))
      | some d =>
        if d.length < 1 ∨ d.length ≥ 4294967295 then .ok (s.emit (.refused id .invalid))
        else
          .ok { s with
            pending := fun t' => if t' = t then some ⟨id, q, d, hasFree⟩ else s.pending t' }

/-- The second part of `fstrm_iothr_submit`, iothr.c:439-445: insertion into the queue. -/
def submitInsert (s : Iothr σ) (t : Nat) : Exec (Iothr σ) :=
  match s.pending t with
  | none => .ok s
  | some e =>
    if s.destroyed then .error (.ub "use after free")
    else
      let s := { s with pending := fun t' => if t' = t then none else s.pending t' }
      match s.queues[e.queue]? with
      | none => .ok s
      | some q =>
        if q.length < s.opt.inputQueueSize - 1 then
          let s := { s with queues := s.queues.set e.queue (q ++ [e]) }.emit (.submitted e)
          let space := s.opt.inputQueueSize - 1 - (q.length + 1)
          if space = s.opt.notifyThreshold then .ok (s.emit .signal).signal else .ok s
        else .ok (s.emit (.refused e.id .again))

/-- `fstrm_iothr_get_input_queue`, iothr.c:387-400 (under its lock). -/
def getQueue (s : Iothr σ) : Exec (Iothr σ) :=
  if s.destroyed then .error (.ub "use after free")
  else if s.getIdx < s.opt.numInputQueues then
    .ok ({ s with getIdx := s.getIdx + 1 }.emit (.gotQueue (some s.getIdx)))
  else .ok (s.emit (.gotQueue none))

/-- `fstrm_iothr_get_input_queue_idx`, iothr.c:402-411: the number of the queue returned. -/
def getQueueIdx (s : Iothr σ) (idx : Nat) : Option Nat :=
  if idx < s.opt.numInputQueues then some idx else none

/-- The first part of `fstrm_iothr_destroy`, iothr.c:361-369. (Calling it twice is a use after free
in C; here the second call does nothing.) -/
def shutdown (s : Iothr σ) : Exec (Iothr σ) :=
  if s.shutting then .ok s else .ok ({ s with shutting := true }.emit .shutdown).signal

/-- The second part of `fstrm_iothr_destroy`, iothr.c:370-384, after the I/O thread has been joined:
destroy the writer, free what is left in the queues (`fstrm__iothr_free_queues`,
iothr.c:345-359), free the object. -/
def finish (s : Iothr σ) : Exec (Iothr σ) :=
  if s.shutting = true ∧ s.pc = .exited ∧ s.destroyed = false then do
    let (_, rdwr) ← s.writer.destroy
    let s := { s with writer := { s.writer with rdwr := rdwr } }
    let s := s.freeAll s.queues.flatten
    .ok ({ s with queues := s.queues.map fun _ => [], destroyed := true }.emit .destroyed)
  else .ok s

end Iothr

/-- One step of the whole program.
fstrm_iothr_get_input_queue, iothr.c:388-411; fstrm_iothr_submit, 421-446; fstrm_iothr_destroy, 362-385; the thread, 597-643. -/
inductive IoAct where
  | submit (t q : Nat) (data : Option Bytes) (hasFree : Bool)
  | insert (t : Nat)
  | getQueue
  | io (now : Nat) (wake : Wake)
  | shutdown
  | finish
  deriving DecidableEq, Repr

/-- Perform one step. iothr.c:338-643. -/
def Iothr.step (s : Iothr σ) : IoAct → Exec (Iothr σ)
  | .submit t q data hasFree => s.submitCheck t q data hasFree
  | .insert t => s.submitInsert t
  | .getQueue => s.getQueue
  | .io now wake => s.ioStep now wake
  | .shutdown => s.shutdown
  | .finish => s.finish

/-- Perform steps in the given order. iothr.c:338-643. -/
def Iothr.run : Iothr σ → List IoAct → Exec (Iothr σ)
  | s, [] => .ok s
  | s, a :: as => do
    let s ← s.step a
    s.run as

/-! For stating properties. -/

/-- Is this a step of the I/O thread? iothr.c:597-643. -/
def Iothr.isIo : IoAct → Bool
  | .io _ _ => true
  | _ => false

/-- The first `n` steps of an infinite schedule of the I/O thread.
For stating properties; iothr.c:597-643. -/
def Iothr.ioActs (f : Nat → Nat × Wake) (n : Nat) : List IoAct :=
  (List.range n).map fun k => .io (f k).1 (f k).2

end Fstrm
