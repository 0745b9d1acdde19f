import Verif.Spec.IoNet
import Verif.Model.IothrQueues
import Verif.Props.Options

/-!
# A program that sends through an I/O thread with its input queues in memory, as one end of a connection

As in `Verif.Spec.IoNet`, but the threads' operations on the input queues are memory accesses, interleaved
arbitrarily, with stores that may be delayed (`Model/IothrQueues.lean`).
-/

set_option autoImplicit false

namespace Fstrm.Spec

/-- A program: the options of its writer and of its I/O thread, the kind of machine,
what happens before the program calls destroy, and what happens from then until destroy returns. -/
structure QClient where
  wopt : Option WriterOptions
  opt : IothrOptions
  machine : Machine
  before : List QAct
  after : List QAct

/-- What is known of the program when destroy has returned: the history of the I/O thread; the payloads for
which submit had returned success when destroy was called, and for each queue and thread those that were
still on their way into the queue; the payloads for which submit has returned success by the end,
the thread that submitted each payload, and the submit calls that have not returned. -/
structure QEnd where
  io : Iothr Chan
  done : List Entry
  late : Nat → Nat → List Entry
  rets : List Entry
  who : Nat → Nat
  busy : Nat → Nat → Option Entry

/-- What the program does, given all bytes delivered to it so far. -/
def QClient.side (p : QClient) : Side QEnd := fun y =>
  match Writer.init p.wopt (Rdwr.init chanOps ⟨y, []⟩) with
  | none => .error (.abort "no writer")
  | some w =>
    match IoQ.init (p.opt.queueImpl p.machine) ENTRY_SIZE p.opt w with
    | none => .error (.abort "no queues")
    | some s => do
      let s1 ← s.run p.before
      let s ← s1.run (.shutdown :: p.after ++ [.finish])
      .ok (⟨s.io, s1.rets, s1.wait, s.rets, s.who, s.cur⟩, s.io.writer.rdwr.obj.out)

/-- The content types the program's writer is configured with, in order. -/
def QClient.types (p : QClient) : List Bytes :=
  match p.wopt with
  | none => []
  | some o => o.cts

/-- The payloads among `es` that thread `t` submitted to queue `q`. -/
def QEnd.mine (e : QEnd) (q t : Nat) (es : List Entry) : List Entry :=
  (onQueue q es).filter fun x => decide (e.who x.id = t)

/-- The program has destroyed its I/O thread and no call of the writer has failed; when it called destroy
all submissions that had returned had taken effect, and none was in progress when destroy returned. -/
structure QEnd.Clean (e : QEnd) : Prop where
  finished : Finished e.io
  settled : ∀ q t, e.late q t = []
  idle : ∀ q t, e.busy q t = none

/-- The options come from the setters and the size of the queues is a power of two. The schedule covers
the life of the I/O thread: the clock has reached the reopen interval when the thread starts; destroy is
called once; and with some peer the program gets there without a failing call of the writer. -/
structure QClient.Whole (p : QClient) : Prop where
  opt : Props.Reached p.opt
  size : ∃ k, p.opt.inputQueueSize = 2 ^ k
  starts : ∃ pre now wk k mid, p.before = pre ++ .io now wk k :: mid ∧
    (∀ a ∈ pre, a.isIo = false) ∧ p.opt.reopenInterval ≤ now
  once : QAct.shutdown ∉ p.before ∧ QAct.finish ∉ p.before ∧ QAct.finish ∉ p.after
  ends : ∃ y e sent, p.side y = .ok (e, sent) ∧ e.Clean

/-- A program that suits a server for the content type `ct` with buffers of `hw` bytes. -/
structure QSuits (ct : Bytes) (hw : Nat) (p : QClient) : Prop where
  whole : p.Whole
  server : ct.length ≤ 256
  types : ∀ c ∈ p.types, c.length ≤ 256
  first : ∀ c, p.types.head? = some c → c = ct
  ready : (CFrame.wire ⟨.ready, p.types⟩).length < 512
  readyFits : (CFrame.wire ⟨.ready, p.types⟩).length ≤ hw
  startFits : (CFrame.wire ⟨.start, [ct]⟩).length ≤ hw
  fits : ∀ q t raw d f, .submit q t raw (some d) f ∈ p.before ++ p.after → 4 + d.length ≤ hw
  buffer : hw < 2 ^ 31

end Fstrm.Spec
